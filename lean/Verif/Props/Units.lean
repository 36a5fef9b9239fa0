import Verif.Spec.Units
import Verif.Props.Batch

/-! # Property C89: change of units (models, frameworks, spaces) -/

namespace Props
open Spec Hel

variable {Z μ ν : Type}

theorem opt_times (c : ℝ) {P Q : Prop} [Decidable P] [Decidable Q] {x y : ℝ} (h : P ↔ Q) (hx : y = c * x) :
    (if P then some y else none) = (if Q then some x else none : Option ℝ).map (c * ·) := by
  by_cases hQ : Q
  · rw [if_pos hQ, if_pos (h.2 hQ), hx]; rfl
  · rw [if_neg hQ, if_neg fun hP => hQ (h.1 hP)]; rfl

/-- The parameters of the third-order-deformation model in another unit. -/
theorem C89_third_order (c : ℝ) (hc : c ≠ 0) (C10 C01 C11 C20 C30 : ℝ) (b : Bool) :
    InvMat.ScaledBy (Z := Z) c (TOD.init C10 C01 C11 C20 C30 b).mat
      (TOD.init (c * C10) (c * C01) (c * C11) (c * C20) (c * C30) b).mat := by
  intro I1 I2 I3 z s t
  have h0 : ∀ x : ℝ, c * x ≠ 0 ↔ x ≠ 0 := fun x => by simp [hc]
  simp only [TOD.mat, PyM.lift_run, TOD.gradient_eq, TOD.hessian_eq, Except.map, Except.ok.injEq]
  constructor
  · unfold TOD.gradVal InvGrad.times
    congr 1
    · exact opt_times c (or_congr (h0 _) (or_congr (h0 _) (or_congr (h0 _) (h0 _)))) (by simp only [TOD.init]; ring)
    · exact opt_times c (or_congr (h0 _) (h0 _)) (by simp only [TOD.init]; ring)
  · unfold TOD.hessVal InvHess.times
    congr 1
    · exact opt_times c (or_congr (h0 _) (h0 _)) (by simp only [TOD.init]; ring)
    · exact opt_times c (h0 _) rfl

theorem foldlM_times (f g : ℝ × ℝ → ℝ → ℝ) (c : ℝ) (h : ∀ p x, f (c * p.1, p.2) x = c * g p x) (l : Vec3 ℝ)
    (mu alpha : List ℝ) (acc : Vec3 ℝ) :
    ((mu.map (c * ·)).zip alpha).foldlM (m := Except PyErr) (init := fun a => c * acc a) (fun acc p =>
      if p.2 = 0 then .error .zeroDivision else .ok fun a => acc a + f p (l a)) =
    ((mu.zip alpha).foldlM (m := Except PyErr) (init := acc) (fun acc p =>
      if p.2 = 0 then .error .zeroDivision else .ok fun a => acc a + g p (l a))).map fun r => fun a => c * r a := by
  induction mu generalizing alpha acc with
  | nil => rfl
  | cons m mu ih =>
    cases alpha with
    | nil => rfl
    | cons al alpha =>
      simp only [List.map_cons, List.zip_cons_cons, List.foldlM_cons]
      by_cases h0 : al = 0
      · rw [if_pos h0, if_pos h0]; rfl
      · rw [if_neg h0, if_neg h0]
        have e : (fun a => c * acc a + f (c * m, al) (l a)) = fun a => c * (acc a + g (m, al) (l a)) := by
          funext a
          have := h (m, al) (l a)
          simp only at this
          rw [this]; ring
        change List.foldlM _ (fun a => c * acc a + f (c * m, al) (l a)) _ = _
        rw [e]
        exact ih alpha _

/-- The moduli of the Ogden model in another unit. -/
theorem C89_ogden (c : ℝ) (mu alpha : List ℝ) :
    StrMat.ScaledBy (Z := Z) c (Ogden.mat ⟨mu, alpha⟩) (Ogden.mat ⟨mu.map (c * ·), alpha⟩) := by
  intro l z s t
  have e0 : (fun _ => 0 : Vec3 ℝ) = fun a => c * (fun _ => 0 : Vec3 ℝ) a := by funext a; simp
  simp only [Ogden.mat, PyM.lift_run]
  constructor
  · change Bind.bind _ _ = Except.map _ (Bind.bind _ _)
    have h := foldlM_times (fun p x => 2 * p.1 / p.2 * x ^ (p.2 - 1)) (fun p x => 2 * p.1 / p.2 * x ^ (p.2 - 1)) c
      (fun p x => by ring) l mu alpha fun _ => 0
    simp only [mul_zero] at h
    rw [h]
    rcases List.foldlM _ _ _ with e | r <;> rfl
  · change Bind.bind _ _ = Except.map _ (Bind.bind _ _)
    have h := foldlM_times (fun p x => 2 * p.1 / p.2 * (p.2 - 1) * x ^ (p.2 - 2))
      (fun p x => 2 * p.1 / p.2 * (p.2 - 1) * x ^ (p.2 - 2)) c
      (fun p x => by ring) l mu alpha fun _ => 0
    simp only [mul_zero] at h
    rw [h]
    rcases List.foldlM _ _ _ with e | r
    · rfl
    · refine congrArg Except.ok (congrArg StrHess.list ?_)
      funext m
      fin_cases m <;> rfl

/-! ### frameworks -/

theorem gradPure_times (c : ℝ) (C : Vec6 ℝ) (r : InvGrad ℝ Z) :
    Invariants.gradPure C (InvGrad.times c r) = fun a => c * Invariants.gradPure C r a := by
  funext a
  rcases r with ⟨_ | d1, _ | d2, _ | d3, sv⟩ <;>
    simp only [Invariants.gradPure, InvGrad.times, Option.map, Option.getD] <;> ring

theorem addTermRes_times (c : ℝ) (acc : Mat6 ℝ) (cond coef : Option ℝ) (x y : Option (Vec6 ℝ))
    (T : Vec6 ℝ → Vec6 ℝ → Mat6 ℝ) :
    Invariants.addTermRes (fun a b => c * acc a b) (cond.map (c * ·)) (coef.map (c * ·)) x y T =
      (Invariants.addTermRes acc cond coef x y T).map fun h => fun a b => c * h a b := by
  rcases cond with _ | d <;> rcases x with _ | x <;> rcases y with _ | y <;> rcases coef with _ | e <;> try rfl
  change Except.ok _ = Except.ok _
  congr 1
  funext a b
  ring

theorem hessRes_times (c : ℝ) (C : Vec6 ℝ) (r : InvGrad ℝ Z) (h : InvHess ℝ) :
    Invariants.hessRes C (InvGrad.times c r) (InvHess.times c h) =
      (Invariants.hessRes C r h).map fun h => fun a b => c * h a b := by
  have e : ∀ (d : Option ℝ) (v : Vec6 ℝ), Invariants.loc (d.map (c * ·)) v = Invariants.loc d v := by
    intro d v; cases d <;> rfl
  have e0 : (fun a b => (InvGrad.times c r).d2.getD 0 * (dya eye eye a b - cdyaSelf eye a b) +
        (InvGrad.times c r).d3.getD 0 * (det C * (dya (inv C (some (det C))) (inv C (some (det C))) a b -
          cdyaSelf (inv C (some (det C))) a b)) : Mat6 ℝ) =
      fun a b => c * (r.d2.getD 0 * (dya eye eye a b - cdyaSelf eye a b) +
        r.d3.getD 0 * (det C * (dya (inv C (some (det C))) (inv C (some (det C))) a b -
          cdyaSelf (inv C (some (det C))) a b))) := by
    funext a b
    rcases r with ⟨_ | d1, _ | d2, _ | d3, sv⟩ <;> simp only [InvGrad.times, Option.map, Option.getD] <;> ring
  unfold Invariants.hessRes
  simp only
  rw [e0]
  simp only [InvGrad.times, InvHess.times, e]
  rw [addTermRes_times]
  refine (map_bind _ _ (fun (h : Mat6 ℝ) => fun a b => c * h a b) _ _ fun acc => ?_).symm
  rw [addTermRes_times]
  refine map_bind _ _ (fun (h : Mat6 ℝ) => fun a b => c * h a b) _ _ fun acc => ?_
  rw [addTermRes_times]
  refine map_bind _ _ (fun (h : Mat6 ℝ) => fun a b => c * h a b) _ _ fun acc => ?_
  rw [addTermRes_times]
  refine map_bind _ _ (fun (h : Mat6 ℝ) => fun a b => c * h a b) _ _ fun acc => ?_
  rw [addTermRes_times]
  refine map_bind _ _ (fun (h : Mat6 ℝ) => fun a b => c * h a b) _ _ fun acc => ?_
  rw [addTermRes_times]

/-- The `Invariants` framework. -/
theorem C89_invariants (c : ℝ) (A : InvMat ℝ Z μ) (B : InvMat ℝ Z ν) (h : InvMat.ScaledBy c A B) :
    Material.ScaledBy c (Invariants.material A) (Invariants.material B) := by
  intro C z s t
  have h1 := (h (trace C) ((trace C ^ 2 - ddot C C) / 2) (det C) z s.material t.material).1
  constructor
  · change (Invariants.gradient B C z t).1 = (Invariants.gradient A C z s).1.map _
    rw [Invariants.gradient_run, Invariants.gradient_run]
    revert h1
    rcases A.gradient _ _ _ _ _ with ⟨e | r, m⟩ <;> rcases B.gradient _ _ _ _ _ with ⟨e' | r', m'⟩ <;> intro h1 <;>
      cases h1
    · rfl
    · exact congrArg Except.ok (Prod.ext (gradPure_times c C r) rfl)
  · change (Invariants.hessian B C z t).1 = (Invariants.hessian A C z s).1.map _
    rw [Invariants.hessian_run, Invariants.hessian_run]
    revert h1
    rcases A.gradient _ _ _ _ _ with ⟨e | r, m⟩ <;> rcases B.gradient _ _ _ _ _ with ⟨e' | r', m'⟩ <;> intro h1 <;>
      cases h1
    · rfl
    · have h2 := (h (trace C) ((trace C ^ 2 - ddot C C) / 2) (det C) r.sv m m').2
      simp only
      change (B.hessian _ _ _ (InvGrad.times c r).sv m').1 = _ at h2
      revert h2
      rcases A.hessian _ _ _ _ _ with ⟨e | k, m⟩ <;> rcases B.hessian _ _ _ _ _ with ⟨e' | k', m'⟩ <;> intro h2 <;>
        cases h2
      · rfl
      · exact hessRes_times c C r k

theorem vec_times (c : ℝ) (h : StrHess) (m : Fin 6) : StrHess.vec (StrHess.times c h) m = c * StrHess.vec h m := by
  rcases h with h | h
  · rfl
  · change ((h m).map (c * ·)).getD 0 = c * (h m).getD 0
    cases h m <;> simp

theorem dlC_times (c : ℝ) (l g : Vec3 ℝ) (a : Fin 3) :
    Stretches.dlC l (fun a => c * g a) a = c * Stretches.dlC l g a := by
  unfold Stretches.dlC; ring

theorem d2Of_times (c : ℝ) (l g : Vec3 ℝ) (h : StrHess) :
    Stretches.d2Of l (fun a => c * g a) (StrHess.times c h) = fun m => c * Stretches.d2Of l g h m := by
  unfold Stretches.d2Of
  simp only [dlC_times, vec_times]
  funext m
  fin_cases m <;> simp <;> ring

theorem term_times (c : ℝ) (l d : Vec3 ℝ) (M : Fin 3 → Vec6 ℝ) (d2 : Vec6 ℝ) (m : Fin 6) (i j : Fin 6) :
    Stretches.term l (fun a => c * d a) M (fun m => c * d2 m) m i j = c * Stretches.term l d M d2 m i j := by
  unfold Stretches.term
  simp only
  split_ifs <;> ring

/-- The `Stretches` framework, with any eigen-solver. -/
theorem C89_stretches (c : ℝ) (lapack : Eigh) (A : StrMat Z μ) (B : StrMat Z ν) (h : StrMat.ScaledBy c A B) :
    Material.ScaledBy c (Stretches.material lapack A) (Stretches.material lapack B) := by
  intro C z s t
  have h1 := (h (eighSqrt lapack C).1 z s.material t.material).1
  constructor
  · change (Stretches.gradient lapack B C z t).1 = (Stretches.gradient lapack A C z s).1.map _
    rw [Stretches.gradient_run, Stretches.gradient_run]
    revert h1
    rcases A.gradient _ _ _ with ⟨e | ⟨g, z'⟩, m⟩ <;> rcases B.gradient _ _ _ with ⟨e' | ⟨g', z''⟩, m'⟩ <;>
      intro h1 <;> cases h1
    · rfl
    · refine congrArg Except.ok (Prod.ext ?_ rfl)
      funext i
      simp only [Stretches.gradPure, dlC_times, Finset.mul_sum, mul_assoc]
  · change (Stretches.hessian lapack B C z t).1 = (Stretches.hessian lapack A C z s).1.map _
    rw [Stretches.hessian_run, Stretches.hessian_run]
    revert h1
    rcases A.gradient _ _ _ with ⟨e | ⟨g, z'⟩, m⟩ <;> rcases B.gradient _ _ _ with ⟨e' | ⟨g', z''⟩, m'⟩ <;>
      intro h1 <;> cases h1
    · rfl
    · have h2 := (h (eighSqrt lapack C).1 z' m m').2
      simp only
      revert h2
      rcases A.hessian _ _ _ with ⟨e | k, m⟩ <;> rcases B.hessian _ _ _ with ⟨e' | k', m'⟩ <;> intro h2 <;> cases h2
      · rfl
      · refine congrArg Except.ok ?_
        funext i j
        simp only [Stretches.hessPure, d2Of_times, Finset.mul_sum]
        refine Finset.sum_congr rfl fun m _ => ?_
        rw [← term_times]
        congr 1
        funext a
        exact dlC_times c _ g a

theorem addVec_times (c : ℝ) {n : ℕ} (acc : Fin n → ℝ) (d : Option ℝ) (x : Fin n → ℝ) :
    GenInv.addVec (fun a => c * acc a) (d.map (c * ·)) x = fun a => c * GenInv.addVec acc d x a := by
  cases d
  · rfl
  · funext a; simp only [GenInv.addVec, Option.map]; ring

theorem genHess_times (c : ℝ) (g : GenInv) (l : Vec3 ℝ) (r : InvGrad ℝ Z) (h : InvHess ℝ) :
    GenInv.hessPure g l (InvGrad.times c r) (InvHess.times c h) = fun m => c * GenInv.hessPure g l r h m := by
  have e0 : (fun _ => 0 : Vec6 ℝ) = fun a => c * (fun _ => 0 : Vec6 ℝ) a := by funext a; simp
  unfold GenInv.hessPure
  simp only [InvGrad.times, InvHess.times]
  conv_lhs => rw [e0]
  simp only [addVec_times]
  generalize GenInv.addVec _ h.h13 _ = X
  rcases r with ⟨_ | d1, _ | d2, _ | d3, sv⟩ <;> simp only [Option.map] <;> funext m <;> fin_cases m <;>
    simp only [GenInv.addTail, GenInv.addHead, Fin.zero_eta, Fin.mk_one, Fin.reduceFinMk, Matrix.cons_val] <;> ring

/-- The generalized-invariants model, with any strain measure. -/
theorem C89_generalized (c : ℝ) (g : GenInv) (A : InvMat ℝ Z μ) (B : InvMat ℝ Z ν) (h : InvMat.ScaledBy c A B) :
    StrMat.ScaledBy c (GenInv.mat g A) (GenInv.mat g B) := by
  intro l z s t
  have h1 := (h (g.J1 (g.ev l)) (g.J2 (g.ev l)) (GenInv.J3 (g.ev l)) z s.material t.material).1
  constructor
  · change (GenInv.gradient g B l z t).1 = (GenInv.gradient g A l z s).1.map _
    rw [GenInv.gradient_run, GenInv.gradient_run]
    revert h1
    rcases A.gradient _ _ _ _ _ with ⟨e | r, m⟩ <;> rcases B.gradient _ _ _ _ _ with ⟨e' | r', m'⟩ <;> intro h1 <;>
      cases h1
    · rfl
    · refine congrArg Except.ok (Prod.ext ?_ rfl)
      funext a
      rcases r with ⟨_ | d1, _ | d2, _ | d3, sv⟩ <;>
        simp only [GenInv.gradPure, InvGrad.times, Option.map, GenInv.addVec] <;> ring
  · change (GenInv.hessian g B l z t).1 = (GenInv.hessian g A l z s).1.map _
    rw [GenInv.hessian_run, GenInv.hessian_run]
    revert h1
    rcases A.gradient _ _ _ _ _ with ⟨e | r, m⟩ <;> rcases B.gradient _ _ _ _ _ with ⟨e' | r', m'⟩ <;> intro h1 <;>
      cases h1
    · rfl
    · have h2 := (h (g.J1 (g.ev l)) (g.J2 (g.ev l)) (GenInv.J3 (g.ev l)) z m m').2
      simp only
      revert h2
      rcases A.hessian _ _ _ _ _ with ⟨e | k, m⟩ <;> rcases B.hessian _ _ _ _ _ with ⟨e' | k', m'⟩ <;> intro h2 <;>
        cases h2
      · rfl
      · exact congrArg Except.ok (congrArg StrHess.array (genHess_times c g l r k))

/-! ### spaces -/

theorem piolaStress_times (c : ℝ) (cfg : SpaceCfg) (F : Full2 ℝ) (S : Vec6 ℝ) (d : Option ℝ) :
    piolaStress cfg F (fun a => c * S a) d = Stress.times c (piolaStress cfg F S d) := by
  have e : astensor (fun a => c * S a) = fun i j => c * astensor S i j := by
    funext i j
    simp only [astensor]
  have key : ∀ (E : Full2 ℝ) (x : ℝ) (i j : Fin 3), (∑ J, F j J * (c * E i J)) / x =
      c * ((∑ J, F j J * E i J) / x) := by
    intro E x i j
    rw [← mul_div_assoc, Finset.mul_sum]
    congr 1
    exact Finset.sum_congr rfl fun J _ => by ring
  have key2 : ∀ i J : Fin 3, (∑ I, F i I * (c * astensor S I J)) = c * ∑ I, F i I * astensor S I J := by
    intro i J
    rw [Finset.mul_sum]
    exact Finset.sum_congr rfl fun J _ => by ring
  rcases cfg with ⟨_ | _, _ | f, _ | r⟩ <;> rcases d with _ | d <;>
    simp only [piolaStress, if_true, Bool.false_eq_true, if_false, Stress.times, e, key2] <;>
    (try rfl) <;> refine congrArg Stress.full ?_ <;> funext i j
  · exact key (fun i J => ∑ I, F i I * astensor S I J) _ i j
  · exact key (fun i J => ∑ I, F i I * astensor S I J) _ i j
  · exact key (astensor S) _ i j
  · exact key (astensor S) _ i j

theorem piolaElasticity_times (c : ℝ) (cfg : SpaceCfg) (F : Full2 ℝ) (S : Vec6 ℝ) (d : Option ℝ) (C4 : Mat6 ℝ)
    (v : Option (Vec6 ℝ)) :
    piolaElasticity cfg F (fun a => c * S a) d (fun a b => c * C4 a b) v =
      Elasticity.times c (piolaElasticity cfg F S d C4 v) := by
  have e : astensor4 (fun a b => c * C4 a b) = fun i j k l => c * astensor4 C4 i j k l := by
    funext i j k l
    simp only [astensor4]
  have e2 : ∀ A : Vec6 ℝ, cdya_ik A (fun a => c * S a) = fun i j k l => c * cdya_ik A S i j k l := by
    intro A
    funext i j k l
    simp only [cdya_ik, swap12, astensor4, dya]
    ring
  have key : ∀ (E : Full4 ℝ) (x : ℝ) (i j k l : Fin 3), (∑ J, ∑ L, F j J * F l L * (c * E i J k L)) / x =
      c * ((∑ J, ∑ L, F j J * F l L * E i J k L) / x) := by
    intro E x i j k l
    rw [← mul_div_assoc, Finset.mul_sum]
    congr 1
    refine Finset.sum_congr rfl fun J _ => ?_
    rw [Finset.mul_sum]
    exact Finset.sum_congr rfl fun L _ => by ring
  have key2 : ∀ (i J k L : Fin 3), (∑ I, ∑ K, F i I * F k K * (c * astensor4 C4 I J K L)) =
      c * (∑ I, ∑ K, F i I * F k K * astensor4 C4 I J K L) := by
    intro i J k L
    rw [Finset.mul_sum]
    refine Finset.sum_congr rfl fun J _ => ?_
    rw [Finset.mul_sum]
    exact Finset.sum_congr rfl fun L _ => by ring
  rcases cfg with ⟨_ | _, _ | f, _ | r⟩ <;> rcases d with _ | d <;> rcases v with _ | v <;>
    simp only [piolaElasticity, if_true, Bool.false_eq_true, if_false, Elasticity.times, e, e2, key2, ← mul_add] <;>
    (try rfl) <;> refine congrArg Elasticity.full ?_ <;> funext i j k l
  · exact key (fun i J k L => ∑ I, ∑ K, F i I * F k K * astensor4 C4 I J K L + cdya_ik eye S i J k L) _ i j k l
  · exact key (fun i J k L => ∑ I, ∑ K, F i I * F k K * astensor4 C4 I J K L + cdya_ik eye S i J k L) _ i j k l
  · exact key (fun i J k L => ∑ I, ∑ K, F i I * F k K * astensor4 C4 I J K L + cdya_ik eye S i J k L) _ i j k l
  · exact key (fun i J k L => ∑ I, ∑ K, F i I * F k K * astensor4 C4 I J K L + cdya_ik eye S i J k L) _ i j k l
  · exact key (fun i J k L => astensor4 C4 i J k L + cdya_ik (inv (rightCauchyGreen F) (some (det (rightCauchyGreen F)))) S i J k L) _ i j k l
  · exact key (fun i J k L => astensor4 C4 i J k L + cdya_ik v S i J k L) _ i j k l
  · exact key (fun i J k L => astensor4 C4 i J k L + cdya_ik (inv (rightCauchyGreen F) (some (det (rightCauchyGreen F)))) S i J k L) _ i j k l
  · exact key (fun i J k L => astensor4 C4 i J k L + cdya_ik v S i J k L) _ i j k l

/-- The stress on the deformation space. -/
theorem C89_deformation_gradient (c : ℝ) (cfg : SpaceCfg) (A : Material ℝ Z μ) (B : Material ℝ Z ν)
    (h : Material.ScaledBy c A B) : SpaceObj.GradScaledBy c (Deformation.obj cfg A) (Deformation.obj cfg B) := by
  intro F z s t
  have h1 := (h (rightCauchyGreen F) z s.material t.material).1
  change (Deformation.gradient cfg B F z t).1 = (Deformation.gradient cfg A F z s).1.map _
  rw [Deformation.gradient_run, Deformation.gradient_run]
  revert h1
  rcases A.gradient _ _ _ with ⟨e | ⟨g, z'⟩, m⟩ <;> rcases B.gradient _ _ _ with ⟨e' | ⟨g', z''⟩, m'⟩ <;>
    intro h1 <;> cases h1
  · rfl
  · refine congrArg Except.ok (Prod.ext (Eq.trans ?_ (piolaStress_times c cfg F (fun a => 2 * g a) none)) rfl)
    refine congrArg (piolaStress cfg F · none) ?_
    funext a
    ring

/-- The elasticity on the deformation space. -/
theorem C89_deformation_hessian (c : ℝ) (cfg : SpaceCfg) (A : Material ℝ Z μ) (B : Material ℝ Z ν)
    (h : Material.ScaledBy c A B) : SpaceObj.HessScaledBy c (Deformation.obj cfg A) (Deformation.obj cfg B) := by
  intro F z s t
  have h1 := (h (rightCauchyGreen F) z s.material t.material).1
  change (Deformation.hessian cfg B F z t).1 = (Deformation.hessian cfg A F z s).1.map _
  rw [Deformation.hessian_run, Deformation.hessian_run]
  revert h1
  rcases A.gradient _ _ _ with ⟨e | ⟨g, z'⟩, m⟩ <;> rcases B.gradient _ _ _ with ⟨e' | ⟨g', z''⟩, m'⟩ <;>
    intro h1 <;> cases h1
  · rfl
  · have h2 := (h (rightCauchyGreen F) z m m').2
    simp only
    revert h2
    rcases A.hessian _ _ _ with ⟨e | k, m⟩ <;> rcases B.hessian _ _ _ with ⟨e' | k', m'⟩ <;> intro h2 <;> cases h2
    · rfl
    · refine congrArg Except.ok (Eq.trans ?_
        (piolaElasticity_times c cfg F (fun a => 2 * g a) none (fun a b => 4 * k a b) none))
      congr 1
      · funext a; ring
      · funext a b; ring

theorem dist_st_times (c : ℝ) (F : Full2 ℝ) (g : Vec6 ℝ) :
    Distortional.st F (fun a => c * g a) = fun a => c * Distortional.st F g a := by
  funext a
  simp only [Distortional.st, Distortional.sb, ddot, Fin.sum_univ_six]
  ring

theorem dist_sb_times (c : ℝ) (F : Full2 ℝ) (g : Vec6 ℝ) :
    Distortional.sb F (fun a => c * g a) = fun a => c * Distortional.sb F g a := by
  funext a
  simp only [Distortional.sb]
  ring

theorem ddot_times (c : ℝ) (x y : Vec6 ℝ) : ddot (fun a => c * x a) y = c * ddot x y := by
  simp only [ddot, Finset.mul_sum, mul_assoc]

theorem geo_times (c : ℝ) (F : Full2 ℝ) (g : Vec6 ℝ) (a b : Fin 6) :
    Distortional.geo F (fun a => c * g a) a b = c * Distortional.geo F g a b := by
  simp only [Distortional.geo, dist_sb_times, ddot_times, dya, transpose]
  ring

theorem ddot44_times (c : ℝ) (A B : Mat6 ℝ) (a b : Fin 6) :
    ddot44 A (fun a b => c * B a b) a b = c * ddot44 A B a b := by
  simp only [ddot44, Finset.mul_sum]
  exact Finset.sum_congr rfl fun k _ => by ring

theorem ddot44_times_left (c : ℝ) (A B : Mat6 ℝ) (a b : Fin 6) :
    ddot44 (fun a b => c * A a b) B a b = c * ddot44 A B a b := by
  simp only [ddot44, Finset.mul_sum]
  exact Finset.sum_congr rfl fun k _ => by ring

theorem c4b_times (c : ℝ) (F : Full2 ℝ) (h : Mat6 ℝ) :
    Distortional.c4b F (fun a b => c * h a b) = fun a b => c * Distortional.c4b F h a b := by
  funext a b
  simp only [Distortional.c4b]
  ring

theorem matPart_times (c : ℝ) (F : Full2 ℝ) (h : Mat6 ℝ) (a b : Fin 6) :
    Distortional.matPart F (fun a b => c * h a b) a b = c * Distortional.matPart F h a b := by
  unfold Distortional.matPart
  rw [c4b_times, ← ddot44_times_left]
  congr 1
  funext a b
  exact ddot44_times ..

/-- The stress on the distortional space. -/
theorem C89_distortional_gradient (c : ℝ) (cfg : SpaceCfg) (A : Material ℝ Z μ) (B : Material ℝ Z ν)
    (h : Material.ScaledBy c A B) : SpaceObj.GradScaledBy c (Distortional.obj cfg A) (Distortional.obj cfg B) := by
  intro F z s t
  have h1 := (h (Distortional.cu F) z s.material t.material).1
  change (Distortional.gradient cfg B F z t).1 = (Distortional.gradient cfg A F z s).1.map _
  rw [Distortional.gradient_run, Distortional.gradient_run]
  revert h1
  rcases A.gradient _ _ _ with ⟨e | ⟨g, z'⟩, m⟩ <;> rcases B.gradient _ _ _ with ⟨e' | ⟨g', z''⟩, m'⟩ <;>
    intro h1 <;> cases h1
  · rfl
  · refine congrArg Except.ok (Prod.ext (Eq.trans ?_ (piolaStress_times c cfg F (Distortional.st F g)
      (some (Real.sqrt (det (rightCauchyGreen F)))))) rfl)
    rw [← dist_st_times]

/-- The elasticity on the distortional space, at deformations where the elasticity `H` of the
material is above or below the tolerance of `np.allclose` in both units. -/
theorem C89_distortional_hessian (c : ℝ) (cfg : SpaceCfg) (A : Material ℝ Z μ) (B : Material ℝ Z ν)
    (h : Material.ScaledBy c A B) (F : Full2 ℝ) (z : Z) (s : DistSt μ) (t : DistSt ν)
    (hi : ∀ H, Material.Hess A z (unimodular (cauchyGreen F)) H →
      ((∃ i j k l, 1 / 10 ^ 8 < |4 * (cauchyGreen F).det ^ (-2 / 3 : ℝ) * H i j k l|) ↔
        ∃ i j k l, 1 / 10 ^ 8 < |c * (4 * (cauchyGreen F).det ^ (-2 / 3 : ℝ) * H i j k l)|)) :
    ((Distortional.obj cfg B).hessian F z t).1 =
      ((Distortional.obj cfg A).hessian F z s).1.map (Elasticity.times c) := by
  have h1 := (h (Distortional.cu F) z s.material t.material).1
  change (Distortional.hessian cfg B F z t).1 = (Distortional.hessian cfg A F z s).1.map _
  rw [Distortional.hessian_run, Distortional.hessian_run]
  revert h1
  rcases A.gradient _ _ _ with ⟨e | ⟨g, z'⟩, m⟩ <;> rcases B.gradient _ _ _ with ⟨e' | ⟨g', z''⟩, m'⟩ <;>
    intro h1 <;> cases h1
  · rfl
  · have h2 := (h (Distortional.cu F) z m m').2
    simp only
    have h3 : ∀ H, Returns (A.hessian (Distortional.cu F) z) m H →
        (Distortional.allclose0 (Distortional.c4b F fun a b => c * H a b) ↔
          Distortional.allclose0 (Distortional.c4b F H)) := by
      intro H hH
      have hH := Material.hess_T4 A z m _ H hH
      rw [show T2 (Distortional.cu F) = _ from Distortional.T2_cu _] at hH
      have hi := hi _ hH
      have e1 : Distortional.allclose0 (Distortional.c4b F H) ↔
          ¬ ∃ i j k l, 1 / 10 ^ 8 < |4 * (cauchyGreen F).det ^ (-2 / 3 : ℝ) * astensor4 H i j k l| := by
        push Not
        rw [← show cauchyGreen F = _ from rfl]
        refine Iff.trans ?_ (Distortional.dropped_iff F H).symm
        unfold Distortional.c4b
        rw [T2_det, show T2 (rightCauchyGreen F) = _ from T2_rcg _]
      have e2 : Distortional.allclose0 (Distortional.c4b F fun a b => c * H a b) ↔
          ¬ ∃ i j k l, 1 / 10 ^ 8 < |c * (4 * (cauchyGreen F).det ^ (-2 / 3 : ℝ) * astensor4 H i j k l)| := by
        push Not
        have := (Distortional.dropped_iff F fun a b => c * H a b).symm
        unfold Distortional.c4b
        rw [T2_det, show T2 (rightCauchyGreen F) = _ from T2_rcg _]
        refine this.trans ?_
        unfold Distortional.Dropped
        refine forall_congr' fun i => forall_congr' fun j => forall_congr' fun k => forall_congr' fun l => ?_
        rw [show astensor4 (fun a b => c * H a b) i j k l = c * astensor4 H i j k l from rfl, mul_left_comm]
      rw [e1, e2, not_iff_not]
      exact hi.symm
    revert h2 h3
    unfold Returns
    rcases A.hessian _ _ _ with ⟨e | k, m⟩ <;> rcases B.hessian _ _ _ with ⟨e' | k', m'⟩ <;> intro h2 <;> cases h2
    · intro _; rfl
    · intro h3
      have h3 := h3 k rfl
      refine congrArg Except.ok (Eq.trans ?_ (piolaElasticity_times c cfg F (Distortional.st F g) _
        (Distortional.c4 F g k) _))
      rw [← dist_st_times]
      congr 1
      classical
      rw [Distortional.c4_if, Distortional.c4_if]
      by_cases hk : Distortional.allclose0 (Distortional.c4b F k)
      · rw [if_neg (not_not.2 hk), if_neg (not_not.2 (h3.2 hk))]
        funext a b
        exact geo_times c F g a b
      · rw [if_pos hk, if_pos fun h => hk (h3.1 h)]
        funext a b
        rw [mul_add, ← geo_times, ← matPart_times]

/-- C89 for the elasticity on the distortional space, without a condition. -/
def C89_Full : Prop := ∀ (Z μ ν : Type) (c : ℝ) (A : Material ℝ Z μ) (B : Material ℝ Z ν), 0 < c →
  Material.ScaledBy c A B → SpaceObj.HessScaledBy c (Distortional.obj {} A) (Distortional.obj {} B)

theorem squareMat_scaled (c ε : ℝ) : Material.ScaledBy c (squareMat ε) (squareMat (c * ε)) := by
  intro C z s t
  constructor
  · refine congrArg Except.ok (Prod.ext ?_ rfl)
    funext a
    exact mul_assoc ..
  · refine congrArg Except.ok ?_
    funext a b
    exact mul_assoc ..

/-- C89 fails for the elasticity on the distortional space: with the energy `ε/2 C:C` and
`ε = 2e-9`, the elasticity at `F = I` is not the one for `ε = 1`, times `2e-9`: the tolerance of
`np.allclose` is absolute. -/
theorem C89_distortional_hessian_false : ¬ C89_Full := by
  intro hfull
  set c : ℝ := 2 / 10 ^ 9 with hc
  have hsc := squareMat_scaled c 1
  rw [mul_one] at hsc
  set F : Full2 ℝ := fun i j => if i = j then 1 else 0 with hF
  have key := hfull Unit Unit Unit c (squareMat 1) (squareMat c) (by norm_num [hc]) hsc F ()
    { material := () } { material := () }
  change (Distortional.hessian {} _ F () _).1 = (Distortional.hessian {} _ F () _).1.map _ at key
  rw [Distortional.hessian_run, Distortional.hessian_run] at key
  have key := Except.ok.inj key
  rw [piola_one fun i j => rfl, piola_one fun i j => rfl] at key
  have key := congrFun (congrFun (congrFun (congrFun (Elasticity.full.inj key) 0) 1) 0) 1
  have hC : rightCauchyGreen F = eye := by
    funext a
    fin_cases a <;> simp [rightCauchyGreen, asvoigt, eye, Fin.sum_univ_three, hF]
  have hd1 : det (eye : Vec6 ℝ) = 1 := by simp [det, eye]
  have hc4 : ∀ ε : ℝ, Distortional.c4b F (fun a b => ε * cdyaSelf eye a b) = fun a b =>
      if a = b then (if a.val < 3 then 4 * ε else 2 * ε) else 0 := by
    intro ε
    funext a b
    rw [Distortional.c4b, hC, hd1, Real.one_rpow, cdyaSelf_eye]
    split_ifs <;> ring
  have hic : Distortional.ic F = eye := by
    unfold Distortional.ic
    rw [hC, hd1]
    funext a
    rw [inv_entry]
    fin_cases a <;> simp [eye]
  have hm : Distortional.matPart F (fun a b => 1 * cdyaSelf eye a b) 3 3 = 2 := by
    unfold Distortional.matPart
    rw [hc4, hic, hC]
    have e3 : (eye : Vec6 ℝ) 3 = 0 := rfl
    simp [ddot44, transpose, dya, cdyaSelf_eye, weights, Fin.sum_univ_six, e3]
    try ring
  have h1 : Distortional.allclose0 (Distortional.c4b F fun a b => c * cdyaSelf eye a b) := by
    intro a b
    rw [hc4]
    simp only
    split_ifs <;> norm_num [hc, abs_of_pos]
  have h2 : ¬ Distortional.allclose0 (Distortional.c4b F fun a b => 1 * cdyaSelf eye a b) := by
    intro h
    have := h 0 0
    rw [hc4] at this
    norm_num at this
  classical
  rw [Distortional.c4_if, Distortional.c4_if, if_neg (not_not.2 h1), if_pos h2] at key
  have e1 : (fun a => c * Distortional.cu F a) = fun a => c * (1 * Distortional.cu F a) := by
    funext a; ring
  rw [e1] at key
  rw [dist_st_times] at key
  have e2 : ∀ S : Vec6 ℝ, cdya_ik (eye : Vec6 ℝ) (fun a => c * S a) 0 1 0 1 = c * cdya_ik eye S 0 1 0 1 := by
    intro S
    simp only [cdya_ik, swap12, astensor4, dya]
    ring
  rw [e2] at key
  change Distortional.geo F (fun a => c * (1 * Distortional.cu F a)) 3 3 + _ =
    c * (Distortional.geo F (fun a => 1 * Distortional.cu F a) 3 3 +
      Distortional.matPart F (fun a b => 1 * cdyaSelf eye a b) 3 3 + _) at key
  rw [geo_times, hm] at key
  have : c * 2 = 0 := by linear_combination -key
  norm_num [hc] at this

/-- The stress on the dilatational space. -/
theorem C89_dilatational_gradient (c : ℝ) (cfg : SpaceCfg) (A : Material ℝ Z μ) (B : Material ℝ Z ν)
    (h : Material.ScaledBy c A B) : SpaceObj.GradScaledBy c (Dilatational.obj cfg A) (Dilatational.obj cfg B) := by
  intro F z s t
  have h1 := (h (Dilatational.co F) z s.material t.material).1
  change (Dilatational.gradient cfg B F z t).1 = (Dilatational.gradient cfg A F z s).1.map _
  rw [Dilatational.gradient_run, Dilatational.gradient_run]
  revert h1
  rcases A.gradient _ _ _ with ⟨e | ⟨g, z'⟩, m⟩ <;> rcases B.gradient _ _ _ with ⟨e' | ⟨g', z''⟩, m'⟩ <;>
    intro h1 <;> cases h1
  · rfl
  · refine congrArg Except.ok (Prod.ext (Eq.trans ?_ (piolaStress_times c cfg F (Dilatational.st F g)
      (some (Real.sqrt (det (rightCauchyGreen F)))))) rfl)
    refine congrArg (piolaStress cfg F · (some (Real.sqrt (det (rightCauchyGreen F))))) ?_
    funext a
    simp only [Dilatational.st, Dilatational.sb, trace]
    ring

/-- The elasticity on the dilatational space. -/
theorem C89_dilatational_hessian (c : ℝ) (cfg : SpaceCfg) (A : Material ℝ Z μ) (B : Material ℝ Z ν)
    (h : Material.ScaledBy c A B) : SpaceObj.HessScaledBy c (Dilatational.obj cfg A) (Dilatational.obj cfg B) := by
  intro F z s t
  have h1 := (h (Dilatational.co F) z s.material t.material).1
  change (Dilatational.hessian cfg B F z t).1 = (Dilatational.hessian cfg A F z s).1.map _
  rw [Dilatational.hessian_run, Dilatational.hessian_run]
  revert h1
  rcases A.gradient _ _ _ with ⟨e | ⟨g, z'⟩, m⟩ <;> rcases B.gradient _ _ _ with ⟨e' | ⟨g', z''⟩, m'⟩ <;>
    intro h1 <;> cases h1
  · rfl
  · have h2 := (h (Dilatational.co F) z m m').2
    simp only
    revert h2
    rcases A.hessian _ _ _ with ⟨e | k, m⟩ <;> rcases B.hessian _ _ _ with ⟨e' | k', m'⟩ <;> intro h2 <;> cases h2
    · rfl
    · refine congrArg Except.ok (Eq.trans ?_ (piolaElasticity_times c cfg F (Dilatational.st F g) _
        (Dilatational.c4 F g k) _))
      congr 1
      · funext a
        simp only [Dilatational.st, Dilatational.sb, trace]
        ring
      · funext a b
        simp only [Dilatational.c4, Dilatational.sb, trace, ddot, ddot24, Fin.sum_univ_six]
        ring

end Props
