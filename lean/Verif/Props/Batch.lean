import Verif.Proofs.BatchRun
import Verif.Props.Spaces

/-! # Property C39: evaluating a batch is evaluating its points

`i` is any point of the trailing axes `ι` (any number of points, of any shape). -/

namespace Props
open Spec Hel

variable {ι Z Zb μ ν : Type}

/-! ### models -/

/-- `ThirdOrderDeformation` acts on every point of a batch separately. -/
theorem C39_third_order (C10 C01 C11 C20 C30 : ℝ) (b : Bool) (i : ι) (π : Zb → Z) [DecidableEq (Arr ι)] :
    InvMat.AgreesAt i π
      (TOD.init (Arr.const C10) (Arr.const C01) (Arr.const C11) (Arr.const C20) (Arr.const C30 : Arr ι) b).mat
      (TOD.init C10 C01 C11 C20 C30 b).mat := by
  have hc : ∀ c : ℝ, (Arr.const c : Arr ι) = 0 ↔ c = 0 := fun c =>
    ⟨fun h => congrFun h i, fun h => by rw [h]; rfl⟩
  intro I1 I2 I3 z s t
  simp only [TOD.mat, PyM.lift_run, TOD.gradient, TOD.hessian, TOD.init, ne_eq, hc]
  constructor
  · by_cases h1 : C10 = 0 <;> by_cases h2 : C01 = 0 <;> by_cases h3 : C11 = 0 <;> by_cases h4 : C20 = 0 <;>
      by_cases h5 : C30 = 0 <;> cases b <;> simp only [h1, h2, h3, h4, h5, not_true_eq_false, not_false_eq_true,
        or_true, true_or, or_false, false_or, if_true, if_false] <;> rfl
  · by_cases h3 : C11 = 0 <;> by_cases h4 : C20 = 0 <;>
      by_cases h5 : C30 = 0 <;> cases b <;> simp only [h3, h4, h5, not_true_eq_false, not_false_eq_true,
        or_true, true_or, or_false, false_or, if_true, if_false] <;> rfl

theorem foldlM_pt (f : Vec3 (Arr ι) → ℝ × ℝ → Res (Vec3 (Arr ι))) (g : Vec3 ℝ → ℝ × ℝ → Res (Vec3 ℝ)) (i : ι)
    (h : ∀ acc p, (f acc p).map (pt i) = g (pt i acc) p) (ps : List (ℝ × ℝ)) (acc : Vec3 (Arr ι)) :
    (ps.foldlM f acc).map (pt i) = ps.foldlM g (pt i acc) := by
  induction ps generalizing acc with
  | nil => rfl
  | cons p ps ih =>
    simp only [List.foldlM_cons]
    rw [← h]
    rcases f acc p with e | r
    · rfl
    · exact ih r

/-- `Ogden` acts on every point of a batch separately. -/
theorem C39_ogden (m : Ogden) (i : ι) (π : Zb → Z) : StrMat.AgreesAt i π (Batch.ogdenMat m) m.mat := by
  intro l z s t
  constructor
  · change (Batch.ogdenGradient m l z).map _ = m.gradient (pt i l) (π z)
    unfold Batch.ogdenGradient Ogden.gradient
    have h := foldlM_pt
      (fun acc p => if p.2 = 0 then .error .zeroDivision
        else .ok fun a => acc a + Arr.const (2 * p.1 / p.2) * (l a).pow (p.2 - 1))
      (fun acc p => if p.2 = 0 then .error .zeroDivision
        else .ok fun a => acc a + 2 * p.1 / p.2 * pt i l a ^ (p.2 - 1)) i
      (fun acc p => by split_ifs <;> rfl) (m.mu.zip m.alpha) fun _ => 0
    change Except.map _ (Bind.bind _ _) = Bind.bind _ _
    rw [show (fun _ => 0 : Vec3 ℝ) = pt i fun _ => 0 from rfl, ← h]
    rcases List.foldlM _ _ _ with e | r <;> rfl
  · change (Batch.ogdenHessian m l z).map _ = m.hessian (pt i l) (π z)
    unfold Batch.ogdenHessian Ogden.hessian
    have h := foldlM_pt
      (fun acc p => if p.2 = 0 then .error .zeroDivision
        else .ok fun a => acc a + Arr.const (2 * p.1 / p.2 * (p.2 - 1)) * (l a).pow (p.2 - 2))
      (fun acc p => if p.2 = 0 then .error .zeroDivision
        else .ok fun a => acc a + 2 * p.1 / p.2 * (p.2 - 1) * pt i l a ^ (p.2 - 2)) i
      (fun acc p => by split_ifs <;> rfl) (m.mu.zip m.alpha) fun _ => 0
    change Except.map _ (Bind.bind _ _) = Bind.bind _ _
    rw [show (fun _ => 0 : Vec3 ℝ) = pt i fun _ => 0 from rfl, ← h]
    rcases List.foldlM _ _ _ with e | r
    · rfl
    · change Except.ok _ = Except.ok _
      congr 1
      change StrHess.list _ = StrHess.list _
      congr 1
      funext k
      fin_cases k <;> rfl

/-! ### frameworks -/

theorem addTermRes_pt (i : ι) (acc : Mat6 (Arr ι)) (cond coef : Option (Arr ι)) (x y : Option (Vec6 (Arr ι)))
    (T : Vec6 (Arr ι) → Vec6 (Arr ι) → Mat6 (Arr ι)) (T' : Vec6 ℝ → Vec6 ℝ → Mat6 ℝ)
    (hT : ∀ x y, pt2 i (T x y) = T' (pt i x) (pt i y)) :
    (Invariants.addTermRes acc cond coef x y T).map (pt2 i) =
      Invariants.addTermRes (pt2 i acc) (cond.map (· i)) (coef.map (· i)) (x.map (pt i)) (y.map (pt i)) T' := by
  rcases cond with _ | c <;> rcases x with _ | x <;> rcases y with _ | y <;> rcases coef with _ | d <;> try rfl
  change Except.ok _ = Except.ok _
  congr 1
  funext a b
  change acc a b i + d i * pt2 i (T x y) a b = _
  rw [hT]; rfl

theorem map_bind {α α' β β' : Type} (x : Res α) (f : α → Res β) (p : α → α') (q : β → β') (f' : α' → Res β')
    (h : ∀ a, (f a).map q = f' (p a)) : (Bind.bind x f).map q = Bind.bind (x.map p) f' := by
  rcases x with e | a
  · rfl
  · exact h a

theorem gradPure_pt (i : ι) (π : Zb → Z) (C : Vec6 (Arr ι)) (r : InvGrad (Arr ι) Zb) :
    pt i (Invariants.gradPure C r) = Invariants.gradPure (pt i C) (InvGrad.at i π r) := by
  funext a
  rcases r with ⟨_ | d1, _ | d2, _ | d3, sv⟩ <;>
    simp only [Invariants.gradPure, InvGrad.at, Option.map, Option.getD, pt_apply, Pi.add_apply, Pi.sub_apply,
      Pi.mul_apply, Pi.zero_apply, eye_at, det_pt, trace_pt] <;>
    rw [← pt_apply i (inv C _), inv_pt, Option.map_some, det_pt]

theorem hessRes_pt (i : ι) (π : Zb → Z) (C : Vec6 (Arr ι)) (r : InvGrad (Arr ι) Zb) (h : InvHess (Arr ι)) :
    (Invariants.hessRes C r h).map (pt2 i) = Invariants.hessRes (pt i C) (InvGrad.at i π r) (InvHess.at i h) := by
  have hd : ∀ x y : Vec6 (Arr ι), pt2 i (dya x y) = dya (pt i x) (pt i y) := dya_pt i
  have hs : ∀ x y : Vec6 (Arr ι), pt2 i (Invariants.dyaSum x y) = Invariants.dyaSum (pt i x) (pt i y) :=
    fun _ _ => rfl
  have hg : ∀ o : Option (Arr ι), o.getD 0 i = (o.map (· i)).getD 0 := by intro o; cases o <;> rfl
  have hinv : pt i (inv C (some (det C))) = inv (pt i C) (some (det (pt i C))) := by
    rw [inv_pt, Option.map_some, det_pt]
  have e1 : (Invariants.loc r.d1 (eye : Vec6 (Arr ι))).map (pt i) =
      Invariants.loc (InvGrad.at i π r).d1 eye := by
    rcases r with ⟨_ | d1, d2, d3, sv⟩
    · rfl
    · exact congrArg some (eye_pt i)
  have e2 : (Invariants.loc r.d2 fun a => trace C * eye a - C a).map (pt i) =
      Invariants.loc (InvGrad.at i π r).d2 fun a => trace (pt i C) * eye a - pt i C a := by
    rcases r with ⟨d1, _ | d2, d3, sv⟩
    · rfl
    · change some _ = some _
      congr 1; funext a
      change trace C i * (eye : Vec6 (Arr ι)) a i - C a i = _
      rw [eye_at, trace_pt]; rfl
  have e3 : (Invariants.loc r.d3 fun a => det C * inv C (some (det C)) a).map (pt i) =
      Invariants.loc (InvGrad.at i π r).d3 fun a => det (pt i C) * inv (pt i C) (some (det (pt i C))) a := by
    rcases r with ⟨d1, d2, _ | d3, sv⟩
    · rfl
    · rfl
  have e0 : pt2 i (fun a b => r.d2.getD 0 * (dya eye eye a b - cdyaSelf eye a b) +
        r.d3.getD 0 * (det C * (dya (inv C (some (det C))) (inv C (some (det C))) a b -
          cdyaSelf (inv C (some (det C))) a b))) =
      fun a b => (InvGrad.at i π r).d2.getD 0 * (dya eye eye a b - cdyaSelf eye a b) +
        (InvGrad.at i π r).d3.getD 0 * (det (pt i C) * (dya (inv (pt i C) (some (det (pt i C))))
          (inv (pt i C) (some (det (pt i C)))) a b - cdyaSelf (inv (pt i C) (some (det (pt i C)))) a b)) := by
    funext a b
    rw [← hinv, ← dya_pt, ← cdyaSelf_pt, ← eye_pt i, ← dya_pt, ← cdyaSelf_pt, ← det_pt]
    simp only [InvGrad.at, ← hg]
    rfl
  unfold Invariants.hessRes
  simp only
  rw [← e0, ← e1, ← e2, ← e3]
  refine map_bind _ _ (pt2 i) _ _ (fun acc => ?_) |>.trans (by rw [addTermRes_pt i _ _ _ _ _ _ _ hd]; rfl)
  refine map_bind _ _ (pt2 i) _ _ (fun acc => ?_) |>.trans (by rw [addTermRes_pt i _ _ _ _ _ _ _ hd]; rfl)
  refine map_bind _ _ (pt2 i) _ _ (fun acc => ?_) |>.trans (by rw [addTermRes_pt i _ _ _ _ _ _ _ hd]; rfl)
  refine map_bind _ _ (pt2 i) _ _ (fun acc => ?_) |>.trans (by rw [addTermRes_pt i _ _ _ _ _ _ _ hs]; rfl)
  refine map_bind _ _ (pt2 i) _ _ (fun acc => ?_) |>.trans (by rw [addTermRes_pt i _ _ _ _ _ _ _ hs]; rfl)
  rw [addTermRes_pt i _ _ _ _ _ _ _ hs]; rfl

/-- The `Invariants` framework acts on every point of a batch separately if the model does. -/
theorem C39_invariants (i : ι) (π : Zb → Z) (B : InvMat (Arr ι) Zb μ) (A : InvMat ℝ Z ν)
    (h : InvMat.AgreesAt i π B A) : Material.AgreesAt i π (Invariants.material B) (Invariants.material A) := by
  intro C z s t
  have hI2 : ((trace C ^ 2 - ddot C C) / 2 : Arr ι) i = (trace (pt i C) ^ 2 - ddot (pt i C) (pt i C)) / 2 := by
    rw [← ddot_pt]; rfl
  have h1 := (h (trace C) ((trace C ^ 2 - ddot C C) / 2) (det C) z s.material t.material).1
  rw [trace_pt, hI2, det_pt] at h1
  constructor
  · change (Invariants.gradient B C z s).1.map _ = (Invariants.gradient A (pt i C) (π z) t).1
    rw [Invariants.gradient_run, Invariants.gradient_run]
    revert h1
    rcases B.gradient _ _ _ _ _ with ⟨e | r, m⟩ <;> rcases A.gradient _ _ _ _ _ with ⟨e' | r', m'⟩ <;> intro h1 <;>
      cases h1
    · rfl
    · exact congrArg Except.ok (Prod.ext (gradPure_pt i π C r) rfl)
  · change (Invariants.hessian B C z s).1.map _ = (Invariants.hessian A (pt i C) (π z) t).1
    rw [Invariants.hessian_run, Invariants.hessian_run]
    revert h1
    rcases B.gradient _ _ _ _ _ with ⟨e | r, m⟩ <;> rcases A.gradient _ _ _ _ _ with ⟨e' | r', m'⟩ <;> intro h1 <;>
      cases h1
    · rfl
    · have h2 := (h (trace C) ((trace C ^ 2 - ddot C C) / 2) (det C) r.sv m m').2
      rw [trace_pt, hI2, det_pt] at h2
      simp only
      revert h2
      change _ = (A.hessian _ _ _ (InvGrad.at i π r).sv m').1 → _
      rcases B.hessian _ _ _ _ _ with ⟨e | k, m⟩ <;> rcases A.hessian _ _ _ _ _ with ⟨e' | k', m'⟩ <;> intro h2 <;>
        cases h2
      · rfl
      · exact hessRes_pt i π C r k

theorem eighSqrt_pt (lapack : Eigh) (i : ι) (C : Vec6 (Arr ι)) :
    pt i (Batch.eighSqrt lapack C).1 = (eighSqrt lapack (pt i C)).1 ∧
    (fun a => pt i ((Batch.eighSqrt lapack C).2 a)) = (eighSqrt lapack (pt i C)).2 := ⟨rfl, rfl⟩

theorem term_pt (i : ι) (l d : Vec3 (Arr ι)) (M : Fin 3 → Vec6 (Arr ι)) (d2 : Vec6 (Arr ι)) (m : Fin 6) :
    pt2 i (Batch.Stretches.term l d M d2 m) =
      Stretches.term (pt i l) (pt i d) (fun a => pt i (M a)) (pt i d2) m := by
  unfold Batch.Stretches.term Stretches.term
  simp only
  by_cases h1 : GenInv.ib m ≠ GenInv.ia m
  · rw [if_pos h1, if_pos h1]
    funext a b
    simp only [pt2_apply, Pi.add_apply, Pi.mul_apply, Batch.Stretches.divided, transpose]
    rw [← pt2_apply i (cdya _ _), cdya_pt]
    rfl
  · rw [if_neg h1, if_neg h1]
    rfl

theorem vec_pt (i : ι) (h : Batch.StrHess ι) (m : Fin 6) :
    Batch.Stretches.vec h m i = StrHess.vec (StrHess.at i h) m := by
  rcases h with h | h
  · rfl
  · change (h m).getD 0 i = ((h m).map (· i)).getD 0
    cases h m <;> rfl

theorem d2Of_pt (i : ι) (l g : Vec3 (Arr ι)) (h : Batch.StrHess ι) :
    pt i (Batch.Stretches.d2Of l g h) = Stretches.d2Of (pt i l) (pt i g) (StrHess.at i h) := by
  unfold Batch.Stretches.d2Of Stretches.d2Of
  simp only [← vec_pt]
  funext m
  fin_cases m <;> rfl

/-- The `Stretches` framework acts on every point of a batch separately if the model does. -/
theorem C39_stretches (lapack : Eigh) (i : ι) (π : Zb → Z) (B : Batch.StrMat ι Zb μ) (A : StrMat Z ν)
    (h : StrMat.AgreesAt i π B A) :
    Material.AgreesAt i π (Batch.Stretches.material lapack B) (Stretches.material lapack A) := by
  intro C z s t
  obtain ⟨hl, hM⟩ := eighSqrt_pt lapack i C
  have h1 := (h (Batch.eighSqrt lapack C).1 z s.material t.material).1
  rw [hl] at h1
  constructor
  · change (Batch.Stretches.gradient lapack B C z s).1.map _ = (Stretches.gradient lapack A (pt i C) (π z) t).1
    rw [Batch.Stretches.gradient_run, Stretches.gradient_run]
    revert h1
    rcases B.gradient _ _ _ with ⟨e | ⟨g, z'⟩, m⟩ <;> rcases A.gradient _ _ _ with ⟨e' | ⟨g', z''⟩, m'⟩ <;>
      intro h1 <;> cases h1
    · rfl
    · change Except.ok _ = Except.ok _
      congr 2
  · change (Batch.Stretches.hessian lapack B C z s).1.map _ = (Stretches.hessian lapack A (pt i C) (π z) t).1
    rw [Batch.Stretches.hessian_run, Stretches.hessian_run]
    revert h1
    rcases B.gradient _ _ _ with ⟨e | ⟨g, z'⟩, m⟩ <;> rcases A.gradient _ _ _ with ⟨e' | ⟨g', z''⟩, m'⟩ <;>
      intro h1 <;> cases h1
    · rfl
    · have h2 := (h (Batch.eighSqrt lapack C).1 z' m m').2
      rw [hl] at h2
      simp only
      revert h2
      rcases B.hessian _ _ _ with ⟨e | k, m⟩ <;> rcases A.hessian _ _ _ with ⟨e' | k', m'⟩ <;> intro h2 <;> cases h2
      · rfl
      · change Except.ok _ = Except.ok _
        congr 1
        rw [← hl, ← hM]
        funext a b
        simp only [Batch.Stretches.hessPure, Stretches.hessPure, pt2_apply, Finset.sum_apply]
        refine Finset.sum_congr rfl fun k _ => ?_
        rw [← pt2_apply i (Batch.Stretches.term _ _ _ _ _), term_pt, d2Of_pt]
        rfl

/-! ### spaces -/

end Props

namespace Hel
namespace Distortional
open Spec
variable {ι : Type}

theorem cu_pt (i : ι) (F : Full2 (Arr ι)) : pt i (Batch.Distortional.cu F) = Distortional.cu (pt2 i F) := by
  unfold Distortional.cu
  rw [← rightCauchyGreen_pt, ← det_pt]; rfl

theorem ic_pt (i : ι) (F : Full2 (Arr ι)) : pt i (Batch.Distortional.ic F) = Distortional.ic (pt2 i F) := by
  unfold Distortional.ic Batch.Distortional.ic
  rw [inv_pt, Option.map_some, ← rightCauchyGreen_pt, ← det_pt]

theorem sb_pt (i : ι) (F : Full2 (Arr ι)) (g : Vec6 (Arr ι)) :
    pt i (Batch.Distortional.sb F g) = Distortional.sb (pt2 i F) (pt i g) := by
  unfold Distortional.sb
  rw [← rightCauchyGreen_pt, ← det_pt]; rfl

theorem st_pt (i : ι) (F : Full2 (Arr ι)) (g : Vec6 (Arr ι)) :
    pt i (Batch.Distortional.st F g) = Distortional.st (pt2 i F) (pt i g) := by
  unfold Distortional.st
  rw [← rightCauchyGreen_pt, ← sb_pt, ← ic_pt, ← ddot_pt]; rfl

/-- the elasticity of the fictitious configuration at the point -/
noncomputable def c4b (F : Full2 ℝ) (h : Mat6 ℝ) : Mat6 ℝ := fun a b =>
  4 * det (rightCauchyGreen F) ^ (-2 / 3 : ℝ) * h a b

/-- geometric part of the elasticity -/
noncomputable def geo (F : Full2 ℝ) (g : Vec6 ℝ) : Mat6 ℝ := fun a b =>
  2 / 3 * (ddot (sb F g) (rightCauchyGreen F) * cdyaSelf (ic F) a b - dya (sb F g) (ic F) a b -
    transpose (dya (sb F g) (ic F)) a b + ddot (sb F g) (rightCauchyGreen F) / 3 * dya (ic F) (ic F) a b)

/-- material part of the elasticity -/
noncomputable def matPart (F : Full2 ℝ) (h : Mat6 ℝ) : Mat6 ℝ :=
  ddot44 (ddot44 (fun a b => cdyaSelf eye a b - dya (ic F) (rightCauchyGreen F) a b / 3) (c4b F h))
    (transpose fun a b => cdyaSelf eye a b - dya (ic F) (rightCauchyGreen F) a b / 3)

open Classical in
theorem c4_if (F : Full2 ℝ) (g : Vec6 ℝ) (h : Mat6 ℝ) : c4 F g h =
    if ¬ allclose0 (c4b F h) then fun a b => geo F g a b + matPart F h a b else geo F g := rfl

open Classical in
theorem c4_pt_if (i : ι) (F : Full2 (Arr ι)) (g : Vec6 (Arr ι)) (h : Mat6 (Arr ι)) :
    pt2 i (Batch.Distortional.c4 F g h) = if ¬ ∀ j, allclose0 (c4b (pt2 j F) (pt2 j h)) then
      fun a b => geo (pt2 i F) (pt i g) a b + matPart (pt2 i F) (pt2 i h) a b else geo (pt2 i F) (pt i g) := by
  have e : ∀ i, pt2 i (fun a b => 4 * Arr.pow (det (Batch.rightCauchyGreen F)) (-2 / 3 : ℝ) * h a b) =
      c4b (pt2 i F) (pt2 i h) := by
    intro i
    unfold c4b
    rw [← rightCauchyGreen_pt, ← det_pt]; rfl
  have eP : pt2 i (fun a b => cdyaSelf eye a b -
      dya (Batch.Distortional.ic F) (Batch.rightCauchyGreen F) a b / 3) =
      fun a b => cdyaSelf eye a b - dya (Distortional.ic (pt2 i F)) (rightCauchyGreen (pt2 i F)) a b / 3 := by
    rw [← rightCauchyGreen_pt, ← ic_pt, ← eye_pt i, ← cdyaSelf_pt]; rfl
  have e0 : pt2 i (fun a b => 2 / 3 * (ddot (Batch.Distortional.sb F g) (Batch.rightCauchyGreen F) *
        cdyaSelf (Batch.Distortional.ic F) a b - dya (Batch.Distortional.sb F g) (Batch.Distortional.ic F) a b -
      transpose (dya (Batch.Distortional.sb F g) (Batch.Distortional.ic F)) a b +
      ddot (Batch.Distortional.sb F g) (Batch.rightCauchyGreen F) / 3 *
        dya (Batch.Distortional.ic F) (Batch.Distortional.ic F) a b)) = geo (pt2 i F) (pt i g) := by
    unfold geo
    rw [← rightCauchyGreen_pt, ← ic_pt, ← sb_pt, ← cdyaSelf_pt, ← ddot_pt]; rfl
  have e1 : pt2 i (ddot44 (ddot44 (fun a b => cdyaSelf eye a b -
      dya (Batch.Distortional.ic F) (Batch.rightCauchyGreen F) a b / 3)
      (fun a b => 4 * Arr.pow (det (Batch.rightCauchyGreen F)) (-2 / 3 : ℝ) * h a b))
      (transpose fun a b => cdyaSelf eye a b -
      dya (Batch.Distortional.ic F) (Batch.rightCauchyGreen F) a b / 3)) = matPart (pt2 i F) (pt2 i h) := by
    unfold matPart
    rw [ddot44_pt, ddot44_pt, e, ← eP]; rfl
  have hb : Batch.Distortional.allclose0
      (fun a b => 4 * Arr.pow (det (Batch.rightCauchyGreen F)) (-2 / 3 : ℝ) * h a b) ↔
      ∀ j, allclose0 (c4b (pt2 j F) (pt2 j h)) := by
    simp only [← e]
    exact ⟨fun h j a b => h a b j, fun h a b j => h j a b⟩
  unfold Batch.Distortional.c4
  simp only
  by_cases hc : ∀ j, allclose0 (c4b (pt2 j F) (pt2 j h))
  · rw [if_neg (not_not.2 (hb.2 hc)), if_neg (not_not.2 hc)]
    exact e0
  · rw [if_pos (fun h => hc (hb.1 h)), if_pos hc, ← e0, ← e1]
    rfl

theorem c4_pt (i : ι) (F : Full2 (Arr ι)) (g : Vec6 (Arr ι)) (h : Mat6 (Arr ι))
    (hi : (∀ a b, h a b i = 0) ∨ ¬ Distortional.allclose0 (c4b (pt2 i F) (pt2 i h))) :
    pt2 i (Batch.Distortional.c4 F g h) = Distortional.c4 (pt2 i F) (pt i g) (pt2 i h) := by
  rw [c4_pt_if, c4_if]
  rcases hi with hi | hi
  · have hz : c4b (pt2 i F) (pt2 i h) = fun _ _ => 0 := by
      funext a b
      simp only [c4b, pt2_apply, hi, mul_zero]
    have hd : matPart (pt2 i F) (pt2 i h) = fun _ _ => 0 := by
      unfold matPart
      rw [hz]
      funext a b
      simp [ddot44]
    rw [hd]
    simp only [add_zero, ite_self]
  · rw [if_pos hi, if_pos fun h => hi (h i)]

end Distortional

namespace Dilatational
open Spec
variable {ι : Type}

theorem co_pt (i : ι) (F : Full2 (Arr ι)) : pt i (Batch.Dilatational.co F) = Dilatational.co (pt2 i F) := by
  unfold Dilatational.co
  rw [← rightCauchyGreen_pt, ← det_pt]; rfl

theorem ic_pt (i : ι) (F : Full2 (Arr ι)) : pt i (Batch.Dilatational.ic F) = Dilatational.ic (pt2 i F) := by
  unfold Dilatational.ic Batch.Dilatational.ic
  rw [inv_pt, Option.map_some, ← rightCauchyGreen_pt, ← det_pt]

theorem sb_pt (i : ι) (F : Full2 (Arr ι)) (g : Vec6 (Arr ι)) :
    pt i (Batch.Dilatational.sb F g) = Dilatational.sb (pt2 i F) (pt i g) := by
  unfold Dilatational.sb
  rw [← rightCauchyGreen_pt, ← det_pt]; rfl

theorem st_pt (i : ι) (F : Full2 (Arr ι)) (g : Vec6 (Arr ι)) :
    pt i (Batch.Dilatational.st F g) = Dilatational.st (pt2 i F) (pt i g) := by
  unfold Dilatational.st
  rw [← sb_pt, ← ic_pt, ← trace_pt]; rfl

theorem c4_pt (i : ι) (F : Full2 (Arr ι)) (g : Vec6 (Arr ι)) (h : Mat6 (Arr ι)) :
    pt2 i (Batch.Dilatational.c4 F g h) = Dilatational.c4 (pt2 i F) (pt i g) (pt2 i h) := by
  have e : pt2 i (fun a b => 4 * Arr.pow (det (Batch.rightCauchyGreen F)) (2 / 3 : ℝ) * h a b) =
      fun a b => 4 * det (rightCauchyGreen (pt2 i F)) ^ (2 / 3 : ℝ) * pt2 i h a b := by
    rw [← rightCauchyGreen_pt, ← det_pt]; rfl
  unfold Dilatational.c4
  simp only
  rw [← e, ← sb_pt, ← ic_pt, ← trace_pt, ← eye_pt i, ← ddot24_pt, ← ddot_pt, ← dya_pt, ← cdyaSelf_pt]
  rfl

end Dilatational
end Hel

namespace Props
open Spec Hel
variable {ι Z Zb μ ν : Type}

/-- The stress on the deformation space is evaluated point by point. -/
theorem C39_deformation_gradient (cfg : SpaceCfg) (i : ι) (π : Zb → Z) (B : Material (Arr ι) Zb μ)
    (A : Material ℝ Z ν) (h : Material.AgreesAt i π B A) :
    SpaceObj.GradAgreesAt i π (Batch.Deformation.obj cfg B) (Deformation.obj cfg A) := by
  intro F z s t
  have h1 := (h (Batch.rightCauchyGreen F) z s.material t.material).1
  rw [rightCauchyGreen_pt] at h1
  change (Batch.Deformation.gradient cfg B F z s).1.map _ = (Deformation.gradient cfg A (pt2 i F) (π z) t).1
  rw [Batch.Deformation.gradient_run, Deformation.gradient_run]
  revert h1
  rcases B.gradient _ _ _ with ⟨e | ⟨g, z'⟩, m⟩ <;> rcases A.gradient _ _ _ with ⟨e' | ⟨g', z''⟩, m'⟩ <;>
    intro h1 <;> cases h1
  · rfl
  · exact congrArg Except.ok (Prod.ext (piolaStress_pt i cfg F (fun a => 2 * g a) none) rfl)

/-- The elasticity on the deformation space is evaluated point by point. -/
theorem C39_deformation_hessian (cfg : SpaceCfg) (i : ι) (π : Zb → Z) (B : Material (Arr ι) Zb μ)
    (A : Material ℝ Z ν) (h : Material.AgreesAt i π B A) :
    SpaceObj.HessAgreesAt i π (Batch.Deformation.obj cfg B) (Deformation.obj cfg A) := by
  intro F z s t
  have h1 := (h (Batch.rightCauchyGreen F) z s.material t.material).1
  rw [rightCauchyGreen_pt] at h1
  change (Batch.Deformation.hessian cfg B F z s).1.map _ = (Deformation.hessian cfg A (pt2 i F) (π z) t).1
  rw [Batch.Deformation.hessian_run, Deformation.hessian_run]
  revert h1
  rcases B.gradient _ _ _ with ⟨e | ⟨g, z'⟩, m⟩ <;> rcases A.gradient _ _ _ with ⟨e' | ⟨g', z''⟩, m'⟩ <;>
    intro h1 <;> cases h1
  · rfl
  · have h2 := (h (Batch.rightCauchyGreen F) z m m').2
    rw [rightCauchyGreen_pt] at h2
    simp only
    revert h2
    rcases B.hessian _ _ _ with ⟨e | k, m⟩ <;> rcases A.hessian _ _ _ with ⟨e' | k', m'⟩ <;> intro h2 <;> cases h2
    · rfl
    · exact congrArg Except.ok (piolaElasticity_pt i cfg F (fun a => 2 * g a) none (fun a b => 4 * k a b) none)

/-- The stress on the distortional space is evaluated point by point. -/
theorem C39_distortional_gradient (cfg : SpaceCfg) (i : ι) (π : Zb → Z) (B : Material (Arr ι) Zb μ)
    (A : Material ℝ Z ν) (h : Material.AgreesAt i π B A) :
    SpaceObj.GradAgreesAt i π (Batch.Distortional.obj cfg B) (Distortional.obj cfg A) := by
  intro F z s t
  have h1 := (h (Batch.Distortional.cu F) z s.material t.material).1
  rw [Distortional.cu_pt] at h1
  change (Batch.Distortional.gradient cfg B F z s).1.map _ = (Distortional.gradient cfg A (pt2 i F) (π z) t).1
  rw [Batch.Distortional.gradient_run, Distortional.gradient_run]
  revert h1
  rcases B.gradient _ _ _ with ⟨e | ⟨g, z'⟩, m⟩ <;> rcases A.gradient _ _ _ with ⟨e' | ⟨g', z''⟩, m'⟩ <;>
    intro h1 <;> cases h1
  · rfl
  · refine congrArg Except.ok (Prod.ext ((piolaStress_pt i cfg F (Batch.Distortional.st F g)
      (some (Arr.sqrt (det (Batch.rightCauchyGreen F))))).trans ?_) rfl)
    rw [Distortional.st_pt, Option.map_some, Arr.sqrt, det_pt, rightCauchyGreen_pt]

/-- The stress on the dilatational space is evaluated point by point. -/
theorem C39_dilatational_gradient (cfg : SpaceCfg) (i : ι) (π : Zb → Z) (B : Material (Arr ι) Zb μ)
    (A : Material ℝ Z ν) (h : Material.AgreesAt i π B A) :
    SpaceObj.GradAgreesAt i π (Batch.Dilatational.obj cfg B) (Dilatational.obj cfg A) := by
  intro F z s t
  have h1 := (h (Batch.Dilatational.co F) z s.material t.material).1
  rw [Dilatational.co_pt] at h1
  change (Batch.Dilatational.gradient cfg B F z s).1.map _ = (Dilatational.gradient cfg A (pt2 i F) (π z) t).1
  rw [Batch.Dilatational.gradient_run, Dilatational.gradient_run]
  revert h1
  rcases B.gradient _ _ _ with ⟨e | ⟨g, z'⟩, m⟩ <;> rcases A.gradient _ _ _ with ⟨e' | ⟨g', z''⟩, m'⟩ <;>
    intro h1 <;> cases h1
  · rfl
  · refine congrArg Except.ok (Prod.ext ((piolaStress_pt i cfg F (Batch.Dilatational.st F g)
      (some (Arr.sqrt (det (Batch.rightCauchyGreen F))))).trans ?_) rfl)
    rw [Dilatational.st_pt, Option.map_some, Arr.sqrt, det_pt, rightCauchyGreen_pt]

/-- The elasticity on the dilatational space is evaluated point by point. -/
theorem C39_dilatational_hessian (cfg : SpaceCfg) (i : ι) (π : Zb → Z) (B : Material (Arr ι) Zb μ)
    (A : Material ℝ Z ν) (h : Material.AgreesAt i π B A) :
    SpaceObj.HessAgreesAt i π (Batch.Dilatational.obj cfg B) (Dilatational.obj cfg A) := by
  intro F z s t
  have h1 := (h (Batch.Dilatational.co F) z s.material t.material).1
  rw [Dilatational.co_pt] at h1
  change (Batch.Dilatational.hessian cfg B F z s).1.map _ = (Dilatational.hessian cfg A (pt2 i F) (π z) t).1
  rw [Batch.Dilatational.hessian_run, Dilatational.hessian_run]
  revert h1
  rcases B.gradient _ _ _ with ⟨e | ⟨g, z'⟩, m⟩ <;> rcases A.gradient _ _ _ with ⟨e' | ⟨g', z''⟩, m'⟩ <;>
    intro h1 <;> cases h1
  · rfl
  · have h2 := (h (Batch.Dilatational.co F) z m m').2
    rw [Dilatational.co_pt] at h2
    simp only
    revert h2
    rcases B.hessian _ _ _ with ⟨e | k, m⟩ <;> rcases A.hessian _ _ _ with ⟨e' | k', m'⟩ <;> intro h2 <;> cases h2
    · rfl
    · refine congrArg Except.ok ((piolaElasticity_pt i cfg F (Batch.Dilatational.st F g)
        (some (Arr.sqrt (det (Batch.rightCauchyGreen F)))) (Batch.Dilatational.c4 F g k)
        (some (Batch.Dilatational.ic F))).trans ?_)
      rw [Dilatational.st_pt, Dilatational.c4_pt, Option.map_some, Option.map_some, Dilatational.ic_pt, Arr.sqrt,
        det_pt, rightCauchyGreen_pt]

/-- The elasticity on the distortional space: what is returned at a point of a batch is what is
returned for that point alone, if the elasticity `H` of the material at that point is zero or
above the tolerance `1e-8`.  (Missing: points below the tolerance, where the result depends on the
other points of the batch, see `C39_distortional_hessian_false`.) -/
theorem C39_distortional_hessian_partial (cfg : SpaceCfg) (i : ι) (π : Zb → Z) (B : Material (Arr ι) Zb μ)
    (A : Material ℝ Z ν) (h : Material.AgreesAt i π B A) (F : Full2 (Arr ι)) (z : Zb)
    (s : Batch.DistSt ι μ) (t : DistSt ν)
    (hi : ∀ H, Material.Hess A (π z) (unimodular (cauchyGreen (pt2 i F))) H → H = 0 ∨
      ∃ a b c d, 1 / 10 ^ 8 < |4 * (cauchyGreen (pt2 i F)).det ^ (-2 / 3 : ℝ) * H a b c d|) :
    ((Batch.Distortional.obj cfg B).hessian F z s).1.map (Elasticity.at i) =
      ((Distortional.obj cfg A).hessian (pt2 i F) (π z) t).1 := by
  have h1 := (h (Batch.Distortional.cu F) z s.material t.material).1
  rw [Distortional.cu_pt] at h1
  change (Batch.Distortional.hessian cfg B F z s).1.map _ = (Distortional.hessian cfg A (pt2 i F) (π z) t).1
  rw [Batch.Distortional.hessian_run, Distortional.hessian_run]
  revert h1
  rcases B.gradient _ _ _ with ⟨e | ⟨g, z'⟩, m⟩ <;> rcases A.gradient _ _ _ with ⟨e' | ⟨g', z''⟩, m'⟩ <;>
    intro h1 <;> cases h1
  · rfl
  · have h2 := (h (Batch.Distortional.cu F) z m m').2
    rw [Distortional.cu_pt] at h2
    simp only
    have h3 : ∀ H, Returns (A.hessian (Distortional.cu (pt2 i F)) (π z)) m' H → (∀ a b, H a b = 0) ∨
        ¬ Distortional.allclose0 (Distortional.c4b (pt2 i F) H) := by
      intro H hH
      have := Material.hess_T4 A (π z) m' _ H hH
      rw [show T2 (Distortional.cu (pt2 i F)) = _ from Distortional.T2_cu _] at this
      rcases hi _ this with h0 | h0
      · left
        intro a b
        have := (stores4_astensor4 H).entry a b
        rw [this, h0]; rfl
      · right
        intro hc
        obtain ⟨a, b, c, d, hlt⟩ := h0
        have e := (Distortional.dropped_iff (pt2 i F) H).2
        have hd := e (by
          intro a b
          have := hc a b
          rwa [Distortional.c4b, T2_det, show T2 (rightCauchyGreen (pt2 i F)) = _ from T2_rcg _] at this) a b c d
        exact absurd hd (not_le.2 hlt)
    revert h2 h3
    unfold Returns
    rcases B.hessian _ _ _ with ⟨e | k, m⟩ <;> rcases A.hessian _ _ _ with ⟨e' | k', m'⟩ <;> intro h2 <;> cases h2
    · intro _; rfl
    · intro h3
      refine congrArg Except.ok ((piolaElasticity_pt i cfg F (Batch.Distortional.st F g)
        (some (Arr.sqrt (det (Batch.rightCauchyGreen F)))) (Batch.Distortional.c4 F g k)
        (some (Batch.Distortional.ic F))).trans ?_)
      rw [Distortional.st_pt, Distortional.c4_pt i F g k (h3 _ rfl), Option.map_some, Option.map_some,
        Distortional.ic_pt, Arr.sqrt, det_pt, rightCauchyGreen_pt]

/-- C39 for the elasticity on the distortional space, without a condition. -/
def C39_Full : Prop := ∀ (ι Zb Z μ ν : Type) (i : ι) (π : Zb → Z) (B : Material (Arr ι) Zb μ)
  (A : Material ℝ Z ν), Material.AgreesAt i π B A →
    SpaceObj.HessAgreesAt i π (Batch.Distortional.obj {} B) (Distortional.obj {} A)

/-- The material with the energy `ε/2 C:C` on batches. -/
noncomputable def squareBatch (ε : ℝ) (ι : Type) {Zb : Type} : Material (Arr ι) Zb Unit where
  gradient c z := pure (fun a => Arr.const ε * c a, z)
  hessian _ _ := pure fun a b => Arr.const ε * cdyaSelf eye a b

/-- `squareBatch` acts on every point separately, as in the theorems above. -/
theorem squareBatch_agrees (ε : ℝ) (i : ι) (π : Zb → Unit) :
    Material.AgreesAt i π (squareBatch ε ι) (squareMat ε) := by
  intro C z s t
  refine ⟨rfl, ?_⟩
  change Except.ok _ = Except.ok _
  congr 1
  funext a b
  change ε * pt2 i (cdyaSelf eye) a b = ε * _
  rw [cdyaSelf_pt, eye_pt]

theorem piola_one {F : Full2 ℝ} (hF : ∀ i j, F i j = if i = j then 1 else 0) (S : Vec6 ℝ) (d : Option ℝ)
    (C4 : Mat6 ℝ) (v : Option (Vec6 ℝ)) :
    piolaElasticity {} F S d C4 v =
      .full fun i J k L => astensor4 C4 i J k L + cdya_ik eye S i J k L := by
  simp [piolaElasticity, hF]

theorem cdyaSelf_eye (a b : Fin 6) : cdyaSelf (eye : Vec6 ℝ) a b =
    if a = b then (if a.val < 3 then 1 else 1 / 2) else 0 := by
  have h := (stores4_astensor4 (cdyaSelf (eye : Vec6 ℝ))).entry a b
  rw [h, T4_cdyaSelf, T2_eye]
  fin_cases a <;> fin_cases b <;> simp [dyadSym, Matrix.one_apply, pos] <;> norm_num

/-- A batch of the two deformation gradients `I` and `I/4`. -/
noncomputable def twoPoints : Full2 (Arr Bool) := fun j k b => if j = k then (if b then 1 else 1 / 4) else 0

open Classical in
theorem square_depends (z : Zb) (s t) :
    ((Batch.Distortional.obj {} (squareBatch (2 / 10 ^ 9) Bool)).hessian twoPoints z s).1.map (Elasticity.at true) ≠
      ((Distortional.obj {} (squareMat (2 / 10 ^ 9))).hessian (pt2 true twoPoints) () t).1 := by
  intro key
  set ε : ℝ := 2 / 10 ^ 9 with hε
  set F : Full2 (Arr Bool) := twoPoints with hF'
  have hF : F = fun j k b => if j = k then (if b then 1 else 1 / 4) else 0 := rfl
  change (Batch.Distortional.hessian {} _ F z _).1.map _ = (Distortional.hessian {} _ (pt2 true F) () _).1 at key
  rw [Batch.Distortional.hessian_run, Distortional.hessian_run] at key
  have key := Except.ok.inj key
  rw [piolaElasticity_pt] at key
  have hC1 : rightCauchyGreen (pt2 true F) = eye := by
    funext a
    fin_cases a <;> simp [rightCauchyGreen, asvoigt, eye, Fin.sum_univ_three, hF, pt2]
  have hF1 : ∀ i j, pt2 true F i j = if i = j then 1 else 0 := by
    intro i j; simp [hF, pt2]
  have hE : ∀ b : Bool, pt2 b (fun a c => (Arr.const ε : Arr Bool) * cdyaSelf eye a c) =
      fun a c => ε * cdyaSelf eye a c := by
    intro b
    funext a c
    change ε * pt2 b (cdyaSelf eye) a c = ε * _
    rw [cdyaSelf_pt, eye_pt]
  have hcu : pt true (fun a => (Arr.const ε : Arr Bool) * Batch.Distortional.cu F a) =
      fun a => ε * Distortional.cu (pt2 true F) a := by
    rw [← Distortional.cu_pt]; rfl
  rw [piola_one hF1, piola_one hF1] at key
  have key := congrFun (congrFun (congrFun (congrFun (Elasticity.full.inj key) 0) 1) 0) 1
  have hC2 : det (rightCauchyGreen (pt2 false F)) = (1 / 4) ^ 6 := by
    simp [rightCauchyGreen, asvoigt, det, hF, pt2, Fin.sum_univ_three]
    norm_num
  have h2 : ¬ ∀ j, Distortional.allclose0 (Distortional.c4b (pt2 j F)
      (pt2 j fun a c => (Arr.const ε : Arr Bool) * cdyaSelf eye a c)) := by
    intro h
    have := h false 0 0
    rw [hE, Distortional.c4b, hC2, cdyaSelf_eye, ← Real.rpow_natCast, ← Real.rpow_mul (by norm_num)] at this
    norm_num [hε, abs_of_pos] at this
  have hd1 : det (eye : Vec6 ℝ) = 1 := by simp [det, eye]
  have hc4 : Distortional.c4b (pt2 true F) (fun a c => ε * cdyaSelf eye a c) = fun a c =>
      if a = c then (if a.val < 3 then 4 * ε else 2 * ε) else 0 := by
    funext a c
    rw [Distortional.c4b, hC1, hd1, Real.one_rpow, cdyaSelf_eye]
    split_ifs <;> ring
  have h1 : Distortional.allclose0 (Distortional.c4b (pt2 true F) fun a c => ε * cdyaSelf eye a c) := by
    intro a c
    rw [hc4]
    simp only
    split_ifs <;> norm_num [hε, abs_of_pos]
  rw [Distortional.c4_pt_if, Distortional.c4_if, if_pos h2, if_neg (not_not.2 h1), Distortional.st_pt, hcu, hE] at key
  have hic : Distortional.ic (pt2 true F) = eye := by
    unfold Distortional.ic
    rw [hC1, hd1]
    funext a
    rw [inv_entry]
    fin_cases a <;> simp [eye]
  have hm : Distortional.matPart (pt2 true F) (fun a c => ε * cdyaSelf eye a c) 3 3 = 2 * ε := by
    unfold Distortional.matPart
    rw [hc4, hic, hC1]
    have e3 : (eye : Vec6 ℝ) 3 = 0 := rfl
    simp [ddot44, transpose, dya, cdyaSelf_eye, weights, Fin.sum_univ_six, e3]
    try ring
  have h0 : Distortional.matPart (pt2 true F) (fun a c => ε * cdyaSelf eye a c) 3 3 = 0 := by
    have key := add_right_cancel key
    change Distortional.geo (pt2 true F) (fun a => ε * Distortional.cu (pt2 true F) a) 3 3 +
      Distortional.matPart (pt2 true F) (fun a c => ε * cdyaSelf eye a c) 3 3 =
      Distortional.geo (pt2 true F) (fun a => ε * Distortional.cu (pt2 true F) a) 3 3 at key
    linarith
  rw [hm] at h0
  norm_num [hε] at h0

/-- C39 fails for the elasticity on the distortional space: with the energy `ε/2 C:C`, `ε = 2e-9`,
the elasticity at `F = I` alone is not the one at `F = I` in a batch with `F = I/4`. -/
theorem C39_distortional_hessian_false : ¬ C39_Full := fun hfull =>
  square_depends () { material := () } { material := () }
    (hfull Bool Unit Unit Unit Unit true id (squareBatch (2 / 10 ^ 9) Bool) (squareMat (2 / 10 ^ 9))
      (squareBatch_agrees _ true id) twoPoints () { material := () } { material := () })

/-- A batch of one point is evaluated as the point alone, also on the distortional space. -/
theorem C39_distortional_hessian_one [Subsingleton ι] (cfg : SpaceCfg) (i : ι) (π : Zb → Z)
    (B : Material (Arr ι) Zb μ) (A : Material ℝ Z ν) (h : Material.AgreesAt i π B A) :
    SpaceObj.HessAgreesAt i π (Batch.Distortional.obj cfg B) (Distortional.obj cfg A) := by
  intro F z s t
  have h1 := (h (Batch.Distortional.cu F) z s.material t.material).1
  rw [Distortional.cu_pt] at h1
  change (Batch.Distortional.hessian cfg B F z s).1.map _ = (Distortional.hessian cfg A (pt2 i F) (π z) t).1
  rw [Batch.Distortional.hessian_run, Distortional.hessian_run]
  revert h1
  rcases B.gradient _ _ _ with ⟨e | ⟨g, z'⟩, m⟩ <;> rcases A.gradient _ _ _ with ⟨e' | ⟨g', z''⟩, m'⟩ <;>
    intro h1 <;> cases h1
  · rfl
  · have h2 := (h (Batch.Distortional.cu F) z m m').2
    rw [Distortional.cu_pt] at h2
    simp only
    revert h2
    rcases B.hessian _ _ _ with ⟨e | k, m⟩ <;> rcases A.hessian _ _ _ with ⟨e' | k', m'⟩ <;> intro h2 <;> cases h2
    · rfl
    · refine congrArg Except.ok ((piolaElasticity_pt i cfg F (Batch.Distortional.st F g)
        (some (Arr.sqrt (det (Batch.rightCauchyGreen F)))) (Batch.Distortional.c4 F g k)
        (some (Batch.Distortional.ic F))).trans ?_)
      have hc : pt2 i (Batch.Distortional.c4 F g k) = Distortional.c4 (pt2 i F) (pt i g) (pt2 i k) := by
        classical
        rw [Distortional.c4_pt_if, Distortional.c4_if]
        refine if_congr (not_congr ⟨fun h => h i, fun h j => ?_⟩) rfl rfl
        rw [Subsingleton.elim j i]; exact h
      rw [Distortional.st_pt, hc, Option.map_some, Option.map_some, Distortional.ic_pt, Arr.sqrt, det_pt,
        rightCauchyGreen_pt]

/-- The shipped materials meet the hypotheses of C39: a third-order-deformation material of two points. -/
example (F : Full2 (Arr Bool)) (s) (t) (i : Bool) :
    (((Batch.Deformation.obj {} (Invariants.material (TOD.init (Arr.const 1) (Arr.const 2) (Arr.const 0) (Arr.const 0)
      (Arr.const 3 : Arr Bool) false).mat)).gradient F () s).1.map fun p => (Stress.at i p.1, p.2)) =
    ((Deformation.obj {} (Invariants.material (TOD.init 1 2 0 0 3 false).mat)).gradient (pt2 i F) () t).1 := by
  classical
  exact C39_deformation_gradient {} i id _ _ (C39_invariants i id _ _ (C39_third_order _ _ _ _ _ _ i id)) F () s t

end Props
