import Verif.Proofs.BatchGeneralized
import Verif.Props.Batch
import Verif.Props.Generalized

/-! # Property C39 for `GeneralizedInvariantsModel`

`i` is any point of trailing axes of shape `(…, n)`. -/

namespace Props
open Spec Hel

variable {ι κ Z Zb μ ν : Type} {n : ℕ}

/-- The first derivatives returned by a generalized-invariants model are evaluated point by point. -/
theorem C39_generalized_gradient (g : GenInv) (i : κ × Fin n) (π : Zb → Z) (B : InvMat (Arr (κ × Fin n)) Zb μ)
    (A : InvMat ℝ Z ν) (h : InvMat.AgreesAt i π B A) (l : Vec3 (Arr (κ × Fin n))) (z : Zb)
    (s : Batch.GenSt (κ × Fin n) μ) (t : GenSt ν) :
    (((Batch.GenInv.mat g B).gradient l z s).1.map fun r => (pt i r.1, π r.2)) =
      ((g.mat A).gradient (pt i l) (π z) t).1 := by
  change (Batch.GenInv.gradient g B l z s).1.map _ = (GenInv.gradient g A (pt i l) (π z) t).1
  obtain ⟨e1, e2, e3⟩ := Batch.GenInv.J_pt i g l
  have h1 := (h (Batch.GenInv.J1 g (Batch.GenInv.ev g l)) (Batch.GenInv.J2 g (Batch.GenInv.ev g l))
    (Batch.GenInv.J3 (Batch.GenInv.ev g l)) z s.material t.material).1
  rw [e1, e2, e3] at h1
  rw [Batch.GenInv.gradient_run, GenInv.gradient_run]
  revert h1
  rcases B.gradient _ _ _ _ _ with ⟨e | r, m⟩ <;> rcases A.gradient _ _ _ _ _ with ⟨e' | r', m'⟩ <;> intro h1 <;>
    cases h1
  · rfl
  · exact congrArg Except.ok (Prod.ext (Batch.GenInv.gradPure_pt i π g l r) rfl)

/-- A generalized-invariants model whose invariant-based model has no derivative with respect to
the third invariant is evaluated point by point, first and second derivatives. -/
theorem C39_generalized_partial (g : GenInv) (i : κ × Fin n) (π : Zb → Z) (B : InvMat (Arr (κ × Fin n)) Zb μ)
    (A : InvMat ℝ Z ν) (h : InvMat.AgreesAt i π B A)
    (h3 : ∀ I1 I2 I3 z s r, Returns (B.gradient I1 I2 I3 z) s r → r.d3 = none) :
    StrMat.AgreesAt i π (Batch.GenInv.mat g B) (g.mat A) := by
  intro l z s t
  refine ⟨C39_generalized_gradient g i π B A h l z s t, ?_⟩
  change (Batch.GenInv.hessian g B l z s).1.map _ = (GenInv.hessian g A (pt i l) (π z) t).1
  obtain ⟨e1, e2, e3⟩ := Batch.GenInv.J_pt i g l
  have h1 := (h (Batch.GenInv.J1 g (Batch.GenInv.ev g l)) (Batch.GenInv.J2 g (Batch.GenInv.ev g l))
    (Batch.GenInv.J3 (Batch.GenInv.ev g l)) z s.material t.material).1
  have hn := h3 (Batch.GenInv.J1 g (Batch.GenInv.ev g l)) (Batch.GenInv.J2 g (Batch.GenInv.ev g l))
    (Batch.GenInv.J3 (Batch.GenInv.ev g l)) z s.material
  rw [e1, e2, e3] at h1
  rw [Batch.GenInv.hessian_run, GenInv.hessian_run]
  revert h1 hn
  unfold Returns
  rcases B.gradient _ _ _ _ _ with ⟨e | r, m⟩ <;> rcases A.gradient _ _ _ _ _ with ⟨e' | r', m'⟩ <;> intro h1 <;>
    cases h1
  · intro _; rfl
  · intro hn
    have hn := hn r rfl
    have h2 := (h (Batch.GenInv.J1 g (Batch.GenInv.ev g l)) (Batch.GenInv.J2 g (Batch.GenInv.ev g l))
      (Batch.GenInv.J3 (Batch.GenInv.ev g l)) z m m').2
    rw [e1, e2, e3] at h2
    simp only
    revert h2
    rcases B.hessian _ _ _ _ _ with ⟨e | k, m⟩ <;> rcases A.hessian _ _ _ _ _ with ⟨e' | k', m'⟩ <;> intro h2 <;>
      cases h2
    · rfl
    · have hn' : (InvGrad.at i π r).d3 = none := by simp only [InvGrad.at, hn, Option.map_none]
      simp only [hn, Batch.GenInv.addThird]
      refine congrArg Except.ok (congrArg StrHess.array ?_)
      rw [Batch.GenInv.hessB_pt i π, Batch.GenInv.hessA_pt i π, Batch.GenInv.hessPure_eq, hn']

/-- A generalized `ThirdOrderDeformation` model is evaluated point by point: its derivative with
respect to the third invariant is `None`. -/
theorem C39_generalized_tod (g : GenInv) (C10 C01 C11 C20 C30 : ℝ) (b : Bool) (i : κ × Fin n) (π : Zb → Z)
    [DecidableEq (Arr (κ × Fin n))] :
    StrMat.AgreesAt i π
      (Batch.GenInv.mat g (TOD.init (Arr.const C10) (Arr.const C01) (Arr.const C11) (Arr.const C20)
        (Arr.const C30 : Arr (κ × Fin n)) b).mat)
      (g.mat (TOD.init C10 C01 C11 C20 C30 b).mat) := by
  refine C39_generalized_partial g i π _ _ (C39_third_order C10 C01 C11 C20 C30 b i π) ?_
  intro I1 I2 I3 z s r hr
  have h := (C39_third_order C10 C01 C11 C20 C30 b i π I1 I2 I3 z s ()).1
  unfold Returns at hr
  rw [hr] at h
  have h' := h.trans (show _ = _ from TOD.gradient_eq (TOD.init C10 C01 C11 C20 C30 b) (I1 i) (I2 i) (I3 i) (π z))
  have h3 : r.d3.map (· i) = none := congrArg InvGrad.d3 (Except.ok.inj h')
  exact Option.map_eq_none_iff.1 h3

/-- With a derivative with respect to the third invariant, the second derivatives of a batch raise a
`ValueError` whenever the last trailing axis does not have length three, in particular for every
batch of one point. -/
theorem C39_generalized_error (g : GenInv) (B : InvMat (Arr (κ × Fin n)) Zb μ) (hn : n ≠ 3)
    (l : Vec3 (Arr (κ × Fin n))) (z : Zb) (s : Batch.GenSt (κ × Fin n) μ)
    (h3 : ∀ I1 I2 I3 t, ∃ r, Returns (B.gradient I1 I2 I3 z) t r ∧ r.d3 ≠ none)
    (hh : ∀ I1 I2 I3 t, ∃ h, Returns (B.hessian I1 I2 I3 z) t h) :
    ((Batch.GenInv.mat g B).hessian l z s).1 = .error .valueError := by
  change (Batch.GenInv.hessian g B l z s).1 = _
  rw [Batch.GenInv.hessian_run]
  obtain ⟨r, hr, hr3⟩ := h3 (Batch.GenInv.J1 g (Batch.GenInv.ev g l)) (Batch.GenInv.J2 g (Batch.GenInv.ev g l))
    (Batch.GenInv.J3 (Batch.GenInv.ev g l)) s.material
  unfold Returns at hr
  revert hr
  rcases B.gradient _ _ _ _ _ with ⟨_ | r', m⟩ <;> intro hr <;> cases hr
  obtain ⟨k, hk⟩ := hh (Batch.GenInv.J1 g (Batch.GenInv.ev g l)) (Batch.GenInv.J2 g (Batch.GenInv.ev g l))
    (Batch.GenInv.J3 (Batch.GenInv.ev g l)) m
  unfold Returns at hk
  revert hk
  simp only
  rcases B.hessian _ _ _ _ _ with ⟨_ | r', m⟩ <;> intro hk <;> cases hk
  obtain ⟨w, hw⟩ := Option.ne_none_iff_exists'.1 hr3
  simp only [hw, Batch.GenInv.addThird, dif_neg hn]
  rfl

/-- If the last trailing axis has length three the call returns, and at the point `(k, j)` the three mixed
second derivatives are off by `∂ψ/∂I₃ (e_j - e_m) E'(λ_α) E'(λ_β)` with the list `e = [2, 0, 1]`:
the list is lined up with the last axis instead of the pairs `12, 23, 13`. -/
theorem C39_generalized_rows (g : GenInv) (k : κ) (j : Fin 3) (π : Zb → Z) (B : InvMat (Arr (κ × Fin 3)) Zb μ)
    (A : InvMat ℝ Z ν) (h : InvMat.AgreesAt (k, j) π B A) (l : Vec3 (Arr (κ × Fin 3))) (z : Zb)
    (s : Batch.GenSt (κ × Fin 3) μ) (t : GenSt ν) (H : Batch.StrHess (κ × Fin 3))
    (hH : Returns ((Batch.GenInv.mat g B).hessian l z) s H) :
    let E : Fin 3 → ℝ := fun a => (g.strain.eval (l a (k, j))).E
    ∃ (x : Vec6 (Arr (κ × Fin 3))) (y : Vec6 ℝ) (r : InvGrad ℝ Z), H = .array x ∧
      Returns ((g.mat A).hessian (pt (k, j) l) (π z)) t (.array y) ∧
      Returns (A.gradient (g.c1 * (E 0 + E 1 + E 2) - g.I10 * (g.c1 - 1))
        (g.c2 * (E 0 * E 1 + E 1 * E 2 + E 2 * E 0) - g.I20 * (g.c2 - 1)) (E 0 * E 1 * E 2) (π z)) t.material r ∧
      (∀ m : Fin 3, x (Fin.castAdd 3 m) (k, j) = y (Fin.castAdd 3 m)) ∧
      ∀ (m : Fin 3) (a b : Fin 3), (a, b) = (![(0, 1), (1, 2), (0, 2)] : Fin 3 → Fin 3 × Fin 3) m →
        x (Fin.natAdd 3 m) (k, j) = y (Fin.natAdd 3 m) +
          r.d3.getD 0 * ((![2, 0, 1] : Fin 3 → ℝ) j - (![2, 0, 1] : Fin 3 → ℝ) m) *
            ((g.strain.eval (l a (k, j))).dE * (g.strain.eval (l b (k, j))).dE) := by
  intro E
  change (Batch.GenInv.hessian g B l z s).1 = .ok H at hH
  obtain ⟨e1, e2, e3⟩ := Batch.GenInv.J_pt (k, j) g l
  have h1 := (h (Batch.GenInv.J1 g (Batch.GenInv.ev g l)) (Batch.GenInv.J2 g (Batch.GenInv.ev g l))
    (Batch.GenInv.J3 (Batch.GenInv.ev g l)) z s.material t.material).1
  rw [e1, e2, e3] at h1
  rw [Batch.GenInv.hessian_run] at hH
  have hrun : ∀ y, Returns ((g.mat A).hessian (pt (k, j) l) (π z)) t y ↔
      (GenInv.hessian g A (pt (k, j) l) (π z) t).1 = .ok y := fun y => Iff.rfl
  simp only [hrun, GenInv.hessian_run]
  revert h1 hH
  rcases B.gradient _ _ _ _ _ with ⟨e | r, m⟩ <;> rcases hA : A.gradient _ _ _ _ _ with ⟨e' | r', m'⟩ <;> intro hH h1 <;>
    cases h1
  · cases hH
  have h2 := (h (Batch.GenInv.J1 g (Batch.GenInv.ev g l)) (Batch.GenInv.J2 g (Batch.GenInv.ev g l))
    (Batch.GenInv.J3 (Batch.GenInv.ev g l)) z m m').2
  rw [e1, e2, e3] at h2
  simp only at hH ⊢
  revert hH h2
  rcases B.hessian _ _ _ _ _ with ⟨e | q, m1⟩ <;> rcases A.hessian _ _ _ _ _ with ⟨e' | q', m1'⟩ <;> intro hH h2 <;>
    cases h2
  · cases hH
  simp only at hH
  let X : Vec6 ℝ := Batch.GenInv.ptA g (pt (k, j) l) (InvGrad.at (k, j) π r) (InvHess.at (k, j) q)
  have hX : pt (k, j) (Batch.GenInv.hessA g l r q) = X := Batch.GenInv.hessA_pt (k, j) π g l r q
  let w : ℝ := (InvGrad.at (k, j) π r).d3.getD 0
  obtain ⟨x, rfl, hx⟩ : ∃ x, H = .array (Batch.GenInv.hessB g l r x) ∧
      pt (k, j) x = GenInv.addTail X fun _ => w * (![2, 0, 1] : Fin 3 → ℝ) j := by
    rcases hr : r.d3 with _ | d
    · simp only [hr, Batch.GenInv.addThird] at hH
      cases hH
      refine ⟨_, rfl, ?_⟩
      rw [hX]
      have : w = 0 := by simp only [w, InvGrad.at, hr, Option.map_none, Option.getD_none]
      simp only [this, zero_mul, GenInv.addTail, add_zero]
      funext a; fin_cases a <;> rfl
    · simp only [hr, Batch.GenInv.addThird] at hH
      cases hH
      refine ⟨_, rfl, ?_⟩
      rw [Batch.GenInv.addTail_pt, hX]
      have : w = d (k, j) := by simp only [w, InvGrad.at, hr, Option.map_some, Option.getD_some]
      rw [this]
      rfl
  have hy : g.hessPure (pt (k, j) l) (InvGrad.at (k, j) π r) (InvHess.at (k, j) q) =
      Batch.GenInv.ptB g (pt (k, j) l) (InvGrad.at (k, j) π r)
        (GenInv.addTail X fun a => w * (![2, 0, 1] : Fin 3 → ℝ) a) := by
    rw [Batch.GenInv.hessPure_eq]
    congr 1
    rcases hr : (InvGrad.at (k, j) π r).d3 with _ | d
    · have : w = 0 := by simp only [w, hr, Option.getD_none]
      simp only [this, zero_mul, GenInv.addTail, add_zero]
      funext a; fin_cases a <;> rfl
    · have : w = d := by simp only [w, hr, Option.getD_some]
      rw [this]
  have hx' := Batch.GenInv.hessB_pt (k, j) π g l r x
  rw [hx] at hx'
  have hq : ∀ a, Batch.GenInv.hessB g l r x a (k, j) = _ := congrFun hx'
  refine ⟨_, _, InvGrad.at (k, j) π r, rfl, congrArg (fun v => Except.ok (StrHess.array v)) hy,
    congrArg Prod.fst hA, ?_, ?_⟩
  · obtain ⟨a0, a1, a2⟩ := Batch.GenInv.ptB_head g (pt (k, j) l) (InvGrad.at (k, j) π r)
      (GenInv.addTail X fun _ => w * (![2, 0, 1] : Fin 3 → ℝ) j)
      (GenInv.addTail X fun a => w * (![2, 0, 1] : Fin 3 → ℝ) a) rfl rfl rfl
    intro m
    refine (hq _).trans ?_
    fin_cases m
    exacts [a0, a1, a2]
  · obtain ⟨a0, a1, a2⟩ := Batch.GenInv.ptB_tail g (pt (k, j) l) (InvGrad.at (k, j) π r)
      (GenInv.addTail X fun _ => w * (![2, 0, 1] : Fin 3 → ℝ) j)
    obtain ⟨b0, b1, b2⟩ := Batch.GenInv.ptB_tail g (pt (k, j) l) (InvGrad.at (k, j) π r)
      (GenInv.addTail X fun a => w * (![2, 0, 1] : Fin 3 → ℝ) a)
    have key : ∀ (c u v p : ℝ), (c + w * u) * p = (c + w * v) * p + w * (u - v) * p := by
      intro c u v p; ring
    intro m a b hab
    refine (hq _).trans ?_
    fin_cases m <;> cases hab
    · refine a0.trans (Eq.trans (key _ _ _ _) (congrArg (· + _) b0.symm))
    · refine a1.trans (Eq.trans (key _ _ _ _) (congrArg (· + _) b1.symm))
    · refine a2.trans (Eq.trans (key _ _ _ _) (congrArg (· + _) b2.symm))

/-- C39 for a generalized-invariants model, without a condition, for batches whose last axis has length `n`. -/
def C39_GeneralizedFull (n : ℕ) : Prop := ∀ (κ Zb Z μ ν : Type) (S : StrainFun) (g : GenInv) (i : κ × Fin n)
  (π : Zb → Z) (B : InvMat (Arr (κ × Fin n)) Zb μ) (A : InvMat ℝ Z ν), GenInv.init S = .ok g →
    InvMat.AgreesAt i π B A → StrMat.AgreesAt i π (Batch.GenInv.mat g B) (g.mat A)

/-- The model `ψ = I₃` on batches. -/
def thirdBatch (ι : Type) : InvMat (Arr ι) Unit Unit where
  gradient _ _ _ z := PyM.ret ⟨none, none, some 1, z⟩
  hessian _ _ _ _ := PyM.ret ⟨none, none, none, none, none, none⟩

theorem thirdBatch_agrees (i : ι) : InvMat.AgreesAt i id (thirdBatch ι) thirdMat :=
  fun _ _ _ _ _ _ => ⟨rfl, rfl⟩

/-- A case of `C39_generalized_error` and of `C39_generalized_rows`: the model `ψ = I₃`, a batch of two
points and a batch of three. -/
example (g : GenInv) (l : Vec3 (Arr (Unit × Fin 2))) :
    ((Batch.GenInv.mat g (thirdBatch (Unit × Fin 2))).hessian l () { material := () }).1 = .error .valueError :=
  C39_generalized_error g _ (by decide) l () _ (fun _ _ _ _ => ⟨_, rfl, by simp⟩) fun _ _ _ _ => ⟨_, rfl⟩

example (g : GenInv) (l : Vec3 (Arr (Unit × Fin 3))) : ∃ H,
    Returns ((Batch.GenInv.mat g (thirdBatch (Unit × Fin 3))).hessian l ()) { material := () } H := ⟨_, rfl⟩

/-- The full statement is false for batches of every size. -/
theorem C39_generalized_false (n : ℕ) (hn : 0 < n) : ¬ C39_GeneralizedFull n := by
  intro H
  obtain ⟨⟨g, hg⟩, -, -⟩ := C13_init_deformation (k := 1) one_ne_zero
  by_cases h3 : n = 3
  · subst h3
    have hS := measures_deformation 1
    obtain ⟨hgs, -⟩ := GenInv.init_ok hg hS
    have h := (H Unit Unit Unit Unit Unit _ g ((), 1) id (thirdBatch _) thirdMat hg (thirdBatch_agrees _)
      (fun _ _ => 1) () { material := () } { material := () }).2
    obtain ⟨r, hr⟩ : ∃ r, Returns ((Batch.GenInv.mat g (thirdBatch (Unit × Fin 3))).hessian (fun _ _ => 1) ())
      { material := () } r := ⟨_, rfl⟩
    obtain ⟨x, y, q, rfl, hy, hq, -, h2⟩ := C39_generalized_rows g () 1 id _ thirdMat (thirdBatch_agrees _)
      _ () _ { material := () } _ hr
    unfold Returns at hr hy hq
    rw [hr] at h
    have h' := h.trans hy
    cases hq
    have e : pt ((), (1 : Fin 3)) x = y := StrHess.array.inj (Except.ok.inj h')
    have e0 := h2 0 0 1 rfl
    have e1 : x (Fin.natAdd 3 (0 : Fin 3)) ((), 1) = y (Fin.natAdd 3 (0 : Fin 3)) := congrFun e (Fin.natAdd 3 (0 : Fin 3))
    rw [e1, hgs] at e0
    simp [deformationFun, deformationEval] at e0
  · have h := (H Unit Unit Unit Unit Unit _ g ((), ⟨0, hn⟩) id (thirdBatch _) thirdMat hg (thirdBatch_agrees _)
      (fun _ _ => 1) () { material := () } { material := () }).2
    rw [C39_generalized_error g (thirdBatch (Unit × Fin n)) h3 _ () _
      (fun _ _ _ _ => ⟨_, rfl, by simp⟩) (fun _ _ _ _ => ⟨_, rfl⟩)] at h
    cases h

end Props
