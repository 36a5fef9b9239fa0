import Verif.Spec.Api
import Verif.Spec.Energies
import Verif.Proofs.PyM
import Mathlib.Tactic.Ring
import Mathlib.Tactic.Linarith
import Mathlib.Tactic.FieldSimp
import Mathlib.Tactic.FinCases

/-! Values of the bundled models. -/

namespace Hel
open Spec

variable {Z : Type}

/-- closed form of the gradient of `ThirdOrderDeformation` -/
noncomputable def TOD.gradVal (m : TOD ℝ) (I1 I2 : ℝ) (z : Z) : InvGrad ℝ Z where
  d1 := if m.C10 ≠ 0 ∨ m.C11 ≠ 0 ∨ m.C20 ≠ 0 ∨ m.C30 ≠ 0 then
    some (m.C10 + m.C11 * (I2 - m.undeformed) + m.C20 * 2 * (I1 - m.undeformed) +
      m.C30 * 3 * (I1 - m.undeformed) ^ 2) else none
  d2 := if m.C01 ≠ 0 ∨ m.C11 ≠ 0 then some (m.C01 + m.C11 * (I1 - m.undeformed)) else none
  d3 := none
  sv := z

theorem TOD.gradient_eq (m : TOD ℝ) (I1 I2 I3 : ℝ) (z : Z) :
    m.gradient I1 I2 I3 z = .ok (m.gradVal I1 I2 z) := by
  unfold TOD.gradient TOD.gradVal
  by_cases h1 : m.C10 = 0 <;> by_cases h2 : m.C01 = 0 <;> by_cases h3 : m.C11 = 0 <;>
    by_cases h4 : m.C20 = 0 <;> by_cases h5 : m.C30 = 0 <;>
    simp [h1, h2, h3, h4, h5, addTo, bind, Except.bind]

theorem TOD.vec_gradVal (m : TOD ℝ) (I1 I2 : ℝ) (z : Z) :
    InvGrad.vec (m.gradVal I1 I2 z) = ![m.C10 + m.C11 * (I2 - m.undeformed) +
      m.C20 * 2 * (I1 - m.undeformed) + m.C30 * 3 * (I1 - m.undeformed) ^ 2,
      m.C01 + m.C11 * (I1 - m.undeformed), 0] := by
  unfold InvGrad.vec TOD.gradVal
  congr 1
  · dsimp only
    split_ifs with h
    · rfl
    · push Not at h
      simp [h]
  · congr 1
    dsimp only
    split_ifs with h
    · rfl
    · push Not at h
      simp [h]

/-- closed form of the hessian of `ThirdOrderDeformation` -/
noncomputable def TOD.hessVal (m : TOD ℝ) (I1 : ℝ) : InvHess ℝ where
  h11 := if m.C20 ≠ 0 ∨ m.C30 ≠ 0 then some (m.C20 * 2 + m.C30 * 6 * (I1 - m.undeformed)) else none
  h22 := none
  h33 := none
  h12 := if m.C11 ≠ 0 then some m.C11 else none
  h23 := none
  h13 := none

theorem TOD.hessian_eq (m : TOD ℝ) (I1 I2 I3 : ℝ) (z : Z) :
    m.hessian I1 I2 I3 z = .ok (m.hessVal I1) := rfl

theorem TOD.mat_hessVal (m : TOD ℝ) (I1 : ℝ) :
    InvHess.mat (m.hessVal I1) = ![![m.C20 * 2 + m.C30 * 6 * (I1 - m.undeformed), m.C11, 0],
      ![m.C11, 0, 0], ![0, 0, 0]] := by
  have e1 : (m.hessVal I1).h11.getD 0 = m.C20 * 2 + m.C30 * 6 * (I1 - m.undeformed) := by
    unfold TOD.hessVal
    dsimp only
    split_ifs with h
    · rfl
    · push Not at h
      simp [h]
  have e2 : (m.hessVal I1).h12.getD 0 = m.C11 := by
    unfold TOD.hessVal
    dsimp only
    split_ifs with h
    · rfl
    · push Not at h
      simp [h]
  unfold InvHess.mat
  rw [e1, e2]
  rfl

theorem TOD.d1_none (m : TOD ℝ) (I1 I2 : ℝ) (z : Z) (h : (m.gradVal I1 I2 z).d1 = none) :
    m.C10 = 0 ∧ m.C11 = 0 ∧ m.C20 = 0 ∧ m.C30 = 0 := by
  simpa [TOD.gradVal] using h

theorem TOD.d2_none (m : TOD ℝ) (I1 I2 : ℝ) (z : Z) (h : (m.gradVal I1 I2 z).d2 = none) :
    m.C01 = 0 ∧ m.C11 = 0 := by
  simpa [TOD.gradVal] using h

theorem TOD.h11_none (m : TOD ℝ) (I1 : ℝ) (h : (m.hessVal I1).h11 = none) :
    m.C20 = 0 ∧ m.C30 = 0 := by
  simpa [TOD.hessVal] using h

theorem TOD.h12_none (m : TOD ℝ) (I1 : ℝ) (h : (m.hessVal I1).h12 = none) : m.C11 = 0 := by
  simpa [TOD.hessVal] using h

theorem TOD.grad_iff (m : TOD ℝ) (z : Z) (x g : Fin 3 → ℝ) :
    InvMat.Grad (m.mat) z x g ↔ g = ![m.C10 + m.C11 * (x 1 - m.undeformed) +
      m.C20 * 2 * (x 0 - m.undeformed) + m.C30 * 3 * (x 0 - m.undeformed) ^ 2,
      m.C01 + m.C11 * (x 0 - m.undeformed), 0] := by
  unfold InvMat.Grad Returns TOD.mat
  simp only [PyM.lift_run, TOD.gradient_eq]
  constructor
  · rintro ⟨s, r, h, rfl⟩
    cases h
    exact TOD.vec_gradVal ..
  · intro h
    exact ⟨(), _, rfl, by rw [h, TOD.vec_gradVal]⟩

theorem TOD.hess_iff (m : TOD ℝ) (z : Z) (x : Fin 3 → ℝ) (h : Fin 3 → Fin 3 → ℝ) :
    InvMat.Hess (m.mat) z x h ↔ h = ![![m.C20 * 2 + m.C30 * 6 * (x 0 - m.undeformed), m.C11, 0],
      ![m.C11, 0, 0], ![0, 0, 0]] := by
  unfold InvMat.Hess Returns TOD.mat
  simp only [PyM.lift_run, TOD.hessian_eq]
  constructor
  · rintro ⟨s, r, h, rfl⟩
    cases h
    exact TOD.mat_hessVal ..
  · intro h
    exact ⟨(), _, rfl, by rw [h, TOD.mat_hessVal]⟩

/-! ### Ogden -/

/-- sum over the terms -/
noncomputable def sumOver (L : List (ℝ × ℝ)) (f : ℝ × ℝ → ℝ → ℝ) (x : ℝ) : ℝ :=
  (L.map fun p => f p x).sum

theorem ogden_fold (L : List (ℝ × ℝ)) (f : ℝ × ℝ → ℝ → ℝ) (l : Fin 3 → ℝ) (acc : Fin 3 → ℝ) :
    (L.foldlM (init := acc) fun (acc : Fin 3 → ℝ) p =>
      if p.2 = 0 then (.error .zeroDivision : Res (Fin 3 → ℝ)) else .ok fun a => acc a + f p (l a)) =
    if ∀ p ∈ L, p.2 ≠ 0 then .ok fun a => acc a + sumOver L f (l a)
    else .error .zeroDivision := by
  induction L generalizing acc with
  | nil => simp [sumOver]; rfl
  | cons p L ih =>
    rw [List.foldlM_cons]
    by_cases hp : p.2 = 0
    · simp [hp, bind, Except.bind]
    · simp only [hp, if_false, bind, Except.bind]
      rw [ih]
      by_cases h : ∀ q ∈ L, q.2 ≠ 0
      · rw [if_pos h, if_pos (by simpa [hp] using h)]
        congr 1
        funext a
        simp [sumOver, add_assoc]
      · rw [if_neg h, if_neg (by simpa [hp] using h)]

theorem Ogden.gradient_eq (m : Ogden) (l : Vec3 ℝ) (z : Z) : m.gradient l z =
    if ∀ p ∈ m.mu.zip m.alpha, p.2 ≠ 0 then
      .ok (fun a => sumOver (m.mu.zip m.alpha) (fun p x => 2 * p.1 / p.2 * x ^ (p.2 - 1)) (l a), z)
    else .error .zeroDivision := by
  unfold Ogden.gradient
  rw [ogden_fold (m.mu.zip m.alpha) (fun p x => 2 * p.1 / p.2 * x ^ (p.2 - 1)) l]
  split_ifs <;> simp [bind, Except.bind]

theorem Ogden.hessian_eq (m : Ogden) (l : Vec3 ℝ) (z : Z) : m.hessian l z =
    if ∀ p ∈ m.mu.zip m.alpha, p.2 ≠ 0 then
      .ok (.list ![
        some (sumOver (m.mu.zip m.alpha) (fun p x => 2 * p.1 / p.2 * (p.2 - 1) * x ^ (p.2 - 2)) (l 0)),
        some (sumOver (m.mu.zip m.alpha) (fun p x => 2 * p.1 / p.2 * (p.2 - 1) * x ^ (p.2 - 2)) (l 1)),
        some (sumOver (m.mu.zip m.alpha) (fun p x => 2 * p.1 / p.2 * (p.2 - 1) * x ^ (p.2 - 2)) (l 2)),
        none, none, none])
    else .error .zeroDivision := by
  unfold Ogden.hessian
  rw [ogden_fold (m.mu.zip m.alpha) (fun p x => 2 * p.1 / p.2 * (p.2 - 1) * x ^ (p.2 - 2)) l]
  split_ifs <;> simp [bind, Except.bind]

theorem hasDerivAt_sumOver (L : List (ℝ × ℝ)) (f f' : ℝ × ℝ → ℝ → ℝ) (x : ℝ → ℝ) (x' t₀ : ℝ)
    (hx : HasDerivAt x x' t₀) (h : ∀ p ∈ L, HasDerivAt (f p) (f' p (x t₀)) (x t₀)) :
    HasDerivAt (fun t => sumOver L f (x t)) (sumOver L f' (x t₀) * x') t₀ := by
  induction L with
  | nil => simpa [sumOver] using hasDerivAt_const t₀ (0 : ℝ)
  | cons p L ih =>
    have h1 := (h p (by simp)).comp t₀ hx
    have h2 := ih fun q hq => h q (by simp [hq])
    have h3 := h1.add h2
    refine (h3.congr_deriv ?_)
    simp [sumOver, add_mul]

theorem ogdenEnergy_eq (mu alpha : List ℝ) (l : Fin 3 → ℝ) : ogdenEnergy mu alpha l =
    ∑ a, sumOver (mu.zip alpha) (fun p x => 2 * p.1 / p.2 ^ 2 * (x ^ p.2 - 1)) (l a) := by
  unfold ogdenEnergy sumOver
  simp only [Fin.sum_univ_three]
  rw [← List.sum_map_add, ← List.sum_map_add]
  congr 1
  apply List.map_congr_left
  intro p _
  ring

end Hel
