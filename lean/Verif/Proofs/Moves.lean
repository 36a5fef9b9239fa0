import Verif.Spec.Calculus
import Mathlib.Analysis.Calculus.Deriv.Inv
import Mathlib.Analysis.Calculus.Deriv.Pow
import Mathlib.LinearAlgebra.Matrix.Adjugate
import Mathlib.Tactic.Ring
import Mathlib.Tactic.FinCases
import Mathlib.Tactic.LinearCombination
import Mathlib.Analysis.Calculus.Deriv.Prod

/-! Calculus of moving tensors. -/

namespace Spec
open Matrix Filter Topology

variable {X Y : ℝ → Ten2 ℝ} {X' Y' : Ten2 ℝ} {t₀ : ℝ}

theorem Moves.const (A : Ten2 ℝ) : Moves (fun _ => A) 0 t₀ := fun i j => by
  simpa using hasDerivAt_const t₀ (A i j)

theorem Moves.add (hX : Moves X X' t₀) (hY : Moves Y Y' t₀) :
    Moves (fun t => X t + Y t) (X' + Y') t₀ := fun i j => by
  exact (hX i j).add (hY i j)

theorem Moves.sub (hX : Moves X X' t₀) (hY : Moves Y Y' t₀) :
    Moves (fun t => X t - Y t) (X' - Y') t₀ := fun i j => by
  exact (hX i j).sub (hY i j)

theorem Moves.transpose (hX : Moves X X' t₀) : Moves (fun t => (X t)ᵀ) X'ᵀ t₀ := fun i j => by
  simpa using hX j i

theorem Moves.smul {a : ℝ → ℝ} {a' : ℝ} (ha : HasDerivAt a a' t₀) (hX : Moves X X' t₀) :
    Moves (fun t => a t • X t) (a' • X t₀ + a t₀ • X') t₀ := fun i j => by
  exact ha.mul (hX i j)

theorem Moves.mul (hX : Moves X X' t₀) (hY : Moves Y Y' t₀) :
    Moves (fun t => X t * Y t) (X' * Y t₀ + X t₀ * Y') t₀ := fun i j => by
  simp only [Matrix.mul_apply, Matrix.add_apply, ← Finset.sum_add_distrib]
  exact HasDerivAt.fun_sum fun k _ => (hX i k).mul (hY k j)

theorem Moves.contract22 (hX : Moves X X' t₀) (hY : Moves Y Y' t₀) :
    HasDerivAt (fun t => Spec.contract22 (X t) (Y t))
      (Spec.contract22 X' (Y t₀) + Spec.contract22 (X t₀) Y') t₀ := by
  simp only [Spec.contract22, ← Finset.sum_add_distrib]
  exact HasDerivAt.fun_sum fun i _ => HasDerivAt.fun_sum fun j _ => (hX i j).mul (hY i j)

theorem Moves.trace (hX : Moves X X' t₀) : HasDerivAt (fun t => (X t).trace) X'.trace t₀ := by
  simp only [Matrix.trace, Matrix.diag]
  exact HasDerivAt.fun_sum fun i _ => hX i i

theorem Moves.congr (hX : Moves X X' t₀) (h : ∀ᶠ t in 𝓝 t₀, Y t = X t) : Moves Y X' t₀ :=
  fun i j => (hX i j).congr_of_eventuallyEq (h.mono fun t ht => by simp only [ht])

theorem Moves.unique (hX : Moves X X' t₀) (hY : Moves X Y' t₀) : X' = Y' := by
  ext i j; exact (hX i j).unique (hY i j)

theorem Moves.det (hX : Moves X X' t₀) :
    HasDerivAt (fun t => (X t).det) ((X t₀).adjugate * X').trace t₀ := by
  simp only [Matrix.det_fin_three]
  have h := ((((((hX 0 0).mul (hX 1 1)).mul (hX 2 2)).sub (((hX 0 0).mul (hX 1 2)).mul (hX 2 1))).sub
    (((hX 0 1).mul (hX 1 0)).mul (hX 2 2))).add (((hX 0 1).mul (hX 1 2)).mul (hX 2 0))).add
    (((hX 0 2).mul (hX 1 0)).mul (hX 2 1)) |>.sub (((hX 0 2).mul (hX 1 1)).mul (hX 2 0))
  refine h.congr_deriv ?_
  simp only [Matrix.trace, Matrix.diag, Fin.sum_univ_three, Matrix.mul_apply, Pi.mul_apply]
  simp only [Matrix.adjugate_fin_three, Matrix.of_apply, Matrix.cons_val]
  ring

theorem Moves.adjugate (hX : Moves X X' t₀) : ∃ Y', Moves (fun t => (X t).adjugate) Y' t₀ := by
  have key : ∀ i j, ∃ y, HasDerivAt (fun t => (X t).adjugate i j) y t₀ := by
    intro i j
    have h2 : ∀ a b c d e f g h : Fin 3,
        ∃ y, HasDerivAt (fun t => X t a b * X t c d - X t e f * X t g h) y t₀ := fun a b c d e f g h =>
      ⟨_, ((hX a b).mul (hX c d)).sub ((hX e f).mul (hX g h))⟩
    have h3 : ∀ a b c d e f g h : Fin 3,
        ∃ y, HasDerivAt (fun t => -(X t a b * X t c d) + X t e f * X t g h) y t₀ :=
      fun a b c d e f g h => ⟨_, ((hX a b).mul (hX c d)).neg.add ((hX e f).mul (hX g h))⟩
    fin_cases i <;> fin_cases j <;> simp [Matrix.adjugate_fin_three] <;>
      first
        | exact h2 _ _ _ _ _ _ _ _
        | exact h3 _ _ _ _ _ _ _ _
  choose Y' hY' using key
  exact ⟨Matrix.of Y', hY'⟩

theorem Moves.inv (hX : Moves X X' t₀) (hd : (X t₀).det ≠ 0) :
    Moves (fun t => (X t)⁻¹) (-((X t₀)⁻¹ * X' * (X t₀)⁻¹)) t₀ := by
  obtain ⟨A', hA'⟩ := hX.adjugate
  have hdet := hX.det
  have hinv := hdet.inv hd
  have hne : ∀ᶠ t in 𝓝 t₀, (X t).det ≠ 0 := hdet.continuousAt.eventually_ne hd
  have hY : ∃ Y', Moves (fun t => (X t)⁻¹) Y' t₀ := by
    refine ⟨_, (Moves.smul hinv hA').congr (Eventually.of_forall fun t => ?_)⟩
    rw [Matrix.inv_def, Ring.inverse_eq_inv']; rfl
  obtain ⟨Y', hY'⟩ := hY
  have hp := hX.mul hY'
  have h1 : Moves (fun t => X t * (X t)⁻¹) 0 t₀ :=
    (Moves.const 1).congr (hne.mono fun t ht => Matrix.mul_nonsing_inv _ (isUnit_iff_ne_zero.2 ht))
  have h0 := hp.unique h1
  have hu : IsUnit (X t₀).det := isUnit_iff_ne_zero.2 hd
  have : Y' = -((X t₀)⁻¹ * X' * (X t₀)⁻¹) := by
    have h2 : (X t₀) * Y' = -(X' * (X t₀)⁻¹) := by
      rw [eq_neg_iff_add_eq_zero, add_comm]; exact h0
    calc Y' = (X t₀)⁻¹ * (X t₀) * Y' := by rw [Matrix.nonsing_inv_mul _ hu, Matrix.one_mul]
      _ = _ := by rw [Matrix.mul_assoc, h2]; simp [Matrix.mul_assoc]
  exact this ▸ hY'

theorem Moves.add_const_smul (A B : Ten2 ℝ) : Moves (fun t => A + (t - t₀) • B) B t₀ := fun i j => by
  have := (((hasDerivAt_id t₀).sub_const t₀).mul_const (B i j)).const_add (A i j)
  simpa using this

/-- for symmetric invertible tensors -/
theorem adjugate_eq {C : Ten2 ℝ} (hd : C.det ≠ 0) : C.adjugate = C.det • C⁻¹ := by
  rw [Matrix.inv_def, Ring.inverse_eq_inv', smul_smul, mul_inv_cancel₀ hd, one_smul]

theorem contract22_eq_trace (A B : Ten2 ℝ) : contract22 A B = (Aᵀ * B).trace := by
  simp only [contract22, Matrix.trace, Matrix.diag, Matrix.mul_apply, Matrix.transpose_apply]
  rw [Finset.sum_comm]

theorem contract22_comm (A B : Ten2 ℝ) : contract22 A B = contract22 B A := by
  simp [contract22, mul_comm]

end Spec
