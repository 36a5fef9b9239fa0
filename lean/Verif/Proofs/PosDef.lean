import Verif.Proofs.SpaceCalc
import Mathlib.LinearAlgebra.Matrix.ToLinearEquiv
import Mathlib.LinearAlgebra.Matrix.DotProduct

/-! Positive definite tensors. -/

namespace Spec
open Matrix Hel

theorem PosDef.det_ne_zero {C : Ten2 ℝ} (h : PosDef C) : C.det ≠ 0 := by
  intro h0
  obtain ⟨v, hv, hv0⟩ := Matrix.exists_mulVec_eq_zero_iff.2 h0
  have := h.2 v hv
  rw [hv0, dotProduct_zero] at this
  exact lt_irrefl _ this

theorem PosDef.smul {C : Ten2 ℝ} (h : PosDef C) {a : ℝ} (ha : 0 < a) : PosDef (a • C) := by
  refine ⟨h.1.smul a, fun v hv => ?_⟩
  rw [Matrix.smul_mulVec, dotProduct_smul, smul_eq_mul]
  exact mul_pos ha (h.2 v hv)

theorem posDef_cauchyGreen {F : Ten2 ℝ} (hF : F.det ≠ 0) : PosDef (cauchyGreen F) := by
  refine ⟨cauchyGreen_symm F, fun v hv => ?_⟩
  rw [cauchyGreen, ← Matrix.mulVec_mulVec, Matrix.dotProduct_mulVec, Matrix.vecMul_transpose]
  have h0 : F *ᵥ v ≠ 0 := fun h => hF (Matrix.exists_mulVec_eq_zero_iff.1 ⟨v, hv, h⟩)
  exact lt_of_le_of_ne (Finset.sum_nonneg fun i _ => mul_self_nonneg _)
    fun h => h0 (dotProduct_self_eq_zero.1 h.symm)

theorem posDef_one : PosDef (1 : Ten2 ℝ) := by
  have := posDef_cauchyGreen (F := 1) (by rw [Matrix.det_one]; exact one_ne_zero)
  rwa [cauchyGreen, Matrix.transpose_one, Matrix.one_mul] at this

end Spec
