import Verif.Proofs.Tensor

/-! Rotations of tensors. -/

namespace Spec
open Matrix

variable {Q : Ten2 ℝ} (A B : Ten2 ℝ)

theorem Orthogonal.mul_transpose (h : Orthogonal Q) : Q * Qᵀ = 1 :=
  mul_eq_one_comm.1 h

theorem Orthogonal.transpose (h : Orthogonal Q) : Orthogonal Qᵀ := by
  rw [Orthogonal, Matrix.transpose_transpose]; exact h.mul_transpose

theorem Orthogonal.det_sq (h : Orthogonal Q) : Q.det * Q.det = 1 := by
  have := congrArg Matrix.det h
  simpa using this

theorem rotate_add : rotate Q (A + B) = rotate Q A + rotate Q B := by
  simp [rotate, Matrix.mul_add, Matrix.add_mul]

theorem rotate_sub : rotate Q (A - B) = rotate Q A - rotate Q B := by
  simp [rotate, Matrix.mul_sub, Matrix.sub_mul]

theorem rotate_smul (c : ℝ) : rotate Q (c • A) = c • rotate Q A := by
  simp [rotate]

theorem rotate_zero : rotate Q (0 : Ten2 ℝ) = 0 := by simp [rotate]

theorem rotate_one (h : Orthogonal Q) : rotate Q (1 : Ten2 ℝ) = 1 := by
  simp [rotate, h.mul_transpose]

theorem rotate_mul (h : Orthogonal Q) : rotate Q (A * B) = rotate Q A * rotate Q B := by
  have h' : Qᵀ * Q = 1 := h
  simp only [rotate]
  calc Q * (A * B) * Qᵀ = Q * A * 1 * B * Qᵀ := by simp [Matrix.mul_assoc]
    _ = _ := by rw [← h']; simp [Matrix.mul_assoc]

theorem rotate_transpose : (rotate Q A)ᵀ = rotate Q Aᵀ := by
  simp [rotate, Matrix.mul_assoc]

theorem rotate_symm {A : Ten2 ℝ} (hA : A.IsSymm) : (rotate Q A).IsSymm := by
  rw [Matrix.IsSymm, rotate_transpose, hA.eq]

theorem trace_rotate (h : Orthogonal Q) : (rotate Q A).trace = A.trace := by
  have h' : Qᵀ * Q = 1 := h
  rw [rotate, Matrix.trace_mul_comm, ← Matrix.mul_assoc, h', Matrix.one_mul]

theorem det_rotate (h : Orthogonal Q) : (rotate Q A).det = A.det := by
  have := h.det_sq
  simp only [rotate, Matrix.det_mul, Matrix.det_transpose]
  linear_combination A.det * this

theorem inv_rotate (h : Orthogonal Q) (hA : A.det ≠ 0) : (rotate Q A)⁻¹ = rotate Q A⁻¹ := by
  apply Matrix.inv_eq_right_inv
  rw [← rotate_mul _ _ h, Matrix.mul_nonsing_inv _ (isUnit_iff_ne_zero.2 hA), rotate_one h]

theorem inv2_rotate (h : Orthogonal Q) : inv2 (rotate Q A) = inv2 A := by
  rw [inv2, ← rotate_mul _ _ h, trace_rotate _ h, trace_rotate _ h, inv2]

theorem invariants_rotate (h : Orthogonal Q) : invariants (rotate Q A) = invariants A := by
  rw [invariants, inv2_rotate _ h, trace_rotate _ h, det_rotate _ h, invariants]

theorem SymInv.rotate {A : Ten2 ℝ} (h : Orthogonal Q) (hA : SymInv A) : SymInv (rotate Q A) :=
  ⟨rotate_symm hA.1, by rw [det_rotate _ h]; exact hA.2⟩

theorem rotate4_add (H K : Ten4 ℝ) :
    rotate4 Q (fun i j k l => H i j k l + K i j k l) =
      fun i j k l => rotate4 Q H i j k l + rotate4 Q K i j k l := by
  ext i j k l
  simp only [rotate4, mul_add, Finset.sum_add_distrib]

theorem rotate4_sub (H K : Ten4 ℝ) :
    rotate4 Q (fun i j k l => H i j k l - K i j k l) =
      fun i j k l => rotate4 Q H i j k l - rotate4 Q K i j k l := by
  ext i j k l
  simp only [rotate4, mul_sub, Finset.sum_sub_distrib]

theorem rotate4_smul (c : ℝ) (H : Ten4 ℝ) :
    rotate4 Q (fun i j k l => c * H i j k l) = fun i j k l => c * rotate4 Q H i j k l := by
  ext i j k l
  simp only [rotate4, Finset.mul_sum]
  refine Finset.sum_congr rfl fun m _ => Finset.sum_congr rfl fun n _ => Finset.sum_congr rfl fun o _ =>
    Finset.sum_congr rfl fun p _ => ?_
  ring

theorem rotate_apply (i j : Fin 3) : rotate Q A i j = ∑ m, ∑ n, Q i m * Q j n * A m n := by
  simp only [rotate, Matrix.mul_apply, Matrix.transpose_apply, Finset.sum_mul]
  rw [Finset.sum_comm]
  exact Finset.sum_congr rfl fun m _ => Finset.sum_congr rfl fun n _ => by ring

theorem rotate4_dyad : rotate4 Q (dyad A B) = dyad (rotate Q A) (rotate Q B) := by
  ext i j k l
  simp only [rotate4, dyad, rotate_apply, Fin.sum_univ_three]
  ring

theorem rotate4_dyadIK : rotate4 Q (dyadIK A B) = dyadIK (rotate Q A) (rotate Q B) := by
  ext i j k l
  simp only [rotate4, dyadIK, rotate_apply, Fin.sum_univ_three]
  ring

theorem rotate4_dyadIL : rotate4 Q (dyadIL A B) = dyadIL (rotate Q A) (rotate Q B) := by
  ext i j k l
  simp only [rotate4, dyadIL, rotate_apply, Fin.sum_univ_three]
  ring

theorem dyadSym_eq : dyadSym A B = fun i j k l => (1 / 4 : ℝ) *
    (dyadIK A B i j k l + dyadIL A B i j k l + dyadIK B A i j k l + dyadIL B A i j k l) := by
  ext i j k l
  simp only [dyadSym, dyadIK, dyadIL]
  ring

theorem rotate4_dyadSym : rotate4 Q (dyadSym A B) = dyadSym (rotate Q A) (rotate Q B) := by
  rw [dyadSym_eq, dyadSym_eq, rotate4_smul]
  simp only [rotate4_add, rotate4_dyadIK, rotate4_dyadIL]

end Spec
