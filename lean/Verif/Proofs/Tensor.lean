import Verif.Props.Math
import Verif.Proofs.Moves
import Mathlib.Data.Real.Basic

/-! Voigt operations as tensor operations, and contraction identities. -/

namespace Hel
open Spec Matrix

/-- the stored tensor -/
abbrev T2 (c : Vec6 ℝ) : Ten2 ℝ := Matrix.of (astensor c)

theorem T2_stores (c : Vec6 ℝ) : Stores c (T2 c) := stores_astensor c
theorem T2_symm (c : Vec6 ℝ) : (T2 c).IsSymm := (T2_stores c).symm
theorem T2_eq {c : Vec6 ℝ} {C : Ten2 ℝ} (h : Stores c C) : T2 c = C := ((stores_iff _ _).1 h).symm
theorem T4_eq {c : Mat6 ℝ} {C : Ten4 ℝ} (h : Stores4 c C) : astensor4 c = C :=
  ((stores4_iff _ _).1 h).symm

theorem T2_injective {c d : Vec6 ℝ} (h : T2 c = T2 d) : c = d := by
  have := congrArg (fun T : Ten2 ℝ => asvoigt (Matrix.of.symm T)) h
  simpa [asvoigt_astensor] using this

theorem T2_eye : T2 (eye : Vec6 ℝ) = 1 := T2_eq Props.C03_eye
theorem T2_add (c d : Vec6 ℝ) : T2 (fun a => c a + d a) = T2 c + T2 d := by ext; rfl
theorem T2_sub (c d : Vec6 ℝ) : T2 (fun a => c a - d a) = T2 c - T2 d := by ext; rfl
theorem T2_smul (k : ℝ) (c : Vec6 ℝ) : T2 (fun a => k * c a) = k • T2 c := by ext; rfl
theorem T2_zero : T2 (fun _ => 0) = 0 := by ext; rfl
theorem T2_trace (c : Vec6 ℝ) : trace c = (T2 c).trace := Props.C03_trace (T2_stores c)
theorem T2_det (c : Vec6 ℝ) : det c = (T2 c).det := Props.C03_det (T2_stores c)
theorem T2_ddot (c d : Vec6 ℝ) : ddot c d = contract22 (T2 c) (T2 d) :=
  Props.C05_ddot22 (T2_stores c) (T2_stores d)
theorem T2_inv (c : Vec6 ℝ) (h : (T2 c).det ≠ 0) : T2 (inv c (some (det c))) = (T2 c)⁻¹ := by
  rw [T2_det, Props.C04_inv_determinant (T2_stores c)]
  exact T2_eq (Props.C04_inv (T2_stores c) h)
theorem T2_inv2 (c : Vec6 ℝ) : (trace c ^ 2 - ddot c c) / 2 = inv2 (T2 c) := by
  rw [inv2, T2_trace, T2_ddot, contract22_eq_trace, (T2_symm c).eq]

theorem T4_dya (c d : Vec6 ℝ) : astensor4 (dya c d) = dyad (T2 c) (T2 d) := rfl
theorem T4_cdyaSelf (c : Vec6 ℝ) : astensor4 (cdyaSelf c) = dyadSym (T2 c) (T2 c) := by
  exact T4_eq (Props.C07_cdya true none (fun _ => rfl) (T2_stores c) (T2_stores c))
theorem T4_cdya (c d : Vec6 ℝ) : astensor4 (cdya c d) = dyadSym (T2 c) (T2 d) :=
  T4_eq (Props.C07_cdya false none (fun h => by simp at h) (T2_stores c) (T2_stores d))
theorem T4_ddot44 (A B : Mat6 ℝ) : astensor4 (ddot44 A B) = contract44 (astensor4 A) (astensor4 B) :=
  T4_eq (Props.C05_ddot44 (stores4_astensor4 A) (stores4_astensor4 B))
theorem T4_transpose (A : Mat6 ℝ) :
    astensor4 (Hel.transpose A) = fun i j k l => astensor4 A k l i j := rfl

end Hel

namespace Spec
open Matrix

variable {A B X : Ten2 ℝ}

theorem contract22_symm_right {G : Ten2 ℝ} (hG : G.IsSymm) (X : Ten2 ℝ) :
    contract22 G Xᵀ = contract22 G X := by
  simp only [contract22, Matrix.transpose_apply]
  rw [Finset.sum_comm]
  refine Finset.sum_congr rfl fun i _ => Finset.sum_congr rfl fun j _ => ?_
  rw [hG.apply]

theorem contract42_symm_right {H : Ten4 ℝ} (hH : MinorSymm H) (X : Ten2 ℝ) :
    contract42 H Xᵀ = contract42 H X := by
  ext i j
  simp only [contract42, Matrix.transpose_apply]
  rw [Finset.sum_comm]
  refine Finset.sum_congr rfl fun k _ => Finset.sum_congr rfl fun l _ => ?_
  rw [hH.2]

theorem contract42_dyad (A B X : Ten2 ℝ) : contract42 (dyad A B) X = contract22 B X • A := by
  ext i j
  simp only [contract42, dyad, contract22, Matrix.smul_apply, smul_eq_mul, Finset.sum_mul]
  exact Finset.sum_congr rfl fun k _ => Finset.sum_congr rfl fun l _ => by ring

theorem contract42_add (H K : Ten4 ℝ) (X : Ten2 ℝ) :
    contract42 (fun i j k l => H i j k l + K i j k l) X = contract42 H X + contract42 K X := by
  ext i j
  simp only [contract42, Matrix.add_apply, ← Finset.sum_add_distrib, add_mul]

theorem contract42_sub (H K : Ten4 ℝ) (X : Ten2 ℝ) :
    contract42 (fun i j k l => H i j k l - K i j k l) X = contract42 H X - contract42 K X := by
  ext i j
  simp only [contract42, Matrix.sub_apply, ← Finset.sum_sub_distrib, sub_mul]

theorem contract42_smul (c : ℝ) (H : Ten4 ℝ) (X : Ten2 ℝ) :
    contract42 (fun i j k l => c * H i j k l) X = c • contract42 H X := by
  ext i j
  simp only [contract42, Matrix.smul_apply, smul_eq_mul, Finset.mul_sum, mul_assoc]

theorem contract42_zero (X : Ten2 ℝ) : contract42 (fun _ _ _ _ => 0) X = 0 := by
  ext i j; simp [contract42]

theorem contract42_add_right (H : Ten4 ℝ) (X Y : Ten2 ℝ) :
    contract42 H (X + Y) = contract42 H X + contract42 H Y := by
  ext i j
  simp only [contract42, Matrix.add_apply, ← Finset.sum_add_distrib, mul_add]

theorem contract42_sub_right (H : Ten4 ℝ) (X Y : Ten2 ℝ) :
    contract42 H (X - Y) = contract42 H X - contract42 H Y := by
  ext i j
  simp only [contract42, Matrix.sub_apply, ← Finset.sum_sub_distrib, mul_sub]

theorem contract42_smul_right (H : Ten4 ℝ) (c : ℝ) (X : Ten2 ℝ) :
    contract42 H (c • X) = c • contract42 H X := by
  ext i j
  simp only [contract42, Matrix.smul_apply, smul_eq_mul, Finset.mul_sum]
  exact Finset.sum_congr rfl fun k _ => Finset.sum_congr rfl fun l _ => by ring

theorem contract42_contract44 (H K : Ten4 ℝ) (X : Ten2 ℝ) :
    contract42 (contract44 H K) X = contract42 H (contract42 K X) := by
  ext i j
  simp only [contract42, contract44, Fin.sum_univ_three]
  ring

theorem contract42_dyadSym (hA : A.IsSymm) (hB : B.IsSymm) (hX : X.IsSymm) :
    contract42 (dyadSym A B) X = (1 / 2 : ℝ) • (A * X * B + B * X * A) := by
  have hA' : ∀ i j, A i j = A j i := fun i j => (hA.apply i j).symm
  have hB' : ∀ i j, B i j = B j i := fun i j => (hB.apply i j).symm
  have hX' : ∀ i j, X i j = X j i := fun i j => (hX.apply i j).symm
  ext i j
  simp only [contract42, dyadSym, Matrix.smul_apply, Matrix.add_apply, Matrix.mul_apply, Fin.sum_univ_three, smul_eq_mul]
  rw [hA' 0 j, hA' 1 j, hA' 2 j, hB' 0 j, hB' 1 j, hB' 2 j, hX' 1 0, hX' 2 0, hX' 2 1]
  ring

theorem contract42_dyadSym_self (hA : A.IsSymm) (hX : X.IsSymm) :
    contract42 (dyadSym A A) X = A * X * A := by
  rw [contract42_dyadSym hA hA hX, ← two_smul ℝ, smul_smul]; norm_num

theorem contract22_add_left (A B X : Ten2 ℝ) :
    contract22 (A + B) X = contract22 A X + contract22 B X := by
  simp only [contract22, Matrix.add_apply, ← Finset.sum_add_distrib, add_mul]
theorem contract22_sub_left (A B X : Ten2 ℝ) :
    contract22 (A - B) X = contract22 A X - contract22 B X := by
  simp only [contract22, Matrix.sub_apply, ← Finset.sum_sub_distrib, sub_mul]
theorem contract22_smul_left (c : ℝ) (A X : Ten2 ℝ) :
    contract22 (c • A) X = c * contract22 A X := by
  simp only [contract22, Matrix.smul_apply, smul_eq_mul, Finset.mul_sum, mul_assoc]
theorem contract22_add_right (A B X : Ten2 ℝ) :
    contract22 X (A + B) = contract22 X A + contract22 X B := by
  rw [contract22_comm, contract22_add_left, contract22_comm A, contract22_comm B]
theorem contract22_sub_right (A B X : Ten2 ℝ) :
    contract22 X (A - B) = contract22 X A - contract22 X B := by
  rw [contract22_comm, contract22_sub_left, contract22_comm A, contract22_comm B]
theorem contract22_smul_right (c : ℝ) (A X : Ten2 ℝ) :
    contract22 X (c • A) = c * contract22 X A := by
  rw [contract22_comm, contract22_smul_left, contract22_comm A]
theorem contract22_one_left (X : Ten2 ℝ) : contract22 1 X = X.trace := by
  rw [contract22_eq_trace]; simp
theorem contract22_zero_left (X : Ten2 ℝ) : contract22 0 X = 0 := by simp [contract22]

/-- symmetric tensors with equal contraction against all symmetric tensors are equal -/
theorem eq_of_contract22 {G G' : Ten2 ℝ} (hG : G.IsSymm) (hG' : G'.IsSymm)
    (h : ∀ X : Ten2 ℝ, X.IsSymm → contract22 G X = contract22 G' X) : G = G' := by
  have hD : (G - G').IsSymm := hG.sub hG'
  have h0 := h (G - G') hD
  rw [← sub_eq_zero, ← contract22_sub_left] at h0
  simp only [contract22] at h0
  have h1 := (Finset.sum_eq_zero_iff_of_nonneg (fun i _ =>
    Finset.sum_nonneg fun j _ => mul_self_nonneg ((G - G') i j))).1 h0
  ext i j
  have h2 := (Finset.sum_eq_zero_iff_of_nonneg (fun j _ => mul_self_nonneg ((G - G') i j))).1
    (h1 i (Finset.mem_univ _)) j (Finset.mem_univ _)
  have h3 : (G - G') i j = 0 := by simpa using h2
  simpa [sub_eq_zero] using h3

end Spec
