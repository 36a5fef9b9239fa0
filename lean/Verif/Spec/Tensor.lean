import Mathlib.LinearAlgebra.Matrix.Determinant.Basic
import Mathlib.LinearAlgebra.Matrix.NonsingularInverse
import Mathlib.LinearAlgebra.Matrix.Symmetric
import Mathlib.LinearAlgebra.Matrix.Trace
import Mathlib.Data.Real.Basic

/-!
# Specification vocabulary: tensors and their Voigt storage

Full tensors are Mathlib matrices.  `Stores v T` says that the six numbers `v` are the
reduced storage of the symmetric tensor `T` in the documented order
11, 22, 33, 12, 23, 13 (README of the repository; docstring of `asvoigt`).
Nothing in this file refers to the model of the code.
-/

namespace Spec

open Matrix

/-- A full second-order tensor. -/
abbrev Ten2 (K : Type*) := Matrix (Fin 3) (Fin 3) K

/-- A full fourth-order tensor. -/
abbrev Ten4 (K : Type*) := Fin 3 → Fin 3 → Fin 3 → Fin 3 → K

/-- The documented order of the six stored components: 11, 22, 33, 12, 23, 13. -/
def pos : Fin 6 → Fin 3 × Fin 3 := ![(0, 0), (1, 1), (2, 2), (0, 1), (1, 2), (0, 2)]

/-- `v` is the reduced storage of the symmetric tensor `T`. -/
structure Stores {K : Type*} (v : Fin 6 → K) (T : Ten2 K) : Prop where
  symm : T.IsSymm
  entry : ∀ a, v a = T (pos a).1 (pos a).2

/-- Both minor symmetries `T_ijkl = T_jikl = T_ijlk`. -/
def MinorSymm {K : Type*} (T : Ten4 K) : Prop :=
  (∀ i j k l, T i j k l = T j i k l) ∧ (∀ i j k l, T i j k l = T i j l k)

/-- Major symmetry `T_ijkl = T_klij`. -/
def MajorSymm {K : Type*} (T : Ten4 K) : Prop := ∀ i j k l, T i j k l = T k l i j

/-- `M` is the reduced 6x6 storage of the minor-symmetric tensor `T`. -/
structure Stores4 {K : Type*} (M : Fin 6 → Fin 6 → K) (T : Ten4 K) : Prop where
  minor : MinorSymm T
  entry : ∀ a b, M a b = T (pos a).1 (pos a).2 (pos b).1 (pos b).2

/-- Full double contraction `A_ij B_ij`. -/
def contract22 {K : Type*} [CommRing K] (A B : Ten2 K) : K := ∑ i, ∑ j, A i j * B i j

/-- `𝔸_ijkl B_kl`. -/
def contract42 {K : Type*} [CommRing K] (A : Ten4 K) (B : Ten2 K) : Ten2 K :=
  fun i j => ∑ k, ∑ l, A i j k l * B k l

/-- `A_ij 𝔹_ijkl`. -/
def contract24 {K : Type*} [CommRing K] (A : Ten2 K) (B : Ten4 K) : Ten2 K :=
  fun k l => ∑ i, ∑ j, A i j * B i j k l

/-- `𝔸_ijmn 𝔹_mnkl`. -/
def contract44 {K : Type*} [CommRing K] (A B : Ten4 K) : Ten4 K :=
  fun i j k l => ∑ m, ∑ n, A i j m n * B m n k l

/-- `A_ij B_kl`. -/
def dyad {K : Type*} [CommRing K] (A B : Ten2 K) : Ten4 K := fun i j k l => A i j * B k l

/-- Overlined dyad `A_ik B_jl`. -/
def dyadIK {K : Type*} [CommRing K] (A B : Ten2 K) : Ten4 K := fun i j k l => A i k * B j l

/-- Underlined dyad `A_il B_kj`. -/
def dyadIL {K : Type*} [CommRing K] (A B : Ten2 K) : Ten4 K := fun i j k l => A i l * B k j

/-- Fully symmetric crossed dyad. -/
def dyadSym {K : Type*} [Field K] (A B : Ten2 K) : Ten4 K := fun i j k l =>
  (A i k * B j l + A i l * B k j + B i k * A j l + B i l * A k j) / 4

/-- Rotation of a second-order tensor, `Q T Qᵀ`. -/
def rotate {K : Type*} [CommRing K] (Q T : Ten2 K) : Ten2 K := Q * T * Qᵀ

/-- Rotation of a fourth-order tensor. -/
def rotate4 {K : Type*} [CommRing K] (Q : Ten2 K) (T : Ten4 K) : Ten4 K := fun i j k l =>
  ∑ m, ∑ n, ∑ o, ∑ p, Q i m * Q j n * Q k o * Q l p * T m n o p

/-- `Q` is orthogonal. -/
def Orthogonal {K : Type*} [CommRing K] (Q : Ten2 K) : Prop := Qᵀ * Q = 1

/-- Second principal invariant `½ ((tr C)² − tr (C²))`. -/
def inv2 {K : Type*} [Field K] (C : Ten2 K) : K := (C.trace ^ 2 - (C * C).trace) / 2

/-- Symmetric and positive definite. -/
def PosDef (C : Ten2 ℝ) : Prop := C.IsSymm ∧ ∀ v : Fin 3 → ℝ, v ≠ 0 → 0 < v ⬝ᵥ (C *ᵥ v)

end Spec
