import Verif.Proofs.Voigt
import Mathlib.Algebra.Field.Rat
import Mathlib.Data.Rat.Cast.CharZero
import Mathlib.Tactic.NormNum

/-! # Properties C01-C09: the Voigt helpers of `hyperelastic.math` -/

namespace Props
open Spec Hel Matrix

variable {K : Type*}

/-! ## C01 -/

/-- `asvoigt` stores every symmetric tensor in the documented order. -/
theorem C01_asvoigt_stores {T : Ten2 K} (h : T.IsSymm) : Stores (asvoigt T) T := stores_asvoigt h

/-- The round trip through Voigt storage is the identity exactly on symmetric tensors. -/
theorem C01_astensor_asvoigt_iff (T : Ten2 K) : Matrix.of (astensor (asvoigt T)) = T ↔ T.IsSymm := by
  constructor
  · intro h; rw [← h]; exact (stores_astensor _).symm
  · intro h; exact ((stores_iff _ _).1 (stores_asvoigt h)).symm

/-- Every 6-vector is recovered from its tensor. -/
theorem C01_asvoigt_astensor (v : Fin 6 → K) : asvoigt (astensor v) = v := asvoigt_astensor v

/-- `astensor` returns the (symmetric) tensor stored by its argument, and nothing else is
stored by it. -/
theorem C01_astensor_stored (v : Fin 6 → K) (T : Ten2 K) :
    Stores v T ↔ T = Matrix.of (astensor v) := stores_iff v T

example : (!![1, 13, 15; 13, 11, 14; 15, 14, 12] : Ten2 ℚ).IsSymm ∧
    asvoigt !![1, 13, 15; 13, 11, 14; 15, 14, 12] = (![1, 11, 12, 13, 14, 15] : Fin 6 → ℚ) := by
  constructor
  · ext i j; fin_cases i <;> fin_cases j <;> rfl
  · ext a; fin_cases a <;> rfl

/-! ## C02 -/

/-- `asvoigt(mode=4)` stores every minor-symmetric fourth-order tensor. -/
theorem C02_asvoigt4_stores [Zero K] {T : Ten4 K} (h : MinorSymm T) : Stores4 (asvoigt4 T) T :=
  ⟨h, fun a b => asvoigt4_entry T a b⟩

/-- The round trip is the identity exactly on the minor-symmetric tensors. -/
theorem C02_astensor4_asvoigt4_iff [Zero K] (T : Ten4 K) :
    astensor4 (asvoigt4 T) = T ↔ MinorSymm T := by
  constructor
  · intro h; rw [← h]; exact astensor4_minor _
  · intro h; exact ((stores4_iff _ _).1 (C02_asvoigt4_stores h)).symm

/-- Every 6x6 matrix is recovered from its tensor. -/
theorem C02_asvoigt4_astensor4 [Zero K] (M : Fin 6 → Fin 6 → K) : asvoigt4 (astensor4 M) = M := by
  ext a b
  rw [asvoigt4_entry]
  simp [astensor4, tab_pos]

/-- `astensor(mode=4)` returns the tensor stored by its argument. -/
theorem C02_astensor4_stored (M : Fin 6 → Fin 6 → K) (T : Ten4 K) :
    Stores4 M T ↔ T = astensor4 M := stores4_iff M T

/-- A minor- but not major-symmetric tensor, as covered by C02. -/
example : MinorSymm (dyad (1 : Ten2 ℚ) !![2, 1, 0; 1, 3, 0; 0, 0, 1]) ∧
    ¬ MajorSymm (dyad (1 : Ten2 ℚ) !![2, 1, 0; 1, 3, 0; 0, 0, 1]) := by
  refine ⟨⟨?_, ?_⟩, ?_⟩
  · intro i j k l; simp only [dyad, Matrix.one_apply, eq_comm]
  · intro i j k l; fin_cases k <;> fin_cases l <;> simp [dyad]
  · intro h; have := h 0 0 1 1; norm_num [dyad] at this

/-! ## C03 -/

section
variable [Field K] {v : Fin 6 → K} {T : Ten2 K}

/-- `trace` is the trace of the stored tensor. -/
theorem C03_trace (h : Stores v T) : Hel.trace v = T.trace := by
  obtain rfl := (stores_iff _ _).1 h
  simp [Hel.trace, Matrix.trace, Fin.sum_univ_three, astensor, tab]

/-- `det` is the determinant of the stored tensor. -/
theorem C03_det (h : Stores v T) : Hel.det v = T.det := by
  obtain rfl := (stores_iff _ _).1 h
  simp [Hel.det, Matrix.det_fin_three, astensor, tab]
  ring

/-- `eye` stores the identity tensor. -/
theorem C03_eye : Stores (eye : Fin 6 → K) (1 : Ten2 K) := by
  rw [stores_iff]
  ext i j
  fin_cases i <;> fin_cases j <;> simp [eye, astensor, tab]

/-- `dev` stores the deviator `T - tr(T)/3 1`. -/
theorem C03_dev (h : Stores v T) : Stores (dev v) (T - (T.trace / 3) • (1 : Ten2 K)) := by
  rw [← C03_trace h]
  obtain rfl := (stores_iff _ _).1 h
  rw [stores_iff]
  ext i j
  fin_cases i <;> fin_cases j <;> simp [dev, eye, astensor, tab]

/-- A deviator has no trace. -/
theorem C03_trace_dev [CharZero K] (v : Fin 6 → K) : Hel.trace (dev v) = 0 := by
  simp [Hel.trace, dev, eye]; ring

/-- The deviator of a deviator is the deviator. -/
theorem C03_dev_dev [CharZero K] (v : Fin 6 → K) : dev (dev v) = dev v := by
  ext a
  have h : Hel.trace (dev v) = 0 := C03_trace_dev v
  unfold dev at h ⊢
  rw [h]; simp
end

example : Stores (![1, 11, 12, 13, 14, 15] : Fin 6 → ℚ) !![1, 13, 15; 13, 11, 14; 15, 14, 12] :=
  (stores_iff _ _).2 (by ext i j; fin_cases i <;> fin_cases j <;> rfl)

/-! ## C04 -/

section
variable [Field K] {v : Fin 6 → K} {T : Ten2 K}

/-- `inv(v)` stores the inverse; the determinant is computed by the function. -/
theorem C04_inv (h : Stores v T) (hT : T.det ≠ 0) : Stores (Hel.inv v) T⁻¹ := by
  have hd : Hel.det v ≠ 0 := by rw [C03_det h]; exact hT
  have hsymm : T⁻¹.IsSymm := by
    unfold Matrix.IsSymm; rw [Matrix.transpose_nonsing_inv, h.symm]
  have hu : IsUnit T.det := isUnit_iff_ne_zero.2 hT
  suffices hmul : T * Matrix.of (astensor (Hel.inv v)) = 1 by
    rw [Matrix.inv_eq_right_inv hmul]; exact stores_astensor _
  obtain rfl := (stores_iff _ _).1 h
  ext i j
  have e : Hel.det v = v 0 * v 1 * v 2 + 2 * v 3 * v 4 * v 5 - v 4 ^ 2 * v 0 - v 5 ^ 2 * v 1
    - v 3 ^ 2 * v 2 := rfl
  fin_cases i <;> fin_cases j <;>
    simp [Matrix.mul_apply, Fin.sum_univ_three, astensor, tab, inv_entry] <;>
    field_simp <;> rw [e] <;> ring

/-- Passing the determinant of `T` does not change the result. -/
theorem C04_inv_determinant (h : Stores v T) : Hel.inv v (some T.det) = Hel.inv v := by
  rw [← C03_det h]; rfl

/-- In every memory state, and with the result written to a fresh array (`out = none`), to a
caller's buffer of any previous content, or over the argument itself, the returned array
holds the same inverse; the buffer passed as `out` is the returned array; the argument is
left unchanged unless it is `out`. -/
theorem C04_inv_out (h : Heap K) (d : Option K) (out : Option Buf)
    (hout : out = none ∨ out = some .user ∨ out = some .A) :
    (invHeap h d out).2 (invHeap h d out).1 = Hel.inv (h .A) d ∧
    (∀ r, out = some r → (invHeap h d out).1 = r) ∧
    (out ≠ some .A → (invHeap h d out).2 .A = h .A) ∧
    (out ≠ some .user → (invHeap h d out).2 .user = h .user) := by
  refine ⟨?_, ?_, ?_, ?_⟩
  · funext a
    rcases hout with rfl | rfl | rfl <;> simp [invHeap, Heap.store, Hel.inv] <;>
      cases d <;> rfl
  · rintro r rfl; rfl
  · intro hA
    rcases hout with rfl | rfl | rfl <;> simp_all [invHeap, Heap.store]
  · intro hA
    rcases hout with rfl | rfl | rfl <;> simp_all [invHeap, Heap.store]

/-- `dot` of a vector and its `inv`, in either order, is the identity. -/
theorem C04_dot_inv (h : Stores v T) (hT : T.det ≠ 0) :
    Matrix.of (dot v (Hel.inv v)) = 1 ∧ Matrix.of (dot (Hel.inv v) v) = 1 := by
  have hu : IsUnit T.det := isUnit_iff_ne_zero.2 hT
  have h' := C04_inv h hT
  have e1 : Matrix.of (dot v (Hel.inv v)) = T * T⁻¹ := by
    rw [(stores_iff _ _).1 h']
    generalize Hel.inv v = w
    ext i j
    fin_cases i <;> fin_cases j <;>
      simp [Matrix.mul_apply, Fin.sum_univ_three, dot, (stores_iff _ _).1 h, astensor, tab] <;> ring
  have e2 : Matrix.of (dot (Hel.inv v) v) = T⁻¹ * T := by
    rw [(stores_iff _ _).1 h']
    generalize Hel.inv v = w
    ext i j
    fin_cases i <;> fin_cases j <;>
      simp [Matrix.mul_apply, Fin.sum_univ_three, dot, (stores_iff _ _).1 h, astensor, tab] <;> ring
  exact ⟨e1.trans (Matrix.mul_nonsing_inv _ hu), e2.trans (Matrix.nonsing_inv_mul _ hu)⟩

/-- Inverting twice gives back the vector. -/
theorem C04_inv_inv (h : Stores v T) (hT : T.det ≠ 0) : Hel.inv (Hel.inv v) = v := by
  have hu : IsUnit T.det := isUnit_iff_ne_zero.2 hT
  have h1 := C04_inv h hT
  have h2 := C04_inv h1 (by rw [Matrix.det_nonsing_inv, Ring.inverse_eq_inv']; exact inv_ne_zero hT)
  rw [Matrix.nonsing_inv_nonsing_inv _ hu] at h2
  ext a; rw [h2.entry, h.entry]

end

example : Stores (![2, 3, 1, 1, 0, 0] : Fin 6 → ℚ) !![2, 1, 0; 1, 3, 0; 0, 0, 1] ∧
    (!![2, 1, 0; 1, 3, 0; 0, 0, 1] : Ten2 ℚ).det ≠ 0 := by
  refine ⟨(stores_iff _ _).2 (by ext i j; fin_cases i <;> fin_cases j <;> rfl), ?_⟩
  simp [Matrix.det_fin_three]; norm_num

/-! ## C05 -/

section
variable [Field K] {v w : Fin 6 → K} {T U : Ten2 K} {M N : Fin 6 → Fin 6 → K} {A B : Ten4 K}

/-- `dot` is the matrix product of the stored tensors, as a full tensor (it need not be symmetric). -/
theorem C05_dot (h : Stores v T) (h' : Stores w U) : Matrix.of (dot v w) = T * U := by
  obtain rfl := (stores_iff _ _).1 h
  obtain rfl := (stores_iff _ _).1 h'
  ext i j
  fin_cases i <;> fin_cases j <;>
    simp [Matrix.mul_apply, Fin.sum_univ_three, dot, astensor, tab] <;> ring

/-- `ddot` of two vectors is the full double contraction. -/
theorem C05_ddot22 (h : Stores v T) (h' : Stores w U) : ddot v w = contract22 T U := by
  obtain rfl := (stores_iff _ _).1 h
  obtain rfl := (stores_iff _ _).1 h'
  simp [ddot, contract22, Fin.sum_univ_three, Fin.sum_univ_six, weights, astensor, tab]
  ring

/-- `ddot(mode=(4, 2))` stores `A : T`. -/
theorem C05_ddot42 (h : Stores4 M A) (h' : Stores v T) : Stores (ddot42 M v) (contract42 A T) := by
  obtain rfl := (stores4_iff _ _).1 h
  obtain rfl := (stores_iff _ _).1 h'
  rw [stores_iff]
  ext i j
  simp only [contract42, astensor, astensor4, ddot42, of_apply, Fin.sum_univ_three,
    Fin.sum_univ_six]
  generalize tab i j = a
  simp [tab, weights]
  ring

/-- `ddot(mode=(2, 4))` stores `T : A`. -/
theorem C05_ddot24 (h : Stores v T) (h' : Stores4 M A) : Stores (ddot24 v M) (contract24 T A) := by
  obtain rfl := (stores4_iff _ _).1 h'
  obtain rfl := (stores_iff _ _).1 h
  rw [stores_iff]
  ext i j
  simp only [contract24, astensor, astensor4, ddot24, of_apply, Fin.sum_univ_three,
    Fin.sum_univ_six]
  generalize tab i j = a
  simp [tab, weights]
  ring

/-- `ddot(mode=(4, 4))` stores `A : B`. -/
theorem C05_ddot44 (h : Stores4 M A) (h' : Stores4 N B) :
    Stores4 (ddot44 M N) (contract44 A B) := by
  obtain rfl := (stores4_iff _ _).1 h
  obtain rfl := (stores4_iff _ _).1 h'
  rw [stores4_iff]
  ext i j k l
  simp only [contract44, astensor4, ddot44, Fin.sum_univ_three, Fin.sum_univ_six]
  generalize tab i j = a
  generalize tab k l = b
  simp [tab, weights]
  ring
end

example : Stores4 (dya (![2, 3, 1, 1, 0, 0] : Fin 6 → ℚ) ![1, 1, 1, 0, 0, 5])
    (astensor4 (dya (![2, 3, 1, 1, 0, 0] : Fin 6 → ℚ) ![1, 1, 1, 0, 0, 5])) := stores4_astensor4 _

/-! ## C06 -/

section
variable [Field K] {v w : Fin 6 → K} {T U : Ten2 K}

/-- `dya` stores the dyadic product. -/
theorem C06_dya (h : Stores v T) (h' : Stores w U) : Stores4 (dya v w) (dyad T U) := by
  obtain rfl := (stores_iff _ _).1 h
  obtain rfl := (stores_iff _ _).1 h'
  rw [stores4_iff]; rfl

/-- `cdya_ik` is the overlined dyad `T_ik U_jl`, a full tensor. -/
theorem C06_cdya_ik (h : Stores v T) (h' : Stores w U) : cdya_ik v w = dyadIK T U := by
  obtain rfl := (stores_iff _ _).1 h
  obtain rfl := (stores_iff _ _).1 h'
  rfl

/-- `cdya_il` is the underlined dyad `T_il U_kj`, a full tensor. -/
theorem C06_cdya_il (h : Stores v T) (h' : Stores w U) : cdya_il v w = dyadIL T U := by
  obtain rfl := (stores_iff _ _).1 h
  obtain rfl := (stores_iff _ _).1 h'
  rfl

/-- The overlined dyad is major-symmetric. -/
theorem C06_cdya_ik_major (v w : Fin 6 → K) : MajorSymm (cdya_ik v w) := by
  intro i j k l
  simp only [cdya_ik, swap12, astensor4, dya, tab_comm k i, tab_comm l j]

/-- The underlined dyad of a tensor with itself is major-symmetric. -/
theorem C06_cdya_il_major (v : Fin 6 → K) : MajorSymm (cdya_il v v) := by
  intro i j k l
  simp only [cdya_il, swap13, astensor4, dya, tab_comm k j, tab_comm i l]
  ring
end

/-! ## C07 -/

section
variable [Field K] [CharZero K] {v w : Fin 6 → K} {T U : Ten2 K}

/-- `cdya` stores the symmetrised crossed dyad, for either outcome of the object-identity
test and for every previous content of the output buffer. -/
theorem C07_cdya (same : Bool) (out : Option (Fin 6 → Fin 6 → K)) (hsame : same = true → v = w)
    (h : Stores v T) (h' : Stores w U) : Stores4 (cdyaOut same v w out) (dyadSym T U) := by
  refine ⟨dyadSym_minor h.symm h'.symm, fun a b => ?_⟩
  rw [cdya_entry same v w out hsame, (stores_iff _ _).1 h, (stores_iff _ _).1 h']

/-- The crossed dyad does not depend on the order of its arguments. -/
theorem C07_cdya_comm (v w : Fin 6 → K) : cdya v w = cdya w v := by
  ext a b
  simp only [cdya, cdya_entry false _ _ none (by simp), dyadSym]
  ring

/-- The crossed dyad is major-symmetric. -/
theorem C07_cdya_major (v w : Fin 6 → K) : Hel.transpose (cdya v w) = cdya v w := by
  ext a b
  simp only [Hel.transpose, cdya, cdyaOut_entry]
  rcases lt_trichotomy a b with h | h | h
  · rw [if_neg (not_le.2 h), if_pos h.le]
  · subst h; rfl
  · rw [if_pos h.le, if_neg (not_le.2 h)]

/-- The shortcut for `A is B` gives the same result as the general branch. -/
theorem C07_cdya_self (v : Fin 6 → K) : cdyaSelf v = cdya v v := by
  ext a b
  simp only [cdya, cdyaSelf, cdya_entry false _ _ none (by simp),
    cdya_entry true _ _ none (fun _ => rfl)]
end

/-! ## C08 -/

section
variable [Field K] {v w : Fin 6 → K} {M N : Fin 6 → Fin 6 → K} {A : Ten4 K}

/-- `transpose` stores the major transpose. -/
theorem C08_transpose (h : Stores4 M A) : Stores4 (Hel.transpose M) (fun i j k l => A k l i j) := by
  obtain rfl := (stores4_iff _ _).1 h
  rw [stores4_iff]; rfl

/-- Transposing twice changes nothing. -/
theorem C08_transpose_transpose (M : Fin 6 → Fin 6 → K) : Hel.transpose (Hel.transpose M) = M := rfl

/-- The transpose of a dyad is the dyad with the arguments swapped. -/
theorem C08_transpose_dya (v w : Fin 6 → K) : Hel.transpose (dya v w) = dya w v := by
  ext a b; simp [Hel.transpose, dya, mul_comm]

/-- The transpose of a contraction is the contraction of the transposes in reverse order. -/
theorem C08_transpose_ddot44 (M N : Fin 6 → Fin 6 → K) :
    Hel.transpose (ddot44 M N) = ddot44 (Hel.transpose N) (Hel.transpose M) := by
  ext a b
  simp only [Hel.transpose, ddot44]
  exact Finset.sum_congr rfl fun k _ => by ring
end

/-! ## C09 -/

section
variable {n : ℕ} (A : Fin n → Fin n → K)

/-- The result is symmetric, keeps the upper triangle and the diagonal of the input. -/
theorem C09_tril_from_triu : (∀ i j, trilFromTriu A n none i j = trilFromTriu A n none j i) ∧
    (∀ i j, i ≤ j → trilFromTriu A n none i j = A i j) := by
  constructor
  · intro i j
    simp only [trilFromTriu, Fin.is_lt, and_true, Option.getD_none]
    rcases lt_trichotomy i j with h | h | h
    · rw [if_neg (not_lt.2 h.le), if_pos h]
    · subst h; rfl
    · rw [if_pos h, if_neg (not_lt.2 h.le)]
  · intro i j h
    simp [trilFromTriu, not_lt.2 h]

/-- The upper triangle is filled with the mirrored lower triangle, which is unchanged. -/
theorem C09_triu_from_tril : (∀ i j, triuFromTril A n none i j = triuFromTril A n none j i) ∧
    (∀ i j, j ≤ i → triuFromTril A n none i j = A i j) := by
  constructor
  · intro i j
    simp only [triuFromTril, Fin.is_lt, and_true, Option.getD_none]
    rcases lt_trichotomy i j with h | h | h
    · rw [if_pos h, if_neg (not_lt.2 h.le)]
    · subst h; rfl
    · rw [if_neg (not_lt.2 h.le), if_pos h]
  · intro i j h
    simp [triuFromTril, not_lt.2 h]

/-- In place (`out=A`) gives the same result as with a copy. -/
theorem C09_inplace (dim : ℕ) : trilFromTriu A dim (some A) = trilFromTriu A dim none ∧
    triuFromTril A dim (some A) = triuFromTril A dim none := ⟨rfl, rfl⟩

/-- Filling the triangle a second time changes nothing. -/
theorem C09_idempotent (dim : ℕ) :
    trilFromTriu (trilFromTriu A dim none) dim none = trilFromTriu A dim none ∧
    triuFromTril (triuFromTril A dim none) dim none = triuFromTril A dim none := by
  constructor
  · ext i j
    simp only [trilFromTriu, Option.getD_none]
    by_cases h : j < i ∧ i.val < dim
    · have : ¬ (i < j ∧ j.val < dim) := fun h' => absurd h'.1 (not_lt.2 h.1.le)
      simp [h, this]
    · simp [h]
  · ext i j
    simp only [triuFromTril, Option.getD_none]
    by_cases h : i < j ∧ j.val < dim
    · have : ¬ (j < i ∧ i.val < dim) := fun h' => absurd h'.1 (not_lt.2 h.1.le)
      simp [h, this]
    · simp [h]

/-- Already symmetric matrices are left unchanged, for any `dim`. -/
theorem C09_symm_fixed (dim : ℕ) (h : ∀ i j, A i j = A j i) :
    trilFromTriu A dim none = A ∧ triuFromTril A dim none = A := by
  constructor <;> ext i j
  · simp only [trilFromTriu, Option.getD_none]; split <;> simp [h j i]
  · simp only [triuFromTril, Option.getD_none]; split <;> simp [h j i]

/-- With a buffer only the mirrored triangle (of the leading block) is written: it receives
the mirrored entries of `A`, every other entry of the buffer stays. -/
theorem C09_out (dim : ℕ) (buf : Fin n → Fin n → K) :
    (∀ i j, j < i → i.val < dim → trilFromTriu A dim (some buf) i j = A j i) ∧
    (∀ i j, ¬ (j < i ∧ i.val < dim) → trilFromTriu A dim (some buf) i j = buf i j) ∧
    (∀ i j, i < j → j.val < dim → triuFromTril A dim (some buf) i j = A j i) ∧
    (∀ i j, ¬ (i < j ∧ j.val < dim) → triuFromTril A dim (some buf) i j = buf i j) := by
  refine ⟨?_, ?_, ?_, ?_⟩
  · intro i j h h'; simp [trilFromTriu, h, h']
  · intro i j h; simp only [trilFromTriu]; rw [if_neg h]; rfl
  · intro i j h h'; simp [triuFromTril, h, h']
  · intro i j h; simp only [triuFromTril]; rw [if_neg h]; rfl
end

example : (fun i j : Fin 3 => if i = j then (2 : ℚ) else 1) =
    fun i j => (fun i j : Fin 3 => if i = j then (2 : ℚ) else 1) j i := by
  ext i j; simp [eq_comm]

end Props
