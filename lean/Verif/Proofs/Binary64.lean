import Mathlib.Data.Int.Log
import Mathlib.Algebra.Order.Round
import Mathlib.Tactic.NormNum
import Verif.Proofs.RoundingOrder

/-!
# A concrete floating-point arithmetic: double precision

Binary floating-point numbers with 53 bits and round to nearest, ties to even (IEEE 754 binary64 with
an unbounded exponent).  It shows that the assumptions of the standard model are met.
-/

namespace Hel.Rnd.Binary64
open Spec

/-- The nearest integer, ties to even. -/
noncomputable def nearestEven (y : ℝ) : ℤ :=
  open Classical in if Int.fract y = 1 / 2 then 2 * ((⌊y⌋ + 1) / 2) else round y

theorem nearestEven_error (y : ℝ) : |(nearestEven y : ℝ) - y| ≤ 1 / 2 := by
  unfold nearestEven
  split
  · rename_i h
    have e : y = ⌊y⌋ + 1 / 2 := by rw [← h]; exact (Int.floor_add_fract y).symm
    rcases Int.even_or_odd' ⌊y⌋ with ⟨k, hk | hk⟩
    · have : 2 * ((⌊y⌋ + 1) / 2) = ⌊y⌋ := by omega
      rw [this, abs_le]
      constructor <;> linarith
    · have : 2 * ((⌊y⌋ + 1) / 2) = ⌊y⌋ + 1 := by omega
      rw [this, abs_le]
      push_cast
      constructor <;> linarith
  · rw [abs_sub_comm]; exact abs_sub_round y

theorem nearestEven_int (n : ℤ) : nearestEven (n : ℝ) = n := by
  unfold nearestEven
  rw [if_neg (by norm_num), round_intCast]

/-- The unit in the last place of a number. -/
noncomputable def ulp (x : ℝ) : ℝ := (2 : ℝ) ^ (Int.log 2 |x| - 52)

/-- The nearest machine number, ties to even. -/
noncomputable def rn (x : ℝ) : ℝ := nearestEven (x / ulp x) * ulp x

theorem ulp_pos (x : ℝ) : 0 < ulp x := by unfold ulp; positivity

theorem rn_zero : rn 0 = 0 := by
  have := nearestEven_int 0
  simp only [Int.cast_zero] at this
  simp [rn, this]

theorem ulp_le {x : ℝ} (hx : x ≠ 0) : ulp x ≤ 2 ^ (-52 : ℤ) * |x| := by
  have := Int.zpow_log_le_self (b := 2) (r := |x|) (by norm_num) (abs_pos.2 hx)
  unfold ulp
  rw [sub_eq_add_neg, zpow_add₀ (by norm_num), mul_comm]
  push_cast at this
  gcongr

/-- The relative error of the nearest machine number. -/
theorem rn_error (x : ℝ) : |rn x - x| ≤ 2 ^ (-53 : ℤ) * |x| := by
  rcases eq_or_ne x 0 with rfl | hx
  · simp [rn_zero]
  have h := nearestEven_error (x / ulp x)
  have hu := ulp_pos x
  have e : rn x - x = (nearestEven (x / ulp x) - x / ulp x) * ulp x := by
    unfold rn
    field_simp
  rw [e, abs_mul, abs_of_pos hu]
  have := ulp_le hx
  calc _ ≤ 1 / 2 * (2 ^ (-52 : ℤ) * |x|) := by gcongr
    _ = 2 ^ (-53 : ℤ) * |x| := by
      rw [show (-53 : ℤ) = -1 + -52 by norm_num, zpow_add₀ (by norm_num)]
      norm_num
      ring

/-- The machine numbers: an integer with at most 53 bits times a power of two. -/
def IsNum (x : ℝ) : Prop := ∃ m e : ℤ, |m| < 2 ^ 53 ∧ x = m * 2 ^ e

/-- Machine numbers are not rounded. -/
theorem rn_num {x : ℝ} (h : IsNum x) : rn x = x := by
  rcases eq_or_ne x 0 with rfl | hx
  · exact rn_zero
  obtain ⟨m, e, hm, rfl⟩ := h
  have hm0 : m ≠ 0 := by rintro rfl; simp at hx
  -- the exponent of the last place is at most `e`
  have h1 : Int.log 2 |(m * 2 ^ e : ℝ)| < e + 53 := by
    have h2 := Int.zpow_log_le_self (b := 2) (r := |(m * 2 ^ e : ℝ)|) (by norm_num) (abs_pos.2 hx)
    have h3 : |(m * 2 ^ e : ℝ)| < 2 ^ (e + 53) := by
      rw [abs_mul, abs_of_pos (show (0 : ℝ) < 2 ^ e by positivity), zpow_add₀ (by norm_num), mul_comm]
      have : |(m : ℝ)| < 2 ^ (53 : ℤ) := by exact_mod_cast hm
      gcongr
    by_contra hc
    have h4 : (2 : ℝ) ^ (e + 53) ≤ 2 ^ (Int.log 2 |(m * 2 ^ e : ℝ)|) :=
      zpow_le_zpow_right₀ (by norm_num) (by omega)
    push_cast at h2
    linarith
  have hk : ∃ k : ℕ, e = Int.log 2 |(m * 2 ^ e : ℝ)| - 52 + k := ⟨(e - (Int.log 2 |(m * 2 ^ e : ℝ)| - 52)).toNat, by omega⟩
  obtain ⟨k, hk⟩ := hk
  have hu := ulp_pos (m * 2 ^ e : ℝ)
  have e1 : (m * 2 ^ e : ℝ) / ulp (m * 2 ^ e) = ((m * 2 ^ k : ℤ) : ℝ) := by
    rw [div_eq_iff hu.ne']
    unfold ulp
    push_cast
    rw [mul_assoc, ← zpow_natCast, ← zpow_add₀ (by norm_num)]
    congr 2
    omega
  unfold rn
  rw [e1, nearestEven_int, ← e1]
  field_simp

/-- The result of a rounding is a machine number. -/
theorem num_rn (x : ℝ) : IsNum (rn x) := by
  rcases eq_or_ne x 0 with rfl | hx
  · rw [rn_zero]; exact ⟨0, 0, by norm_num, by simp⟩
  have hu := ulp_pos x
  have h1 : |x / ulp x| < 2 ^ 53 := by
    have := Int.lt_zpow_succ_log_self (b := 2) (by norm_num) |x|
    rw [abs_div, abs_of_pos hu, div_lt_iff₀ hu]
    unfold ulp
    rw [← zpow_natCast, ← zpow_add₀ (by norm_num)]
    push_cast at this ⊢
    rwa [show (53 : ℤ) + (Int.log 2 |x| - 52) = Int.log 2 |x| + 1 by ring]
  have h2 : |nearestEven (x / ulp x)| ≤ 2 ^ 53 := by
    have h3 := nearestEven_error (x / ulp x)
    have h4 : |(nearestEven (x / ulp x) : ℝ)| < 2 ^ 53 + 1 := by
      have := abs_sub_abs_le_abs_sub (nearestEven (x / ulp x) : ℝ) (x / ulp x)
      linarith
    have h5 : |nearestEven (x / ulp x)| < 2 ^ 53 + 1 := by exact_mod_cast h4
    omega
  rcases h2.lt_or_eq with h | h
  · exact ⟨_, Int.log 2 |x| - 52, h, rfl⟩
  · rcases (abs_eq (by norm_num)).1 h with h | h
    · exact ⟨1, 53 + (Int.log 2 |x| - 52), by norm_num, by
        unfold rn; rw [h]; unfold ulp; rw [zpow_add₀ (by norm_num)]; push_cast; norm_num⟩
    · exact ⟨-1, 53 + (Int.log 2 |x| - 52), by norm_num, by
        unfold rn; rw [h]; unfold ulp; rw [zpow_add₀ (by norm_num)]; push_cast; norm_num⟩

/-- The nearest integer has the smallest distance. -/
theorem nearestEven_nearest (y : ℝ) (n : ℤ) : |(nearestEven y : ℝ) - y| ≤ |(n : ℝ) - y| := by
  by_contra h
  push Not at h
  have h1 := nearestEven_error y
  have h2 : |(nearestEven y : ℝ) - n| < 1 := by
    calc _ = |((nearestEven y : ℝ) - y) - (n - y)| := by ring_nf
      _ ≤ |(nearestEven y : ℝ) - y| + |(n : ℝ) - y| := abs_sub _ _
      _ < 1 := by linarith
  have h3 : |nearestEven y - n| < 1 := by exact_mod_cast h2
  have h4 : nearestEven y = n := by
    have := Int.abs_lt_one_iff.1 h3
    omega
  rw [h4] at h
  exact lt_irrefl _ h

/-- No machine number is nearer. -/
theorem rn_nearest (x : ℝ) {v : ℝ} (hv : IsNum v) : |rn x - x| ≤ |v - x| := by
  rcases eq_or_ne x 0 with rfl | hx
  · rw [rn_zero]; simp
  have hu := ulp_pos x
  have key : ∀ n : ℤ, |rn x - x| ≤ |n * ulp x - x| := by
    intro n
    have h := nearestEven_nearest (x / ulp x) n
    have e : ∀ n : ℤ, n * ulp x - x = (n - x / ulp x) * ulp x := by intro n; field_simp
    unfold rn
    rw [e, e, abs_mul, abs_mul]
    gcongr
  obtain ⟨m, e, hm, rfl⟩ := hv
  -- a number on the grid of `x`, or a smaller one
  rcases le_or_gt (Int.log 2 |x| - 52) e with he | he
  · obtain ⟨k, hk⟩ : ∃ k : ℕ, e = Int.log 2 |x| - 52 + k := ⟨(e - (Int.log 2 |x| - 52)).toNat, by omega⟩
    have := key (m * 2 ^ k)
    convert this using 3
    unfold ulp
    push_cast
    rw [mul_assoc, ← zpow_natCast, ← zpow_add₀ (by norm_num)]
    congr 2
    omega
  · -- the power of two below `|x|` lies between
    have h1 : |(m * 2 ^ e : ℝ)| ≤ 2 ^ Int.log 2 |x| := by
      rw [abs_mul, abs_of_pos (show (0 : ℝ) < 2 ^ e by positivity)]
      have h2 : |(m : ℝ)| ≤ 2 ^ (53 : ℤ) := by exact_mod_cast hm.le
      calc |(m : ℝ)| * 2 ^ e ≤ 2 ^ (53 : ℤ) * 2 ^ (Int.log 2 |x| - 53) := by
            gcongr
            · norm_num
            · omega
        _ = 2 ^ Int.log 2 |x| := by rw [← zpow_add₀ (by norm_num)]; congr 1; ring
    have h3 : (2 : ℝ) ^ Int.log 2 |x| ≤ |x| := by
      have := Int.zpow_log_le_self (b := 2) (r := |x|) (by norm_num) (abs_pos.2 hx)
      simpa using this
    have h4 : (2 : ℝ) ^ Int.log 2 |x| = 2 ^ 52 * ulp x := by
      unfold ulp
      rw [← zpow_natCast, ← zpow_add₀ (by norm_num)]
      congr 1
      push_cast
      ring
    have h5 : |x| - 2 ^ Int.log 2 |x| ≤ |m * 2 ^ e - x| := by
      have := abs_sub_abs_le_abs_sub x (m * 2 ^ e)
      rw [abs_sub_comm] at this
      linarith
    refine le_trans ?_ h5
    rcases lt_or_gt_of_ne hx with hneg | hpos
    · have := key (-2 ^ 52)
      rw [abs_of_neg hneg] at h3 h4 ⊢
      refine this.trans (le_of_eq ?_)
      push_cast
      rw [h4, abs_of_nonneg] <;> linarith
    · have := key (2 ^ 52)
      rw [abs_of_pos hpos] at h3 h4 ⊢
      refine this.trans (le_of_eq ?_)
      push_cast
      rw [h4, abs_sub_comm, abs_of_nonneg] <;> linarith

/-- Addition; machine numbers are added exactly and rounded (`add_num`). -/
noncomputable def add (x y : ℝ) : ℝ := open Classical in if x = 0 then y else if y = 0 then x else rn (x + y)

theorem add_num {x y : ℝ} (hx : IsNum x) (hy : IsNum y) : add x y = rn (x + y) := by
  unfold add
  split
  · rename_i h; rw [h, zero_add, rn_num hy]
  split
  · rename_i h; rw [h, add_zero, rn_num hx]
  rfl

/-- The operations of double precision. -/
noncomputable def operations : Operations where
  u := 2 ^ (-53 : ℤ)
  u_nonneg := by positivity
  add := add
  sub x y := rn (x - y)
  mul x y := rn (x * y)
  div x y := rn (x / y)
  fma x y z := rn (x * y + z)
  add_error x y := by
    unfold add
    have h0 : (0 : ℝ) ≤ 2 ^ (-53 : ℤ) := by positivity
    split
    · rename_i h; subst h; simp only [zero_add, sub_self, abs_zero]; positivity
    split
    · rename_i h; subst h; simp only [add_zero, sub_self, abs_zero]; positivity
    exact rn_error _
  sub_error _ _ := rn_error _
  mul_error _ _ := rn_error _
  div_error _ _ _ := rn_error _
  fma_error _ _ _ := rn_error _
  add_zero x := by unfold add; split <;> simp_all
  zero_add x := by unfold add; simp

/-- Double precision, with correctly rounded powers and with `einsum` from left to right. -/
noncomputable def rounding : Rounding :=
  .ofOperations operations (fun x y => rn (x ^ y)) (fun x y hx => by
      refine (rn_error _).trans ?_
      have h : (0 : ℝ) < x ^ y := Real.rpow_pos_of_pos hx y
      rw [abs_of_pos h]
      change _ ≤ ((1 + (2 : ℝ) ^ (-53 : ℤ)) ^ 2 - 1) * _
      gcongr
      norm_num)
    (inOrder operations.add operations.mul) (sumOf_inOrder _ _ _)

theorem rounding_u : rounding.u = 2 ^ (-53 : ℤ) := rfl

end Hel.Rnd.Binary64
