import Verif.Proofs.Binary64
import Verif.Proofs.RangeOrder

/-!
# A concrete floating-point arithmetic with a finite range: IEEE 754 binary64

Round to nearest, ties to even, gradual underflow, and overflow of results which exceed the largest finite number.
-/

namespace Hel.Rnd.Binary64
open Spec

/-- The largest finite number. -/
noncomputable def big : ℝ := (2 ^ 53 - 1) * 2 ^ 971

/-- The nearest multiple of the smallest positive number. -/
noncomputable def sub (x : ℝ) : ℝ := nearestEven (x / 2 ^ (-1074 : ℤ)) * 2 ^ (-1074 : ℤ)

/-- The nearest machine number with unbounded large exponents. -/
noncomputable def rs (x : ℝ) : ℝ := open Classical in if |x| < 2 ^ (-1022 : ℤ) then sub x else rn x

/-- Rounding with overflow and gradual underflow. -/
noncomputable def rd (x : ℝ) : Option ℝ := open Classical in if |rs x| ≤ big then some (rs x) else none

theorem sub_error (x : ℝ) : |sub x - x| ≤ 2 ^ (-1075 : ℤ) := by
  have h := nearestEven_error (x / 2 ^ (-1074 : ℤ))
  have e : sub x - x = (nearestEven (x / 2 ^ (-1074 : ℤ)) - x / 2 ^ (-1074 : ℤ)) * 2 ^ (-1074 : ℤ) := by
    unfold sub
    rw [sub_mul, div_mul_cancel₀ _ (by positivity)]
  rw [e, abs_mul, abs_of_pos (show (0 : ℝ) < 2 ^ (-1074 : ℤ) by positivity)]
  calc _ ≤ 1 / 2 * (2 : ℝ) ^ (-1074 : ℤ) := by gcongr
    _ = 2 ^ (-1075 : ℤ) := by
      rw [show (-1075 : ℤ) = -1 + -1074 by norm_num, zpow_add₀ (by norm_num)]
      norm_num

theorem rs_error (x : ℝ) : |rs x - x| ≤ 2 ^ (-53 : ℤ) * |x| + 2 ^ (-1075 : ℤ) := by
  unfold rs
  have h0 : (0 : ℝ) ≤ 2 ^ (-53 : ℤ) * |x| := by positivity
  have h1 : (0 : ℝ) ≤ 2 ^ (-1075 : ℤ) := by positivity
  split
  · linarith [sub_error x]
  · linarith [rn_error x]

theorem rd_ok (x : ℝ) : Rounds (2 ^ (-53 : ℤ)) (2 ^ (-1075 : ℤ)) big x (rd x) := by
  intro h
  have h1 := rs_error x
  have h2 : |rs x| ≤ big := by
    have := abs_sub_abs_le_abs_sub (rs x) x
    linarith
  exact ⟨rs x, if_pos h2, h1⟩

theorem big_pos : 0 < big := by unfold big; positivity

theorem rd_tiny {x : ℝ} (h : |x| < 2 ^ (-1075 : ℤ)) : rd x = some 0 := by
  have h1 : sub x = 0 := by
    have h2 := nearestEven_error (x / 2 ^ (-1074 : ℤ))
    have h3 : |x / 2 ^ (-1074 : ℤ)| < 1 / 2 := by
      rw [abs_div, abs_of_pos (show (0 : ℝ) < 2 ^ (-1074 : ℤ) by positivity), div_lt_iff₀ (by positivity)]
      refine h.trans_eq ?_
      rw [show (-1075 : ℤ) = -1 + -1074 by norm_num, zpow_add₀ (by norm_num)]
      norm_num
    have h4 : |(nearestEven (x / 2 ^ (-1074 : ℤ)) : ℝ)| < 1 := by
      have := abs_sub_abs_le_abs_sub (nearestEven (x / 2 ^ (-1074 : ℤ)) : ℝ) (x / 2 ^ (-1074 : ℤ))
      linarith
    have h5 : |nearestEven (x / 2 ^ (-1074 : ℤ))| < 1 := by exact_mod_cast h4
    unfold sub
    rw [Int.abs_lt_one_iff.1 h5]
    simp
  have h2 : rs x = 0 := by
    unfold rs
    rw [if_pos (h.trans (zpow_lt_zpow_right₀ (by norm_num) (by norm_num))), h1]
  unfold rd
  rw [h2, abs_zero, if_pos big_pos.le]

theorem rd_zero : rd 0 = some 0 := rd_tiny (by rw [abs_zero]; positivity)

theorem rd_huge {x : ℝ} (h : 2 ^ 1025 ≤ |x|) : rd x = none := by
  have h1 : ¬ |x| < 2 ^ (-1022 : ℤ) := by
    rw [not_lt]
    refine le_trans ?_ h
    calc (2 : ℝ) ^ (-1022 : ℤ) ≤ 1 := zpow_le_one_of_nonpos₀ (by norm_num) (by norm_num)
      _ ≤ 2 ^ 1025 := one_le_pow₀ (by norm_num)
  have h2 : rs x = rn x := by unfold rs; rw [if_neg h1]
  have h3 := rn_error x
  have h4 : (2 : ℝ) ^ 1024 ≤ |rn x| := by
    have h5 := abs_sub_abs_le_abs_sub x (rn x)
    rw [abs_sub_comm] at h5
    have h6 : (2 : ℝ) ^ (-53 : ℤ) * |x| ≤ 1 / 2 * |x| := by
      gcongr
      norm_num
    have h7 : (2 : ℝ) ^ 1025 = 2 * 2 ^ 1024 := by rw [pow_succ, mul_comm]
    rw [h7] at h
    generalize (2 : ℝ) ^ 1024 = a at *
    have h8 := h3.trans h6
    clear h1 h7 h3 h6
    linarith
  have h5 : big < 2 ^ 1024 := by
    unfold big
    have : (2 : ℝ) ^ 1024 = 2 ^ 53 * 2 ^ 971 := by rw [← pow_add]
    rw [this]
    gcongr
    linarith
  unfold rd
  rw [h2, if_neg (by linarith)]

/-- Finite machine numbers are not rounded. -/
theorem rd_num {x : ℝ} (h : IsNum x) (h1 : 2 ^ (-1022 : ℤ) ≤ |x|) (h2 : |x| ≤ big) : rd x = some x := by
  have e : rs x = x := by unfold rs; rw [if_neg (not_lt.2 h1), rn_num h]
  unfold rd
  rw [e, if_pos h2]

/-- Addition; machine numbers are added exactly and rounded. -/
noncomputable def addR (x y : ℝ) : Option ℝ := open Classical in if x = 0 then some y else if y = 0 then some x else rd (x + y)

theorem addR_num {x y : ℝ} (hx : rd x = some x) (hy : rd y = some y) : addR x y = rd (x + y) := by
  unfold addR
  split
  · rename_i h; rw [h, zero_add, hy]
  split
  · rename_i h; rw [h, add_zero, hx]
  rfl

/-- The operations of double precision. -/
noncomputable def rangeOps : RangeOps where
  u := 2 ^ (-53 : ℤ)
  η := 2 ^ (-1075 : ℤ)
  Ω := big
  u_nonneg := by positivity
  η_nonneg := by positivity
  η_le := zpow_le_one_of_nonpos₀ (by norm_num) (by norm_num)
  add := addR
  sub x y := rd (x - y)
  mul x y := rd (x * y)
  div x y := rd (x / y)
  fma x y z := rd (x * y + z)
  add_ok x y h := by
    unfold addR
    have h0 : (0 : ℝ) ≤ 2 ^ (-53 : ℤ) := by positivity
    split
    · rename_i h; subst h; exact ⟨y, rfl, by simp only [zero_add, sub_self, abs_zero]; positivity⟩
    split
    · rename_i h; subst h; exact ⟨x, rfl, by simp only [add_zero, sub_self, abs_zero]; positivity⟩
    exact rd_ok _ h
  sub_ok _ _ := rd_ok _
  mul_ok _ _ := rd_ok _
  div_ok _ _ _ := rd_ok _
  fma_ok _ _ _ := rd_ok _
  add_zero x := by unfold addR; split <;> simp_all
  zero_add x := by unfold addR; simp

/-- Double precision, with correctly rounded powers and with `einsum` from left to right. -/
noncomputable def machine : Machine :=
  .ofOperations rangeOps (fun x y => rd (x ^ y)) (fun x y hx hΩ => by
      have h : (0 : ℝ) < x ^ y := Real.rpow_pos_of_pos hx y
      change (1 + (2 : ℝ) ^ (-53 : ℤ)) ^ 2 * x ^ y + _ ≤ _ at hΩ
      have h1 : 1 + (2 : ℝ) ^ (-53 : ℤ) ≤ (1 + (2 : ℝ) ^ (-53 : ℤ)) ^ 2 := by norm_num
      have h2 : (1 + (2 : ℝ) ^ (-53 : ℤ)) * x ^ y ≤ (1 + (2 : ℝ) ^ (-53 : ℤ)) ^ 2 * x ^ y := by gcongr
      obtain ⟨v, hv, hn⟩ := rd_ok (x ^ y) (by rw [abs_of_pos h]; exact le_trans (by gcongr; exact le_rfl) hΩ)
      refine ⟨v, hv, hn.trans ?_⟩
      rw [abs_of_pos h]
      change _ ≤ ((1 + (2 : ℝ) ^ (-53 : ℤ)) ^ 2 - 1) * _ + 2 ^ (-1075 : ℤ)
      gcongr
      linarith)
    (sumFrom rangeOps.add rangeOps.mul) (sumIn_from _ _ _)

theorem machine_u : machine.u = 2 ^ (-53 : ℤ) := rfl
theorem machine_η : machine.η = 2 ^ (-1075 : ℤ) := rfl
theorem machine_Ω : machine.Ω = big := rfl

theorem le_big : (2 : ℝ) ^ 1023 ≤ big := by
  unfold big
  have : (2 : ℝ) ^ 1023 = 2 ^ 52 * 2 ^ 971 := by rw [← pow_add]
  rw [this]
  gcongr
  norm_num

end Hel.Rnd.Binary64
