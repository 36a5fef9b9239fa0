import Mathlib.Tactic.Positivity
import Mathlib.Tactic.Linarith
import Mathlib.Tactic.Ring
import Mathlib.Tactic.GCongr
import Mathlib.Data.Real.Basic

/-!
# Errors with underflow

The number `v` is known up to the relative error `E - 1` of the majorant `m` and an error of `E B` underflows.
-/

namespace Hel.Rnd

/-- What is known of a number. -/
structure Near (η v x m E B : ℝ) : Prop where
  η0 : 0 ≤ η
  η1 : η ≤ 1
  maj : |x| ≤ m
  size : m ≤ B
  oneE : 1 ≤ E
  oneB : 1 ≤ B
  err : |v - x| ≤ (E - 1) * m + η * (E * B)

namespace Near

variable {η v x m E B v' x' m' E' B' : ℝ}

theorem m_nonneg (h : Near η v x m E B) : 0 ≤ m := (abs_nonneg _).trans h.maj

theorem abs_le (h : Near η v x m E B) : |v| ≤ E * m + η * (E * B) := by
  have := abs_add_le (v - x) x
  rw [sub_add_cancel] at this
  linarith [h.maj, h.err]

theorem abs_le' (h : Near η v x m E B) : |v| ≤ 2 * (E * B) := by
  have h1 := h.abs_le
  have hE := h.oneE
  have hB := h.oneB
  have h2 : E * m ≤ E * B := by have := h.size; gcongr
  have h3 : η * (E * B) ≤ 1 * (E * B) := by have := h.η1; gcongr
  linarith

theorem mono (h : Near η v x m E B) (hE : E ≤ E') (hB : B ≤ B') : Near η v x m E' B' := by
  refine ⟨h.η0, h.η1, h.maj, h.size.trans hB, h.oneE.trans hE, h.oneB.trans hB, h.err.trans ?_⟩
  have := h.m_nonneg
  have := h.η0
  have := h.oneE
  have := h.oneB
  have : 0 ≤ E' := by linarith
  gcongr

/-- A product without rounding. -/
theorem rmul (h : Near η v x m E B) (h' : Near η v' x' m' E' B') :
    Near η (v * v') (x * x') (m * m') (E * E') (3 * (B * B')) := by
  have hm := h.m_nonneg
  have hm' := h'.m_nonneg
  have hE := h.oneE
  have hE' := h'.oneE
  have hB := h.oneB
  have hB' := h'.oneB
  have hη := h.η0
  have hη1 := h.η1
  have hs := h.size
  have hs' := h'.size
  have hBB : 1 ≤ B * B' := one_le_mul_of_one_le_of_one_le hB hB'
  have hmm : m * m' ≤ B * B' := mul_le_mul hs hs' hm' (by linarith)
  refine ⟨h.η0, h.η1, by rw [abs_mul]; exact mul_le_mul h.maj h'.maj (abs_nonneg _) hm, by linarith,
    one_le_mul_of_one_le_of_one_le hE hE', by linarith, ?_⟩
  have h1 : |(v - x) * v'| ≤ ((E - 1) * m + η * (E * B)) * (E' * m' + η * (E' * B')) := by
    rw [abs_mul]
    exact mul_le_mul h.err h'.abs_le (abs_nonneg _) ((abs_nonneg _).trans h.err)
  have h2 : |x * (v' - x')| ≤ m * ((E' - 1) * m' + η * (E' * B')) := by
    rw [abs_mul]
    exact mul_le_mul h.maj h'.err (abs_nonneg _) hm
  have h3 := abs_add_le ((v - x) * v') (x * (v' - x'))
  rw [show (v - x) * v' + x * (v' - x') = v * v' - x * x' by ring] at h3
  have e : ((E - 1) * m + η * (E * B)) * (E' * m' + η * (E' * B')) + m * ((E' - 1) * m' + η * (E' * B')) =
      (E * E' - 1) * (m * m') + η * (E * E') * (m * B' + B * m' + η * (B * B')) := by ring
  have h4 : m * B' ≤ B * B' := by gcongr
  have h5 : B * m' ≤ B * B' := by gcongr
  have h6 : η * (B * B') ≤ 1 * (B * B') := by gcongr
  have h7 : η * (E * E') * (m * B' + B * m' + η * (B * B')) ≤ η * (E * E') * (3 * (B * B')) := by
    have : 0 ≤ η * (E * E') := by positivity
    refine mul_le_mul_of_nonneg_left ?_ this
    linarith
  linarith

/-- A sum without rounding. -/
theorem radd (h : Near η v x m E B) (h' : Near η v' x' m' E B') : Near η (v + v') (x + x') (m + m') E (B + B') := by
  refine ⟨h.η0, h.η1, (abs_add_le _ _).trans (add_le_add h.maj h'.maj), add_le_add h.size h'.size, h.oneE,
    by linarith [h.oneB, h'.oneB], ?_⟩
  have := abs_add_le (v - x) (v' - x')
  rw [add_sub_add_comm]
  have h1 := h.err
  have h2 := h'.err
  linarith

theorem neg (h : Near η v x m E B) : Near η (-v) (-x) m E B :=
  ⟨h.η0, h.η1, by rw [abs_neg]; exact h.maj, h.size, h.oneE, h.oneB, by rw [neg_sub_neg, abs_sub_comm]; exact h.err⟩

/-- A rounding with the relative error `q - 1`. -/
theorem round {q w : ℝ} (hq : 1 ≤ q) (h : Near η v x m E B) (hw : |w - v| ≤ (q - 1) * |v| + η) :
    Near η w x m (q * E) (B + 1) := by
  have hm := h.m_nonneg
  have hE := h.oneE
  have hB := h.oneB
  have hη := h.η0
  refine ⟨h.η0, h.η1, h.maj, by linarith [h.size], one_le_mul_of_one_le_of_one_le hq hE, by linarith, ?_⟩
  have h1 := h.abs_le
  have h2 := abs_add_le (w - v) (v - x)
  rw [sub_add_sub_cancel] at h2
  have h3 : (q - 1) * |v| ≤ (q - 1) * (E * m + η * (E * B)) := by
    have : 0 ≤ q - 1 := by linarith
    gcongr
  have h4 := h.err
  have h5 : η ≤ η * (q * E) := le_mul_of_one_le_right hη (one_le_mul_of_one_le_of_one_le hq hE)
  have e : (q - 1) * (E * m + η * (E * B)) + η * (q * E) + ((E - 1) * m + η * (E * B)) =
    (q * E - 1) * m + η * (q * E * (B + 1)) := by ring
  linarith

/-- The operation does not overflow. -/
theorem range {q Ω : ℝ} (hq : 1 ≤ q) (h : Near η v x m E B) (hΩ : 2 * (q * E * (B + 1)) ≤ Ω) : q * |v| + η ≤ Ω := by
  have hE := h.oneE
  have hB := h.oneB
  have h1 := h.abs_le'
  have h2 : q * |v| ≤ q * (2 * (E * B)) := by gcongr
  have h3 := h.η1
  have h4 : 1 ≤ q * E := one_le_mul_of_one_le_of_one_le hq hE
  nlinarith

end Near

end Hel.Rnd
