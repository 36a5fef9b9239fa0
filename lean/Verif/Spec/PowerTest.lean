import Verif.Spec.Fit

/-! # Two-term materials of generalized invariants: the weight of the second term -/

namespace Spec
open Hel

noncomputable section

/-- The ratio of the two terms of the normal force, the one with the exponent `-e` relative to the one with the exponent
`e`: the middle stretch of the load case (the lateral one for uniaxial, one for planar, the stretch itself for biaxial
tension) to the power `e`. -/
def LoadKind.powerWeight (e : ℝ) : LoadKind → ℝ → ℝ
  | .uniaxial, l => (1 / √l) ^ e
  | .planar, _ => 1
  | .biaxial, l => l ^ e

/-- For the exponent of the Mooney-Rivlin model this is the weight of the textbook formula. -/
theorem powerWeight_two (k : LoadKind) {l : ℝ} (hl : 0 < l) : k.powerWeight 2 l = k.weight l := by
  cases k
  · rw [LoadKind.powerWeight, LoadKind.weight, Real.rpow_two, div_pow, one_pow, Real.sq_sqrt hl.le]
  · rfl
  · rw [LoadKind.powerWeight, LoadKind.weight, Real.rpow_two]

end

end Spec
