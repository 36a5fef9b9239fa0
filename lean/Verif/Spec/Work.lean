import Verif.Spec.Calculus
import Mathlib.MeasureTheory.Integral.IntervalIntegral.Basic

/-!
# Specification vocabulary: mechanical work

Nothing in this file refers to the model of the code.
-/

namespace Spec

noncomputable section

/-- A motion over the time interval from `a` to `b`: at every time, `X` has the velocity `X'`. -/
def MotionOn (X X' : ℝ → Ten2 ℝ) (a b : ℝ) : Prop := ∀ t ∈ Set.uIcc a b, Moves X (X' t) t

/-- The mechanical power `P : F'` per unit undeformed volume. -/
def stressPower (P F' : ℝ → Ten2 ℝ) (t : ℝ) : ℝ := contract22 (P t) (F' t)

/-- The work done between the times `a` and `b`, `∫ P : F' dt`. -/
def work (P F' : ℝ → Ten2 ℝ) (a b : ℝ) : ℝ := ∫ t in a..b, stressPower P F' t

/-- The work integral exists. -/
def WorkExists (P F' : ℝ → Ten2 ℝ) (a b : ℝ) : Prop :=
  IntervalIntegrable (stressPower P F') MeasureTheory.volume a b

end

end Spec
