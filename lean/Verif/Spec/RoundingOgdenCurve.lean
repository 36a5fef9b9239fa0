import Verif.Spec.RoundingStretches
import Verif.Spec.RoundingLab

/-!
# Specification vocabulary: errors of the simulated curves of Ogden materials
-/

namespace Spec

noncomputable section

/-- The squares of the principal stretches of the load case, also if they have a relative error `A - 1`, lie between `a`
and `b`. -/
def LoadKind.StretchesIn (k : LoadKind) (A a b l : ℝ) : Prop :=
  ∀ i, a ≤ ((2 - A) * k.F l i i) ^ 2 ∧ (A * k.F l i i) ^ 2 ≤ b

/-- The error of the normal force per undeformed area: `E` is the error of the computed derivatives of the energy, which are
at most `G` and have the Lipschitz constant `L`; `X` is the square of the stretch of the free surface, computed with the
relative error `A - 1`. -/
def ogdenCurveError (u A l X G L E : ℝ) : ℝ :=
  2 * (l + A ^ 2 * X / l) * ((1 + u) ^ 3 * (G + E) - G) + 2 * X / l * (A ^ 2 - 1) * (G + L * X)

/-- One plus a bound for the relative errors of the stretches without their change of volume. -/
def LoadKind.isoAccuracy (u : ℝ) (k : LoadKind) : ℝ := k.accuracy u / (2 - k.accuracy u)

/-- One plus a bound for the relative errors of the computed determinant of the right Cauchy-Green tensor, of its
reciprocal and of its power `-1/3`. -/
def LoadKind.detAccuracy (u : ℝ) (k : LoadKind) : ℝ :=
  (1 + u) ^ 2 * (1 / (2 - (1 + u) ^ 22)) ^ (1 + u) * k.isoAccuracy u ^ (2 * u)

/-- The squares of the principal stretches of the load case, also if they are changed by the factor `B` or its reciprocal,
lie between `a` and `b`. -/
def LoadKind.StretchesNear (k : LoadKind) (B a b l : ℝ) : Prop :=
  ∀ i, a ≤ (k.F l i i / B) ^ 2 ∧ (B * k.F l i i) ^ 2 ≤ b

/-- The error of the normal force per undeformed area in the distortional space. -/
def ogdenDistortionalCurveError (u B l b G L E : ℝ) : ℝ :=
  8 * b / l * ((1 + u) ^ 3 * (G + E) - G) + 4 * b / l * (B ^ 2 - 1) * (G + L * b)

end

end Spec
