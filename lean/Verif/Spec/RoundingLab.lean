import Verif.Spec.Rounding
import Verif.Spec.Lab
import Verif.Model.RoundingLab

/-!
# Specification vocabulary: errors of the simulated curves
-/

namespace Spec
open Hel Rnd

namespace LoadKind

/-- The deformation gradient as computed by the load case object. -/
def computedF (R : RoundingSqrt) : LoadKind → ℝ → Full2 ℝ
  | uniaxial => R.uniaxialDefgrad
  | planar => R.planarDefgrad
  | biaxial => R.biaxialDefgrad

/-- One plus a bound for the relative errors of the components of the computed deformation gradient. -/
noncomputable def accuracy (u : ℝ) : LoadKind → ℝ
  | uniaxial => (1 + u) / (1 - u)
  | planar => 1 + u
  | biaxial => (1 + u) / (2 - (1 + u) ^ 2)

/-- One plus a bound for the relative errors of the computed determinant of the right Cauchy-Green tensor, of its
reciprocal and of its power `-1/3`. -/
noncomputable def powAccuracy (u : ℝ) (k : LoadKind) : ℝ :=
  (1 + u) ^ 2 * (1 / (2 - k.accuracy u ^ 6 * (1 + u) ^ 22)) ^ (1 + u)

end LoadKind

/-- The normal force per undeformed area with a plus sign. -/
noncomputable def normalForceP (F P : Ten2 ℝ) : ℝ := P 0 0 + P 2 2 * F 2 2 / F 0 0

end Spec
