import Verif.Spec.RoundingTangent

/-!
# Specification vocabulary: units of the errors of the tangents on the distortional and the dilatational space

The elasticity tensors with plus signs only, for derivatives of the energy whose components are all one: errors of the first
derivative enter with the first unit of each space, errors of the second derivative with the second one.
-/

namespace Spec

noncomputable section

/-- The elasticity tensor of the distortional space without the projected part, with plus signs only, for a first
derivative of the energy whose components are all one. -/
def distortionalTangentUnit (F : Ten2 ℝ) : Ten4 ℝ := fun i J k L =>
  let C := cauchyGreen (abs2 F)
  let S : Ten2 ℝ := fun _ _ => 2 * (cauchyGreen F).det ^ (-1 / 3 : ℝ)
  pushP F (fun I J K L =>
      2 / 3 * (contract22 S C * dyadSym (invP F) (invP F) I J K L + dyad S (invP F) I J K L +
        dyad (invP F) S I J K L + contract22 S C / 3 * dyad (invP F) (invP F) I J K L)) i J k L +
    dyadIK (1 : Ten2 ℝ) (S + (contract22 S C / 3) • invP F) i J k L

/-- The projected part for a second derivative whose components are all one. -/
def distortionalProjectedUnit (F : Ten2 ℝ) : Ten4 ℝ :=
  pushP F (projectP F fun _ _ _ _ => 4 * (cauchyGreen F).det ^ (-2 / 3 : ℝ))

/-- The terms of the elasticity tensor of the dilatational space with the first derivative of the energy. -/
def dilatationalTangentUnit (F : Ten2 ℝ) : Ten4 ℝ := fun i J k L =>
  let S : Ten2 ℝ := fun _ _ => 2 * (cauchyGreen F).det ^ (1 / 3 : ℝ)
  pushP F (fun I J K L =>
      2 * S.trace / 9 * dyad (invP F) (invP F) I J K L + 2 / 3 * S.trace * dyadSym (invP F) (invP F) I J K L) i J k L +
    dyadIK (1 : Ten2 ℝ) ((S.trace / 3) • invP F) i J k L

/-- The term with the second derivative. -/
def dilatationalProjectedUnit (F : Ten2 ℝ) : Ten4 ℝ :=
  pushP F fun I J K L => 4 * (cauchyGreen F).det ^ (2 / 3 : ℝ) * dyad (invP F) (invP F) I J K L

end

end Spec
