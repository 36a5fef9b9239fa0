import Verif.Spec.Api
import Verif.Spec.Kinematics

/-!
# Specification vocabulary: simple shear
-/

namespace Spec

/-- The deformation gradient of simple shear by the amount `γ`: `x = X + γ Y`. -/
def simpleShear (γ : ℝ) : Ten2 ℝ := !![1, γ, 0; 0, 1, 0; 0, 0, 1]

end Spec
