import Verif.Spec.Api
import Verif.Spec.Kinematics

/-!
# Specification vocabulary: material symmetry of the elasticity
-/

namespace Spec
open Hel

variable {Z μ : Type}

/-- The hessian of the framework rotates with its argument: a call with `Q C Qᵀ` returns the rotated
tensor if the call with `C`, on the same object in the same state, returns `H`. -/
def Material.IsotropicHess (mat : Material ℝ Z μ) (z : Z) : Prop :=
  ∀ (Q C : Ten2 ℝ) (H : Ten4 ℝ) c c' h m, Orthogonal Q → PosDef C → Stores c C → Stores c' (rotate Q C) →
    Stores4 h H → Returns (mat.hessian c z) m h →
    ∃ h', Stores4 h' (rotate4 Q H) ∧ Returns (mat.hessian c' z) m h'

/-- The hessian of the material at the distortional part of `F`, scaled as in the distortional
space, is zero or has a component above numpy's absolute tolerance. -/
def AboveTolerance (mat : Material ℝ Z μ) (z : Z) (F : Ten2 ℝ) : Prop :=
  ∀ H, Material.Hess mat z (unimodular (cauchyGreen F)) H → H = 0 ∨
    ∃ i j k l, 1 / 10 ^ 8 < |4 * (cauchyGreen F).det ^ (-2 / 3 : ℝ) * H i j k l|

/-- The tensor which describes the elasticity after a rotation of the reference configuration: the
second and the fourth index are the material ones. -/
def turnMaterial (Q : Ten2 ℝ) (A : Ten4 ℝ) : Ten4 ℝ := fun i J k L => ∑ M, ∑ N, A i M k N * Q M J * Q N L

end Spec
