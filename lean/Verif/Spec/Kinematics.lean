import Verif.Spec.Calculus
import Mathlib.Analysis.SpecialFunctions.Pow.Real

/-!
# Specification vocabulary: kinematics

Nothing in this file refers to the model of the code.
-/

namespace Spec
open Matrix

noncomputable section

/-- Right Cauchy-Green deformation tensor `C = Fᵀ F`. -/
def cauchyGreen (F : Ten2 ℝ) : Ten2 ℝ := Fᵀ * F

/-- Distortional (unimodular) part `I3^(-1/3) C`. -/
def unimodular (C : Ten2 ℝ) : Ten2 ℝ := C.det ^ (-1 / 3 : ℝ) • C

/-- Dilatational (volumetric) part `I3^(1/3) I`. -/
def dilatational (C : Ten2 ℝ) : Ten2 ℝ := C.det ^ (1 / 3 : ℝ) • (1 : Ten2 ℝ)

/-- `J⁻¹ P Fᵀ`: the stress with the area in the deformed configuration; the Cauchy stress if
`J = det F`. -/
def pushArea (F P : Ten2 ℝ) (J : ℝ) : Ten2 ℝ := J⁻¹ • (P * Fᵀ)

/-- `J⁻¹ A_iJkL F_jJ F_lL`. -/
def pushArea4 (F : Ten2 ℝ) (A : Ten4 ℝ) (J : ℝ) : Ten4 ℝ := fun i j k l =>
  J⁻¹ * ∑ J, ∑ L, F j J * F l L * A i J k L

/-- `F_iI F_kK A_IJKL`: push-forward of the two force indices. -/
def pushForce4 (F : Ten2 ℝ) (A : Ten4 ℝ) : Ten4 ℝ := fun i J k L =>
  ∑ I, ∑ K, F i I * F k K * A I J K L

end

end Spec
