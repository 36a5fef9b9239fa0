import Verif.Spec.Kinematics

/-!
# Specification vocabulary: the order of principal stresses

Nothing in this file refers to the model of the code.
-/

namespace Spec
open Matrix

/-- The Baker-Ericksen inequalities (weak form) of a deformation gradient `F` and a stress `σ` on the deformed configuration:
of two principal directions of the deformation, unit eigenvectors `u` and `v` of `F Fᵀ` with the squared principal
stretches `x ≤ y`, the one with the larger stretch carries the larger normal stress. -/
def PrincipalOrder (F σ : Ten2 ℝ) : Prop := ∀ (u v : Fin 3 → ℝ) (x y : ℝ), u ⬝ᵥ u = 1 → v ⬝ᵥ v = 1 →
  (F * Fᵀ) *ᵥ u = x • u → (F * Fᵀ) *ᵥ v = y • v → x ≤ y → u ⬝ᵥ (σ *ᵥ u) ≤ v ⬝ᵥ (σ *ᵥ v)

end Spec
