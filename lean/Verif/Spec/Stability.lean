import Verif.Spec.Kinematics

/-!
# Specification vocabulary: monotone stresses and convex energies

Nothing in this file refers to the model of the code.
-/

namespace Spec
open Matrix

/-- The energy lies above its tangents: `ψ(G) ≥ ψ(F) + P : (G - F)` for any two invertible deformation gradients, `P`
being the stress returned at `F`. -/
def ConvexEnergy (ψ : Ten2 ℝ → ℝ) (ret : Ten2 ℝ → Ten2 ℝ → Prop) : Prop := ∀ F G P,
  F.det ≠ 0 → G.det ≠ 0 → ret F P → ψ F + contract22 P (G - F) ≤ ψ G

/-- The stress does not decrease: `(P(G) - P(F)) : (G - F) ≥ 0` for any two invertible deformation gradients. -/
def MonotoneStress (ret : Ten2 ℝ → Ten2 ℝ → Prop) : Prop := ∀ F G P P',
  F.det ≠ 0 → G.det ≠ 0 → ret F P → ret G P' → 0 ≤ contract22 (P' - P) (G - F)

/-- The energy lies above its tangents along the dyads `a ⊗ b`: a simple shear, a stretch in one direction or a combination of
both is superposed on `F`, without turning the material inside out. -/
def RankOneConvexEnergy (ψ : Ten2 ℝ → ℝ) (ret : Ten2 ℝ → Ten2 ℝ → Prop) : Prop := ∀ F a b P,
  0 < F.det * (F + vecMulVec a b).det → ret F P → ψ F + contract22 P (vecMulVec a b) ≤ ψ (F + vecMulVec a b)

/-- The traction does not decrease along the dyads: the component of `P b` in the direction of `a` is not smaller at
`F + a ⊗ b` than at `F`. -/
def RankOneMonotoneStress (ret : Ten2 ℝ → Ten2 ℝ → Prop) : Prop := ∀ F a b P P',
  0 < F.det * (F + vecMulVec a b).det → ret F P → ret (F + vecMulVec a b) P' → a ⬝ᵥ (P *ᵥ b) ≤ a ⬝ᵥ (P' *ᵥ b)

/-- The Legendre-Hadamard condition: `A_iJkL a_i b_J a_k b_L ≥ 0`, plane waves have nonnegative squared speeds. -/
def LegendreHadamard (A : Ten4 ℝ) : Prop := ∀ a b : Fin 3 → ℝ, 0 ≤ ∑ i, ∑ J, ∑ k, ∑ L, A i J k L * a i * b J * a k * b L

end Spec
