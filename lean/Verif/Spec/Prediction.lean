import Verif.Spec.Calculus

/-!
# Specification vocabulary: prediction of nearby values and continuity

Elementary statements on finite increments, uniform in their direction.  Nothing in this file
refers to the model of the code.
-/

namespace Spec

/-- All entries of two tensors differ by at most `h`. -/
def Near (X Y : Ten2 ℝ) (h : ℝ) : Prop := ∀ i j, |Y i j - X i j| ≤ h

/-- All tensors close to `X` are in `dom`. -/
def Inside (dom : Ten2 ℝ → Prop) (X : Ten2 ℝ) : Prop := ∃ ρ > 0, ∀ Y, Near X Y ρ → dom Y

/-- `P` predicts the change of the energy `ψ` to first order, for all increments at once:
`ψ(Y) = ψ(X) + P : (Y - X) + o(‖Y - X‖)`. -/
def PredictsEnergy (ψ : Ten2 ℝ → ℝ) (X P : Ten2 ℝ) : Prop :=
  ∀ ε > 0, ∃ δ > 0, ∀ h ≤ δ, ∀ Y, Near X Y h → |ψ Y - ψ X - contract22 P (Y - X)| ≤ ε * h

/-- `A` predicts the change of the stress to first order, for all increments at once: whatever
stress `P'` is returned at `Y`, `P' = P + A : (Y - X) + o(‖Y - X‖)`. -/
def PredictsStress (ret : Ten2 ℝ → Ten2 ℝ → Prop) (X P : Ten2 ℝ) (A : Ten4 ℝ) : Prop :=
  ∀ ε > 0, ∃ δ > 0, ∀ h ≤ δ, ∀ Y P', Near X Y h → ret Y P' →
    ∀ i j, |P' i j - P i j - contract42 A (Y - X) i j| ≤ ε * h

/-- What is returned close to `X` is close to what is returned at `X`. -/
def ContinuousResult (ret : Ten2 ℝ → Ten2 ℝ → Prop) (X : Ten2 ℝ) : Prop :=
  ∀ P, ret X P → ∀ ε > 0, ∃ δ > 0, ∀ Y P', Near X Y δ → ret Y P' → Near P P' ε

end Spec
