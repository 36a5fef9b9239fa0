import Verif.Spec.Fit

/-!
# Specification vocabulary: increasing load curves
-/

namespace Spec
open Hel

noncomputable section

variable {Z : Type}

/-- Whatever positive stretches are simulated: the larger the stretch, the larger the stress, for
every pair of stretches in the data. -/
def IncreasingCurve (sim : Simulation Z) (p : List ℝ) : Prop :=
  ∀ x : List ℝ, x ≠ [] → (∀ l ∈ x, 0 < l) → ∃ y, sim.stressCurveFit x p = .ok y ∧ y.length = x.length ∧
    ∀ i j (hi : i < x.length) (hj : j < x.length), x[i] < x[j] → y.getD i 0 < y.getD j 0

/-- The exponents of Ogden's model for which one term gives an increasing curve. -/
def LoadKind.Admits : LoadKind → ℝ → Prop
  | .uniaxial, alpha => 1 ≤ alpha ∨ alpha ≤ -2
  | .planar, alpha => 1 ≤ alpha ∨ alpha ≤ -1
  | .biaxial, alpha => 1 ≤ alpha ∨ alpha ≤ -(1 / 2)

end

end Spec
