import Verif.Spec.Calculus
import Mathlib.Analysis.SpecialFunctions.Pow.Deriv

/-!
# Specification vocabulary: documented strain energies and strain measures

Nothing in this file refers to the model of the code.
-/

namespace Spec

noncomputable section

/-- Docstring of `ThirdOrderDeformation`: `ψ = Σ C_ij (I1 - r)^i (I2 - r)^j` for
`ij ∈ {10, 01, 11, 20, 30}`, `r` the value of the invariants in the undeformed state. -/
def todEnergy (C10 C01 C11 C20 C30 r : ℝ) (x : Fin 3 → ℝ) : ℝ :=
  C10 * (x 0 - r) + C01 * (x 1 - r) + C11 * (x 0 - r) * (x 1 - r) + C20 * (x 0 - r) ^ 2 +
    C30 * (x 0 - r) ^ 3

/-- Docstring of `Ogden`: `ψ = Σ_k 2 μ_k / α_k² Σ_a (λ_a^α_k - 1)`. -/
def ogdenEnergy (mu alpha : List ℝ) (l : Fin 3 → ℝ) : ℝ :=
  ((mu.zip alpha).map fun p => 2 * p.1 / p.2 ^ 2 * ∑ a, (l a ^ p.2 - 1)).sum

/-- Docstring of `strain`: `E(λ) = (λ^k - 1) / k`. -/
def sethHill (k l : ℝ) : ℝ := (l ^ k - 1) / k

/-- Docstring of `deformation`: `C(λ) = λ^k`. -/
def power (k l : ℝ) : ℝ := l ^ k

/-- All three numbers are positive. -/
def Positive (l : Fin 3 → ℝ) : Prop := ∀ a, 0 < l a

end

end Spec
