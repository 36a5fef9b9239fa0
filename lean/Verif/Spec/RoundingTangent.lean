import Verif.Spec.RoundingStretches

/-!
# Specification vocabulary: errors of the tangents of stretch-based materials

The tangent contains divided differences of the derivative of the energy, whose rounding errors are multiplied by the
reciprocal of the difference of two squared stretches.  Below a tolerance the code replaces them by derivatives.
-/

namespace Spec

noncomputable section

/-- The second derivative of Ogden's energy with respect to a squared stretch `x`. -/
def ogdenRate2 (mu alpha : List ℝ) (x : ℝ) : ℝ :=
  ((mu.zip alpha).map fun p => p.1 / p.2 * ((p.2 - 2) / 2) * x ^ ((p.2 - 4) / 2)).sum

/-- The two terms of the second derivative, as computed by the code, with plus signs only. -/
def ogdenRate2P (mu alpha : List ℝ) (x : ℝ) : ℝ :=
  ((mu.zip alpha).map fun p => |p.1 / p.2| * ((|p.2 - 1| + 1) / 2) * x ^ ((p.2 - 4) / 2)).sum

/-- One plus a bound for the relative error of the computed power `λ ** (α - 2)` of the root `λ` of `x`. -/
def ogdenFactor2 (u α x : ℝ) : ℝ :=
  (1 + u) ^ 2 * (1 / (1 - u)) ^ ((1 + u) * |α - 2|) * Real.exp (u * |α - 2| * |Real.log x| / 2)

/-- Constants of an Ogden material for squared stretches between `a` and `b`, in addition to those of `OgdenBounds`: a
bound `D` and a Lipschitz constant `L₂` of the second derivative of the energy. -/
structure OgdenTangentBounds (u ε : ℝ) (mu alpha : List ℝ) (a b L G q D L₂ : ℝ) : Prop
    extends OgdenBounds u ε mu alpha a b L G q where
  small2 : (1 + u) ^ 5 < 2
  reciprocal2 : 1 / (2 - (1 + u) ^ 5) ≤ q
  power2 : ∀ α ∈ alpha, ∀ x ∈ Set.Icc a b, ogdenFactor2 u α x ≤ q
  bound2 : ∀ x ∈ Set.Icc a b, ogdenRate2P mu alpha x ≤ D
  nonneg2 : 0 ≤ L₂
  lipschitz2 : ∀ x ∈ Set.Icc a b, ∀ y ∈ Set.Icc a b, |ogdenRate2 mu alpha x - ogdenRate2 mu alpha y| ≤ L₂ * |x - y|

/-- The relative error of the computed first and second derivatives of the energy, a sum of `n` terms. -/
def coefError (u q : ℝ) (n : ℕ) : ℝ := q ^ 3 * (1 + u) ^ (n + 7) - 1

/-- The error of the coefficients of the tangent which are divided differences: either the rounding errors `e` are
multiplied by the reciprocal of the tolerance `τ`, or the divided difference is replaced by a derivative. -/
def crossError (u e τ b G D L₂ : ℝ) : ℝ :=
  (1 + u) * (2 * e * (G + b * D) / τ + e * D) + u * D + L₂ * (τ + 2 * e * b)

/-- The error of the components of the tangent at given principal stretches: `Q` is one plus the relative error of the
sum over the eigenbases, `x` the error of the coefficients. -/
def tangentError (Q x D : ℝ) : ℝ := (Q - 1) * (9 * (D + x)) + x

end

end Spec
