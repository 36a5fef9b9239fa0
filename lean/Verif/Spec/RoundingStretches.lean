import Verif.Spec.Rounding
import Verif.Spec.Spectral
import Mathlib.Analysis.SpecialFunctions.Pow.Real

/-!
# Specification vocabulary: errors of stretch-based materials

The eigenvalue solver works in floating-point arithmetic, too.  What is assumed about it is that it is backward
stable, as LAPACK is: it returns the decomposition of a neighbouring matrix.
-/

namespace Spec

noncomputable section

/-- The Frobenius norm. -/
def frob (A : Ten2 ℝ) : ℝ := √(∑ i, ∑ j, A i j ^ 2)

/-- `w`, `v` are computed by a backward stable solver: up to `ε`, they are the eigenvalues and the eigenvectors of
a matrix which differs from `C` by `ε` times its norm. -/
def EighAccurate (ε : ℝ) (C : Ten2 ℝ) (w : Fin 3 → ℝ) (v : Ten2 ℝ) : Prop :=
  ∃ B V : Ten2 ℝ, Spectral B w V ∧ frob (B - C) ≤ ε * frob C ∧ ∀ i a, |v i a - V i a| ≤ ε

/-- The eigenvalues of `C` lie between `a` and `b`. -/
def SpectrumIn (C : Ten2 ℝ) (a b : ℝ) : Prop :=
  ∀ x : Fin 3 → ℝ, a * ∑ i, x i ^ 2 ≤ ∑ i, ∑ j, x i * C i j * x j ∧
    ∑ i, ∑ j, x i * C i j * x j ≤ b * ∑ i, x i ^ 2

/-- The derivative of Ogden's energy with respect to a squared stretch `x`. -/
def ogdenRate (mu alpha : List ℝ) (x : ℝ) : ℝ := ((mu.zip alpha).map fun p => p.1 / p.2 * x ^ ((p.2 - 2) / 2)).sum

/-- The same with plus signs only. -/
def ogdenRateP (mu alpha : List ℝ) (x : ℝ) : ℝ := ((mu.zip alpha).map fun p => |p.1 / p.2| * x ^ ((p.2 - 2) / 2)).sum

/-- One plus a bound for the relative error of the computed power `λ ** (α - 1)` of the root `λ` of `x`. -/
def ogdenFactor (u α x : ℝ) : ℝ :=
  (1 + u) ^ 2 * (1 / (1 - u)) ^ ((1 + u) * |α - 1|) * Real.exp (u * |α - 1| * |Real.log x| / 2)

/-- Constants of an Ogden material for squared stretches between `a` and `b`: a Lipschitz constant `L` and a bound
`G` of the derivative of the energy, and one plus a bound of the relative errors of the powers, of the reciprocals and of
the eigenvectors. -/
structure OgdenBounds (u ε : ℝ) (mu alpha : List ℝ) (a b L G q : ℝ) : Prop where
  pos : 0 < a
  small : (1 + u) ^ 2 < 2
  nonneg : 0 ≤ L
  lipschitz : ∀ x ∈ Set.Icc a b, ∀ y ∈ Set.Icc a b, |ogdenRate mu alpha x - ogdenRate mu alpha y| ≤ L * |x - y|
  bound : ∀ x ∈ Set.Icc a b, ogdenRateP mu alpha x ≤ G
  power : ∀ α ∈ alpha, ∀ x ∈ Set.Icc a b, ogdenFactor u α x ≤ q
  reciprocal : 1 / (2 - (1 + u) ^ 2) ≤ q
  vectors : 1 + ε ≤ q

/-- The first Piola-Kirchhoff stress in the distortional space with plus signs only, for a derivative of the energy
whose components are all one; the exact determinant is used. -/
def distortionalUnit (F : Ten2 ℝ) : Ten2 ℝ :=
  let C := cauchyGreen (abs2 F)
  let d := (cauchyGreen F).det
  let S : Ten2 ℝ := fun _ _ => 2 * d ^ (-1 / 3 : ℝ)
  abs2 F * (S + (contract22 S C / 3 / d) • cofP C)

/-- The same in the dilatational space. -/
def dilatationalUnit (F : Ten2 ℝ) : Ten2 ℝ :=
  let C := cauchyGreen (abs2 F)
  let d := (cauchyGreen F).det
  let S : Ten2 ℝ := fun _ _ => 2 * d ^ (1 / 3 : ℝ)
  abs2 F * ((S.trace / 3 / d) • cofP C)

end

end Spec
