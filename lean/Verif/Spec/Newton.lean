import Verif.Spec.Prediction

/-!
# Specification vocabulary: Newton's method

`ret X P` reads "a call of `gradient` at `X` may return the stress `P`", `retH X A` "a call of
`hessian` at `X` may return the elasticity tensor `A`".  Nothing in this file refers to the model of
the code.
-/

namespace Spec

/-- `Y` is the next iterate after `X` when the deformation gradient with the stress `T` is sought: the
returned stress and the returned elasticity tensor satisfy `P + A : (Y - X) = T`. -/
def NewtonStep (ret : Ten2 ℝ → Ten2 ℝ → Prop) (retH : Ten2 ℝ → Ten4 ℝ → Prop) (T X Y : Ten2 ℝ) : Prop :=
  ∃ P A, ret X P ∧ retH X A ∧ ∀ i j, P i j + contract42 A (Y - X) i j = T i j

/-- The tangent is regular: no increment of the deformation gradient leaves the stress unchanged. -/
def Regular (A : Ten4 ℝ) : Prop := ∀ U : Ten2 ℝ, (∀ i j, contract42 A U i j = 0) → U = 0

/-- The tangent is bounded below: a change of the stress by at most `h` needs an increment of at most `K h`. -/
def BoundedBelow (K : ℝ) (A : Ten4 ℝ) : Prop := ∀ (U : Ten2 ℝ) (h : ℝ), (∀ i j, |contract42 A U i j| ≤ h) → ∀ i j, |U i j| ≤ K * h

/-- The tensors returned near `X` change at most proportionally to the distance. -/
def LipschitzResult (retH : Ten2 ℝ → Ten4 ℝ → Prop) (X : Ten2 ℝ) : Prop :=
  ∃ δ > 0, ∃ L, ∀ Y Y' A A' h, Near X Y δ → Near X Y' δ → Near Y Y' h → retH Y A → retH Y' A' →
    ∀ i j k l, |A' i j k l - A i j k l| ≤ L * h

/-- Small load steps from `F`, where the stress is `P`.  Close to `F` the stress determines the deformation gradient, which
depends Lipschitz continuously on it; every stress close to `P` is attained; and from every start close to `F` Newton's
iteration towards it goes on for ever in exactly one way and converges to the deformation gradient sought for: after `n` steps
there is exactly one next iterate, and the error is at most `2 r / 2ⁿ`. -/
def SmallLoadSteps (ret : Ten2 ℝ → Ten2 ℝ → Prop) (retH : Ten2 ℝ → Ten4 ℝ → Prop) (F P : Ten2 ℝ) : Prop :=
  ∃ r > 0, ∃ ε > 0, ∃ K,
    (∀ S S' T T' h, Near F S r → Near F S' r → ret S T → ret S' T' → Near T T' h → Near S S' (K * h)) ∧
    ∀ T, Near P T ε → ∃ S, Near F S r ∧ ret S T ∧
      ∀ (X : ℕ → Ten2 ℝ) n, Near F (X 0) r → (∀ k < n, NewtonStep ret retH T (X k) (X (k + 1))) →
        Near S (X n) (2 * r * (1 / 2) ^ n) ∧ ∃! Y, NewtonStep ret retH T (X n) Y

/-- A run of the incremental procedure along the load path `T` with `N` load steps and `m` Newton iterations in each of them:
`X k n` is the iterate after `n` iterations in the load step from `T (k / N)` to `T ((k + 1) / N)`; every load step starts where
the one before it ended. -/
def IncrementalRun (ret : Ten2 ℝ → Ten2 ℝ → Prop) (retH : Ten2 ℝ → Ten4 ℝ → Prop) (T : ℝ → Ten2 ℝ) (N m : ℕ)
    (X : ℕ → ℕ → Ten2 ℝ) : Prop :=
  (∀ k < N, ∀ n < m, NewtonStep ret retH (T ((k + 1) / N)) (X k n) (X k (n + 1))) ∧ ∀ k, k + 1 < N → X (k + 1) 0 = X k m

end Spec
