import Verif.Spec.Spectral

/-!
# Specification vocabulary: smoothness of stretch-based models

Used by the error bounds for unequal eigenvalues closer than numpy's tolerance.
-/

namespace Spec

open Hel Topology

variable {Z μ : Type}

/-- The second derivatives `∂²ψ/∂x_a ∂x_b` with respect to the squared stretches `x_a = λ_a²`,
from the first derivatives `g` and the second derivatives `h` with respect to the stretches `l`:
`h_ab / (4 λ_a λ_b) - δ_ab g_a / (4 λ_a³)`. -/
noncomputable def squaredHess (l g : Fin 3 → ℝ) (h : Fin 3 → Fin 3 → ℝ) (a b : Fin 3) : ℝ :=
  h a b / (4 * l a * l b) - if a = b then g a / (4 * l a ^ 3) else 0

/-- The squares of three positive numbers lie between `m` and `M`. -/
def SquaresIn (m M : ℝ) (x : Fin 3 → ℝ) : Prop := Positive x ∧ ∀ a, m ≤ x a ^ 2 ∧ x a ^ 2 ≤ M

/-- The second derivatives of a model with respect to the squared stretches are Lipschitz continuous
with constant `L` for squared stretches between `m` and `M`. -/
def StrMat.LipschitzHess (mat : StrMat Z μ) (z : Z) (m M L : ℝ) : Prop :=
  ∀ x y gx gy hx hy, SquaresIn m M x → SquaresIn m M y →
    StrMat.Grad mat z x gx → StrMat.Hess mat z x hx → StrMat.Grad mat z y gy → StrMat.Hess mat z y hy →
    ∀ d, (∀ c, |x c ^ 2 - y c ^ 2| ≤ d) →
    ∀ a b, |squaredHess x gx hx a b - squaredHess y gy hy a b| ≤ L * d

/-- A Lipschitz constant of the second derivatives of Ogden's energy with respect to the squared
stretches between `m` and `M`: the energy is `Σ_k 2 μ_k / α_k² Σ_a (x_a^(α_k/2) - 1)`, its third
derivatives are `μ_k / α_k (α_k/2 - 1) (α_k/2 - 2) x^(α_k/2 - 3)`. -/
noncomputable def ogdenLipschitz (mu alpha : List ℝ) (m M : ℝ) : ℝ :=
  ((mu.zip alpha).map fun p => |p.1 / p.2 * (p.2 / 2 - 1) * (p.2 / 2 - 2)| *
    (m ^ (p.2 / 2 - 3) + M ^ (p.2 / 2 - 3))).sum

/-- All eigenvalues of `C` lie between `m` and `M`. -/
def EigenvaluesIn (m M : ℝ) (C : Ten2 ℝ) : Prop := ∀ w v, Spectral C w v → ∀ a, m ≤ w a ∧ w a ≤ M

/-- The gradients a material returns along a motion through tensors in `dom` are differentiable, and the contraction of the
returned hessian with the velocity differs from their derivative by at most `e` times the velocity. -/
def ApproxHessian (dom : Ten2 ℝ → Prop) (ret : Ten2 ℝ → Ten2 ℝ → Prop) (retH : Ten2 ℝ → Ten4 ℝ → Prop) (e : ℝ) : Prop :=
  ∀ X X' t₀ (G : ℝ → Ten2 ℝ) H, (∀ᶠ t in 𝓝 t₀, dom (X t)) → Moves X X' t₀ →
    (∀ᶠ t in 𝓝 t₀, ret (X t) (G t)) → retH (X t₀) H →
    ∃ G', Moves G G' t₀ ∧ ∀ v, (∀ i j, |X' i j| ≤ v) → ∀ i j, |G' i j - contract42 H X' i j| ≤ e * v

/-- The model returns a hessian at all positive stretches. -/
def StrMat.TotalHess (mat : StrMat Z μ) (z : Z) : Prop := ∀ x, Positive x → ∃ h, StrMat.Hess mat z x h

end Spec
