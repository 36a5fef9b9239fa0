import Verif.Spec.Tensor
import Mathlib.Analysis.Calculus.Deriv.Basic
import Mathlib.Analysis.Calculus.Deriv.Add
import Mathlib.Analysis.Calculus.Deriv.Mul

/-!
# Specification vocabulary: derivatives

"Is the derivative of" for functions of three numbers (invariants, principal stretches) and
of a tensor, stated along every differentiable motion.  `ret x g` reads "a call at `x` may
return `g`"; the statements below are required of everything that may be returned.
Nothing in this file refers to the model of the code.
-/

namespace Spec

open Filter Topology

/-- `x` moves with velocity `x'` at time `t₀` (entry by entry). -/
def Moves3 (x : ℝ → Fin 3 → ℝ) (x' : Fin 3 → ℝ) (t₀ : ℝ) : Prop :=
  ∀ a, HasDerivAt (fun t => x t a) (x' a) t₀

/-- The tensor `X` moves with velocity `X'` at time `t₀` (entry by entry). -/
def Moves (X : ℝ → Ten2 ℝ) (X' : Ten2 ℝ) (t₀ : ℝ) : Prop :=
  ∀ i j, HasDerivAt (fun t => X t i j) (X' i j) t₀

/-- Whatever is returned at a point of `dom` is the gradient of `ψ` there: along every motion
of three numbers inside `dom`, `dψ/dt = Σ_a g_a x'_a`. -/
def IsGradient3 (dom : (Fin 3 → ℝ) → Prop) (ψ : (Fin 3 → ℝ) → ℝ)
    (ret : (Fin 3 → ℝ) → (Fin 3 → ℝ) → Prop) : Prop :=
  ∀ x x' t₀ g, (∀ᶠ t in 𝓝 t₀, dom (x t)) → Moves3 x x' t₀ → ret (x t₀) g →
    HasDerivAt (fun t => ψ (x t)) (∑ a, g a * x' a) t₀

/-- Whatever `retH` returns is the derivative of what `ret` returns: along every motion,
`dg_a/dt = Σ_b h_ab x'_b`. -/
def IsHessian3 (dom : (Fin 3 → ℝ) → Prop) (ret : (Fin 3 → ℝ) → (Fin 3 → ℝ) → Prop)
    (retH : (Fin 3 → ℝ) → (Fin 3 → Fin 3 → ℝ) → Prop) : Prop :=
  ∀ x x' t₀ (g : ℝ → Fin 3 → ℝ) h, (∀ᶠ t in 𝓝 t₀, dom (x t)) → Moves3 x x' t₀ →
    (∀ᶠ t in 𝓝 t₀, ret (x t) (g t)) → retH (x t₀) h →
    ∀ a, HasDerivAt (fun t => g t a) (∑ b, h a b * x' b) t₀

/-- Whatever is returned at a tensor in `dom` is the gradient of `ψ` there:
`dψ/dt = G : X'` along every motion inside `dom`. -/
def IsGradient (dom : Ten2 ℝ → Prop) (ψ : Ten2 ℝ → ℝ) (ret : Ten2 ℝ → Ten2 ℝ → Prop) : Prop :=
  ∀ X X' t₀ G, (∀ᶠ t in 𝓝 t₀, dom (X t)) → Moves X X' t₀ → ret (X t₀) G →
    HasDerivAt (fun t => ψ (X t)) (contract22 G X') t₀

/-- Whatever `retH` returns is the derivative of what `ret` returns: `dG/dt = H : X'` along
every motion inside `dom`. -/
def IsHessian (dom : Ten2 ℝ → Prop) (ret : Ten2 ℝ → Ten2 ℝ → Prop)
    (retH : Ten2 ℝ → Ten4 ℝ → Prop) : Prop :=
  ∀ X X' t₀ (G : ℝ → Ten2 ℝ) H, (∀ᶠ t in 𝓝 t₀, dom (X t)) → Moves X X' t₀ →
    (∀ᶠ t in 𝓝 t₀, ret (X t) (G t)) → retH (X t₀) H →
    ∀ i j, HasDerivAt (fun t => G t i j) (contract42 H X' i j) t₀

/-- The three principal invariants of a tensor. -/
noncomputable def invariants (C : Ten2 ℝ) : Fin 3 → ℝ := ![C.trace, inv2 C, C.det]

/-- Symmetric and invertible. -/
def SymInv (C : Ten2 ℝ) : Prop := C.IsSymm ∧ C.det ≠ 0

end Spec
