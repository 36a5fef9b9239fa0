import Verif.Spec.Api
import Verif.Spec.Energies

/-!
# Specification vocabulary: spectral decompositions and symmetric models
-/

namespace Spec

open Hel

variable {Z μ : Type}

/-- `C = Σ_a w_a v_a ⊗ v_a` with the orthonormal columns `v_a` of `v`. -/
structure Spectral (C : Ten2 ℝ) (w : Fin 3 → ℝ) (v : Ten2 ℝ) : Prop where
  orthogonal : Orthogonal v
  sum : ∀ i j, C i j = ∑ a, w a * (v i a * v j a)

/-- The eigen-solver returns a spectral decomposition of every symmetric matrix: any order of
the eigenvalues, any sign of the vectors, any basis of a repeated eigenspace, and possibly
different choices at neighbouring matrices. -/
def EighValid (lapack : Eigh) : Prop :=
  ∀ C : Ten2 ℝ, C.IsSymm → Spectral C (lapack C).1 (lapack C).2

/-- The eigenvalues are returned in ascending order (as LAPACK does). -/
def EighAscending (lapack : Eigh) : Prop :=
  ∀ C : Ten2 ℝ, C.IsSymm → (lapack C).1 0 ≤ (lapack C).1 1 ∧ (lapack C).1 1 ≤ (lapack C).1 2

/-- `Ψ` is the isotropic energy with `Ψ(C) = ψ(λ_1, λ_2, λ_3)`, the `λ_a` being the roots of the
eigenvalues of `C` in any order. -/
def EnergyOfStretches (ψ : (Fin 3 → ℝ) → ℝ) (Ψ : Ten2 ℝ → ℝ) : Prop :=
  ∀ C w v, PosDef C → Spectral C w v → Ψ C = ψ fun a => Real.sqrt (w a)

/-- The eigenvalues of `C` are pairwise equal or differ by more than numpy's absolute tolerance
`1e-8`. -/
def Separated (C : Ten2 ℝ) : Prop :=
  ∀ w v, Spectral C w v → ∀ a b, w a = w b ∨ 1 / 10 ^ 8 < |w a - w b|

/-- The gradient of the model treats the three stretches alike: a call with permuted stretches, on
the same object in the same state, returns the permuted derivatives and the same state variables. -/
def StrMat.Symmetric (mat : StrMat Z μ) : Prop :=
  ∀ (p : Equiv.Perm (Fin 3)) x z s g z', Returns (mat.gradient x z) s (g, z') →
    Returns (mat.gradient (x ∘ p) z) s (g ∘ p, z')

/-- The same for the hessian when it is called after the gradient at the same stretches. -/
def StrMat.SymmetricHess (mat : StrMat Z μ) : Prop :=
  ∀ (p : Equiv.Perm (Fin 3)) x z z' s h, Returns (mat.hessian x z') (mat.gradient x z s).2 h →
    ∃ h', Returns (mat.hessian (x ∘ p) z') (mat.gradient (x ∘ p) z s).2 h' ∧
      ∀ a b, StrHess.mat h' a b = StrHess.mat h (p a) (p b)

/-- The model returns a gradient at all positive stretches. -/
def StrMat.Total (mat : StrMat Z μ) (z : Z) : Prop := ∀ x, Positive x → ∃ g, StrMat.Grad mat z x g

end Spec
