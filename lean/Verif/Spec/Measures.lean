import Verif.Model.StretchModels
import Verif.Spec.Calculus

/-!
# Specification vocabulary: one-dimensional strain measures and generalized invariants

The documented normalized invariants of a strain measure (docstring of
`GeneralizedInvariantsModel`, `_generalized_invariants.py` lines 16-90), as functions of the
measure `f` and of its derivatives at the undeformed state.
-/

namespace Spec
open Hel

noncomputable section

/-- The strain-stretch relation `S` returns the values, first and second derivatives of `f`. -/
structure Measures (S : StrainFun) (f : ℝ → ℝ) : Prop where
  value : ∀ x, 0 < x → (S.eval x).E = f x
  first : ∀ x, 0 < x → HasDerivAt f (S.eval x).dE x
  second : ∀ x, 0 < x → HasDerivAt (fun y => (S.eval y).dE) (S.eval x).d2E x
  one : ∀ m, S.at1 = .ok m → m = S.eval 1

/-- `J''_{1,0}` from the derivatives of the measure at the undeformed state. -/
def ddJ1 (e' e'' : ℝ) : ℝ := 3 / 2 * (e'' + e')
/-- `J''_{2,0}` -/
def ddJ2 (e e' e'' : ℝ) : ℝ := 3 / 2 * (2 * e * (e'' + e') - e' ^ 2)

/-- The documented invariants `I_1 = c_1 (J_1 - J_{1,0}) + J_{1,0}` etc. of the measure `f`. -/
def genInvariants (f : ℝ → ℝ) (c1 c2 : ℝ) (l : Fin 3 → ℝ) : Fin 3 → ℝ :=
  ![c1 * (f (l 0) + f (l 1) + f (l 2) - 3 * f 1) + 3 * f 1,
    c2 * (f (l 0) * f (l 1) + f (l 1) * f (l 2) + f (l 0) * f (l 2) - 3 * f 1 ^ 2) + 3 * f 1 ^ 2,
    f (l 0) * f (l 1) * f (l 2)]

/-- Positive stretches whose normalized invariants are in the domain `D`. -/
def GenDom (D : (Fin 3 → ℝ) → Prop) (f : ℝ → ℝ) (c1 c2 : ℝ) (l : Fin 3 → ℝ) : Prop :=
  (∀ a, 0 < l a) ∧ D (genInvariants f c1 c2 l)

/-- Documented coefficients: reference values (Green-Lagrange or right Cauchy-Green at the
undeformed state) over the values of the measure. -/
def coef1 (S : StrainFun) : ℝ :=
  ddJ1 (S.eval 1).dE0 (S.eval 1).d2E0 / ddJ1 (S.eval 1).dE (S.eval 1).d2E
/-- The second coefficient. -/
def coef2 (S : StrainFun) : ℝ :=
  ddJ2 (S.eval 1).E0 (S.eval 1).dE0 (S.eval 1).d2E0 / ddJ2 (S.eval 1).E (S.eval 1).dE (S.eval 1).d2E

end

end Spec
