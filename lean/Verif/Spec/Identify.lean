import Verif.Spec.Api

/-!
# Specification vocabulary: materials which cannot be distinguished
-/

namespace Spec
open Hel

/-- Two Ogden materials respond equally: in all three spaces, with all options, with every
eigenvalue solver, at every deformation gradient and after every history of calls the two methods
return the same stress and the same elasticity (or raise the same exception). -/
def SameResponse (m m' : Ogden) : Prop := ∀ (sp : Space) (cfg : SpaceCfg) (lapack : Eigh) (F : Ten2 ℝ) (z : Unit)
    (s : sp.St (StrSt Unit)),
  (sp.obj cfg (Stretches.material lapack m.mat)).gradient F z s =
    (sp.obj cfg (Stretches.material lapack m'.mat)).gradient F z s ∧
  (sp.obj cfg (Stretches.material lapack m.mat)).hessian F z s =
    (sp.obj cfg (Stretches.material lapack m'.mat)).hessian F z s

/-- Each modulus has an exponent, the moduli and exponents are nonzero and no exponent occurs twice. -/
def ProperOgden (mu alpha : List ℝ) : Prop :=
  mu.length = alpha.length ∧ (∀ m ∈ mu, m ≠ 0) ∧ (∀ a ∈ alpha, a ≠ 0) ∧ alpha.Nodup

end Spec
