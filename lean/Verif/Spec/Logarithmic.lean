import Verif.Spec.Energies
import Verif.Model.StretchModels

/-! # Specification: materials in the logarithmic strain -/

namespace Spec
open Hel

noncomputable section

/-- The logarithmic strain of the distortional part: `ln λ_a` less its mean. -/
def logStrain (l : Fin 3 → ℝ) (a : Fin 3) : ℝ :=
  Real.log (l a) - (Real.log (l 0) + Real.log (l 1) + Real.log (l 2)) / 3

/-- The sum of the squares of the three strains. -/
def logSquare (l : Fin 3 → ℝ) : ℝ := logStrain l 0 ^ 2 + logStrain l 1 ^ 2 + logStrain l 2 ^ 2

/-- The energy of the third-order deformation in the invariants of the logarithmic strain, normalized like the
right Cauchy-Green tensor (`strain = false`) or like the Green-Lagrange strain (`strain = true`). -/
def logEnergy (c : Fin 5 → ℝ) (strain : Bool) (l : Fin 3 → ℝ) : ℝ :=
  if strain then todEnergy (c 0) (c 1) (c 2) (c 3) (c 4) 0 ![logSquare l, -logSquare l / 2, 0]
  else todEnergy (c 0) (c 1) (c 2) (c 3) (c 4) 3 ![3 + 2 * logSquare l, 3 + 2 * logSquare l, 0]

/-- The measures of the package with the exponent `k`. -/
def packageMeasure (strain : Bool) (k : ℝ) : StrainFun := if strain then strainFun k else deformationFun k

end

end Spec
