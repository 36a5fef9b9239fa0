import Verif.Model.Rounding

/-!
# Model of the lab in floating-point arithmetic

The load cases, the normal force per undeformed area, the simulated curves of third-order-deformation
materials and the data of experiments, at one data point, with the operations in the order of the code.
-/

namespace Hel.Rnd

/-- `P[i, i] - P[j, j] * F[j, j] / F[i, i]` with the default axes; `lab/_load_case.py` line 67.  `divD` is the
division by `F[0, 0]`. -/
def loadStress {K : Type} [Arith K] (divD : K → K) (F P : Full2 K) : K := P 0 0 - divD (P 2 2 * F 2 2)

/-- A floating-point arithmetic with a square root. -/
structure RoundingSqrt extends Rounding where
  sqrt : ℝ → ℝ
  sqrt_error : ∀ x, 0 < x → |sqrt x - √x| ≤ u * √x

namespace RoundingSqrt

variable (R : RoundingSqrt)

/-- `Uniaxial.defgrad`; `lab/_load_case.py` lines 85-92. -/
def uniaxialDefgrad (stretch : ℝ) : Full2 ℝ :=
  let x := stretch
  let y := R.div 1 (R.sqrt stretch)
  let z := 0
  ![![x, z, z], ![z, y, z], ![z, z, y]]

/-- `Biaxial.defgrad`; `lab/_load_case.py` lines 110-117. -/
def biaxialDefgrad (stretch : ℝ) : Full2 ℝ :=
  let x := stretch
  let y := R.div 1 (R.sq stretch)
  let z := 0
  ![![x, z, z], ![z, x, z], ![z, z, y]]

/-- `Planar.defgrad`; `lab/_load_case.py` lines 135-143. -/
def planarDefgrad (stretch : ℝ) : Full2 ℝ :=
  let x := stretch
  let y := R.div 1 stretch
  let o := 1
  let z := 0
  ![![x, z, z], ![z, o, z], ![z, z, y]]

/-- `IncompressibleHomogeneousStretch.stress(F, P)`; `lab/_load_case.py` lines 41-67. -/
noncomputable def stress (F P : Full2 ℝ) : ℝ :=
  (Rnd.loadStress (R.divBy ⟨F 0 0⟩) (R.arr33 F) (R.arr33 P)).val

/-- One value of `Simulation.stress_curve_fit` for a third-order-deformation material in the deformation space;
`lab/_simulation.py` lines 107-117.  (`kwargs` and the construction of the material do not round.) -/
noncomputable def deformationCurve (defgrad : ℝ → Full2 ℝ) (p : TOD ℝ) (x : ℝ) : ℝ :=
  let F := defgrad x
  let P := R.deformationGradient p F
  R.stress F P

/-- One value of `Simulation.stress_curve_fit` for a third-order-deformation material in the distortional space;
`lab/_simulation.py` lines 107-117. -/
noncomputable def distortionalCurve (defgrad : ℝ → Full2 ℝ) (p : TOD ℝ) (x : ℝ) : ℝ :=
  let F := defgrad x
  let P := R.distortionalGradient p F
  R.stress F P

/-- One value of `Experiment.stretch = 1 + displacement / length`; `lab/_experiment.py` line 71. -/
def experimentStretch (length displacement : ℝ) : ℝ := R.add 1 (R.div displacement length)

/-- One value of `Experiment.stress() = force / area`; `lab/_experiment.py` lines 73-76. -/
def experimentStress (area force : ℝ) : ℝ := R.div force area

end RoundingSqrt

end Hel.Rnd
