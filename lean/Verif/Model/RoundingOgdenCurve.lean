import Verif.Model.RoundingStretches

/-!
# Model of the simulated curves of Ogden materials in floating-point arithmetic

One data point of `Simulation.stress_curve_fit` for `DeformationSpace(Stretches(Ogden(mu, alpha)))` and
`DistortionalSpace(Stretches(Ogden(mu, alpha)))`.
-/

namespace Hel.Rnd.RoundingSqrt

variable (R : RoundingSqrt)

/-- One value of `Simulation.stress_curve_fit` for an Ogden material in the deformation space;
`lab/_simulation.py` lines 107-117.  (`kwargs` and the construction of the material do not round.) -/
noncomputable def ogdenDeformationCurve (lapack : Eigh) (defgrad : ℝ → Full2 ℝ) (m : Ogden) (x : ℝ) : ℝ :=
  let F := defgrad x
  let P := R.ogdenDeformation lapack m F
  R.stress F P

/-- One value of `Simulation.stress_curve_fit` for an Ogden material in the distortional space;
`lab/_simulation.py` lines 107-117. -/
noncomputable def ogdenDistortionalCurve (lapack : Eigh) (defgrad : ℝ → Full2 ℝ) (m : Ogden) (x : ℝ) : ℝ :=
  let F := defgrad x
  let P := R.ogdenDistortional lapack m F
  R.stress F P

end Hel.Rnd.RoundingSqrt
