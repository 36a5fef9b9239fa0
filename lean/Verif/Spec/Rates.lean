import Verif.Spec.Calculus

/-!
# Specification vocabulary: objective stress rates

`L` is the velocity gradient of a motion `F`, that is `dF/dt = L F`.
Nothing in this file refers to the model of the code.
-/

namespace Spec
open Matrix

noncomputable section

/-- The symmetric part of the velocity gradient. -/
def stretching (L : Ten2 ℝ) : Ten2 ℝ := (1 / 2 : ℝ) • (L + Lᵀ)

/-- The skew part of the velocity gradient. -/
def spin (L : Ten2 ℝ) : Ten2 ℝ := (1 / 2 : ℝ) • (L - Lᵀ)

/-- The Truesdell rate of the Cauchy stress `σ` with the time derivative `σ'`. -/
def truesdell (L σ σ' : Ten2 ℝ) : Ten2 ℝ := σ' - L * σ - σ * Lᵀ + L.trace • σ

/-- The Jaumann rate of a stress `τ` with the time derivative `τ'`. -/
def jaumann (L τ τ' : Ten2 ℝ) : Ten2 ℝ := τ' - spin L * τ + τ * spin L

/-- The spatial elasticity without the initial stress: `a_ijkl - δ_ik σ_jl`. -/
def withoutStress (a : Ten4 ℝ) (σ : Ten2 ℝ) : Ten4 ℝ := fun i j k l => a i j k l - (1 : Ten2 ℝ) i k * σ j l

/-- The tangent of the Jaumann rate of the Kirchhoff stress, per unit of deformed volume (the tangent finite element codes
like Abaqus ask for): `c_ijkl + 1/2 (δ_ik σ_jl + δ_il σ_jk + δ_jk σ_il + δ_jl σ_ik)`. -/
def jaumannTangent (c : Ten4 ℝ) (σ : Ten2 ℝ) : Ten4 ℝ := fun i j k l =>
  c i j k l + 1 / 2 * ((1 : Ten2 ℝ) i k * σ j l + (1 : Ten2 ℝ) i l * σ j k + (1 : Ten2 ℝ) j k * σ i l + (1 : Ten2 ℝ) j l * σ i k)

end

end Spec
