import Verif.Model.Dtype

/-!
# What is expected of integer input

A user who passes an array of integers, e.g. `np.eye(3, dtype=int)` or `np.diag([2, 1, 1])`, expects
the result for the same numbers in floating point.
-/

namespace Hel.Spec.Dtype
open Hel.Dt

/-- The integer is in the range of the dtype. -/
def Fits (w : IntTy) (n : ℤ) : Prop := -2 ^ (w.bits - 1) ≤ n ∧ n < 2 ^ (w.bits - 1)

/-- The integer array with the given entries. -/
def intArr (w : IntTy) (F : Fin 3 → Fin 3 → ℤ) : F2 := .int w fun p => F p.1 p.2

/-- The `float64` array with the given entries. -/
def fltArr (F : Full2 ℝ) : F2 := .f64 fun p => F p.1 p.2

/-- The same numbers as real numbers. -/
def real (F : Fin 3 → Fin 3 → ℤ) : Full2 ℝ := fun i j => F i j

/-- A result of the real-number model as `float64` array. -/
def fltStress : Stress → StressT
  | .voigt s => .voigt (.f64 s)
  | .full p => .full (fltArr p)

/-- A result of the real-number model as `float64` array. -/
def fltElasticity : Elasticity → ElasticityT
  | .voigt c => .voigt (.f64 fun p => c p.1 p.2)
  | .full a => .full (.f64 fun p => a p.1 p.2.1 p.2.2.1 p.2.2.2)

/-- The integer matrix `FᵀF`. -/
def cauchyGreenInt (F : Fin 3 → Fin 3 → ℤ) (I J : Fin 3) : ℤ := F 0 I * F 0 J + F 1 I * F 1 J + F 2 I * F 2 J

/-- Its trace and determinant, and twice its second invariant. -/
def traceInt (F : Fin 3 → Fin 3 → ℤ) : ℤ :=
  cauchyGreenInt F 0 0 + cauchyGreenInt F 1 1 + cauchyGreenInt F 2 2

def twoI2Int (F : Fin 3 → Fin 3 → ℤ) : ℤ :=
  traceInt F ^ 2 - ∑ I, ∑ J, cauchyGreenInt F I J ^ 2

def detInt (F : Fin 3 → Fin 3 → ℤ) : ℤ :=
  (F 0 0 * (F 1 1 * F 2 2 - F 1 2 * F 2 1) - F 0 1 * (F 1 0 * F 2 2 - F 1 2 * F 2 0)
    + F 0 2 * (F 1 0 * F 2 1 - F 1 1 * F 2 0)) ^ 2

/-- `FᵀF` and, where the Cauchy stress asks for it, its determinant do not overflow. -/
structure KinematicsFit (w : IntTy) (cfg : SpaceCfg) (F : Fin 3 → Fin 3 → ℤ) : Prop where
  cg : ∀ I J, Fits w (cauchyGreenInt F I J)
  det : cfg.finalize = true → cfg.area = none → Fits w (detInt F)

/-- The invariants do not overflow (`ThirdOrderDeformation` subtracts 3, or 0 if `strain=True`). -/
structure InvariantsFit (strain : Bool) (F : Fin 3 → Fin 3 → ℤ) : Prop where
  I1 : Fits .i64 (traceInt F)
  I2 : Fits .i64 (twoI2Int F)
  sub : Fits .i64 (traceInt F - if strain then 0 else 3)
  sq : Fits .i64 ((traceInt F - if strain then 0 else 3) ^ 2)

end Hel.Spec.Dtype
