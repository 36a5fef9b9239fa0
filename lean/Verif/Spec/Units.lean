import Verif.Spec.Api

/-!
# Specification vocabulary: change of units

`B` is the material `A` with the stresses measured in another unit: all the numbers with the
dimension of a stress are `c` times as large.  `ScaledBy c` says that every result of `B` is `c`
times the result of `A` and the new state variables and the exceptions are the same, whatever
was called before on either object.
-/

namespace Spec
open Hel

noncomputable section

variable {Z μ ν : Type}

/-- First derivatives of an invariant-based model, times `c`. -/
def InvGrad.times (c : ℝ) (r : InvGrad ℝ Z) : InvGrad ℝ Z where
  d1 := r.d1.map (c * ·)
  d2 := r.d2.map (c * ·)
  d3 := r.d3.map (c * ·)
  sv := r.sv

/-- Second derivatives of an invariant-based model, times `c`. -/
def InvHess.times (c : ℝ) (h : InvHess ℝ) : InvHess ℝ where
  h11 := h.h11.map (c * ·)
  h22 := h.h22.map (c * ·)
  h33 := h.h33.map (c * ·)
  h12 := h.h12.map (c * ·)
  h23 := h.h23.map (c * ·)
  h13 := h.h13.map (c * ·)

/-- Second derivatives of a stretch-based model, times `c`. -/
def StrHess.times (c : ℝ) : StrHess → StrHess
  | .array h => .array fun m => c * h m
  | .list h => .list fun m => (h m).map (c * ·)

/-- A stress, times `c`. -/
def Stress.times (c : ℝ) : Stress → Stress
  | .voigt s => .voigt fun a => c * s a
  | .full p => .full fun i j => c * p i j

/-- An elasticity, times `c`. -/
def Elasticity.times (c : ℝ) : Elasticity → Elasticity
  | .voigt s => .voigt fun a b => c * s a b
  | .full p => .full fun i j k l => c * p i j k l

/-- An invariant-based model in another unit. -/
def InvMat.ScaledBy (c : ℝ) (A : InvMat ℝ Z μ) (B : InvMat ℝ Z ν) : Prop :=
  ∀ I1 I2 I3 z s t,
    (B.gradient I1 I2 I3 z t).1 = (A.gradient I1 I2 I3 z s).1.map (InvGrad.times c) ∧
    (B.hessian I1 I2 I3 z t).1 = (A.hessian I1 I2 I3 z s).1.map (InvHess.times c)

/-- A stretch-based model in another unit. -/
def StrMat.ScaledBy (c : ℝ) (A : StrMat Z μ) (B : StrMat Z ν) : Prop :=
  ∀ l z s t,
    (B.gradient l z t).1 = (A.gradient l z s).1.map (fun r => (fun a => c * r.1 a, r.2)) ∧
    (B.hessian l z t).1 = (A.hessian l z s).1.map (StrHess.times c)

/-- A material in another unit. -/
def Material.ScaledBy (c : ℝ) (A : Material ℝ Z μ) (B : Material ℝ Z ν) : Prop :=
  ∀ C z s t,
    (B.gradient C z t).1 = (A.gradient C z s).1.map (fun r => (fun a => c * r.1 a, r.2)) ∧
    (B.hessian C z t).1 = (A.hessian C z s).1.map (fun h => fun a b => c * h a b)

/-- The stress of a finished material in another unit. -/
def SpaceObj.GradScaledBy (c : ℝ) (A : SpaceObj Z μ) (B : SpaceObj Z ν) : Prop :=
  ∀ F z s t, (B.gradient F z t).1 = (A.gradient F z s).1.map (fun r => (Stress.times c r.1, r.2))

/-- The elasticity of a finished material in another unit. -/
def SpaceObj.HessScaledBy (c : ℝ) (A : SpaceObj Z μ) (B : SpaceObj Z ν) : Prop :=
  ∀ F z s t, (B.hessian F z t).1 = (A.hessian F z s).1.map (Elasticity.times c)

end

end Spec
