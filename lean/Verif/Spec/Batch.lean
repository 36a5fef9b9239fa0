import Verif.Model.Batch

/-!
# Specification vocabulary: one point of a batch

`pt i` takes the values at the point `i` of the trailing axes.  `AgreesAt i` says: evaluating a
batch and taking point `i` gives what evaluating point `i` alone gives: the same result or the
same exception, whatever was called before on either object.  `π` takes the state variables of
the point.
-/

namespace Spec
open Hel

variable {ι Z Zb μ ν : Type}

/-- The values of an array with one leading axis at the point `i`. -/
def pt {n : ℕ} (i : ι) (v : Fin n → Arr ι) : Fin n → ℝ := fun a => v a i

/-- The values of an array with two leading axes at the point `i`. -/
def pt2 {m n : ℕ} (i : ι) (v : Fin m → Fin n → Arr ι) : Fin m → Fin n → ℝ := fun a b => v a b i

/-- The values of an array with four leading axes at the point `i`. -/
def pt4 (i : ι) (v : Full4 (Arr ι)) : Full4 ℝ := fun a b c d => v a b c d i

/-- The result of an invariant-based model at the point `i`. -/
def InvGrad.at (i : ι) (π : Zb → Z) (r : InvGrad (Arr ι) Zb) : InvGrad ℝ Z where
  d1 := r.d1.map (· i)
  d2 := r.d2.map (· i)
  d3 := r.d3.map (· i)
  sv := π r.sv

/-- The second derivatives of an invariant-based model at the point `i`. -/
def InvHess.at (i : ι) (h : InvHess (Arr ι)) : InvHess ℝ where
  h11 := h.h11.map (· i)
  h22 := h.h22.map (· i)
  h33 := h.h33.map (· i)
  h12 := h.h12.map (· i)
  h23 := h.h23.map (· i)
  h13 := h.h13.map (· i)

/-- The second derivatives of a stretch-based model at the point `i`. -/
def StrHess.at (i : ι) : Batch.StrHess ι → StrHess
  | .array h => .array (pt i h)
  | .list h => .list fun m => (h m).map (· i)

/-- The stress at the point `i`. -/
def Stress.at (i : ι) : Batch.Stress ι → Stress
  | .voigt s => .voigt (pt i s)
  | .full p => .full (pt2 i p)

/-- The elasticity at the point `i`. -/
def Elasticity.at (i : ι) : Batch.Elasticity ι → Elasticity
  | .voigt s => .voigt (pt2 i s)
  | .full p => .full (pt4 i p)

/-- An invariant-based model on batches agrees with a model on single points. -/
def InvMat.AgreesAt (i : ι) (π : Zb → Z) (B : InvMat (Arr ι) Zb μ) (A : InvMat ℝ Z ν) : Prop :=
  ∀ I1 I2 I3 z s t,
    (B.gradient I1 I2 I3 z s).1.map (InvGrad.at i π) = (A.gradient (I1 i) (I2 i) (I3 i) (π z) t).1 ∧
    (B.hessian I1 I2 I3 z s).1.map (InvHess.at i) = (A.hessian (I1 i) (I2 i) (I3 i) (π z) t).1

/-- A stretch-based model on batches agrees with a model on single points. -/
def StrMat.AgreesAt (i : ι) (π : Zb → Z) (B : Batch.StrMat ι Zb μ) (A : StrMat Z ν) : Prop :=
  ∀ l z s t,
    (B.gradient l z s).1.map (fun r => (pt i r.1, π r.2)) = (A.gradient (pt i l) (π z) t).1 ∧
    (B.hessian l z s).1.map (StrHess.at i) = (A.hessian (pt i l) (π z) t).1

/-- A framework on batches agrees with a framework on single points. -/
def Material.AgreesAt (i : ι) (π : Zb → Z) (B : Material (Arr ι) Zb μ) (A : Material ℝ Z ν) : Prop :=
  ∀ C z s t,
    (B.gradient C z s).1.map (fun r => (pt i r.1, π r.2)) = (A.gradient (pt i C) (π z) t).1 ∧
    (B.hessian C z s).1.map (pt2 i) = (A.hessian (pt i C) (π z) t).1

/-- The stress of a space on batches agrees with the stress at single points. -/
def SpaceObj.GradAgreesAt (i : ι) (π : Zb → Z) (B : Batch.SpaceObj ι Zb μ) (A : SpaceObj Z ν) : Prop :=
  ∀ F z s t, (B.gradient F z s).1.map (fun r => (Stress.at i r.1, π r.2)) = (A.gradient (pt2 i F) (π z) t).1

/-- The elasticity of a space on batches agrees with the elasticity at single points. -/
def SpaceObj.HessAgreesAt (i : ι) (π : Zb → Z) (B : Batch.SpaceObj ι Zb μ) (A : SpaceObj Z ν) : Prop :=
  ∀ F z s t, (B.hessian F z s).1.map (Elasticity.at i) = (A.hessian (pt2 i F) (π z) t).1

end Spec
