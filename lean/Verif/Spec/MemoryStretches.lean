import Verif.Spec.Memory
import Verif.Model.MemoryStretches

/-! Vocabulary for statements about stretch-based materials on arrays in memory, see `Spec/Memory`. -/

namespace Hel.Memory

noncomputable section

variable {T Z Zv μ ν : Type} [Encodable T]

/-- The content of the returned second derivatives. -/
def StrHessRef.Is (m : Mem) : StrHessRef T → Batch.StrHess T → Prop
  | .array A, .array a => Holds m A a
  | .list h, .list v => ∀ k, Num.Is m (h k) (v k)
  | _, _ => False

/-- The stretch-based model `M` working on arrays in memory computes what `mat` computes on values, and changes no
existing array (also if it raises). -/
structure StrMat.Implements (sv : SV Z Zv) (M : StrMat T Z μ) (mat : Batch.StrMat T Zv ν) : Prop where
  gradient : ∀ (m : Mem) (s : μ) (t : ν) (L : Nd (Vec3 (Arr T))) (l : Vec3 (Arr T)) (z : Z) (zv : Zv), Holds m L l →
    sv.Is m z zv →
    Ext m (M.gradient L z (m, s)).2.1 ∧
    Agree (fun a v => Holds (M.gradient L z (m, s)).2.1 a.1 v.1 ∧ sv.Is (M.gradient L z (m, s)).2.1 a.2 v.2)
      (M.gradient L z (m, s)).1 (mat.gradient l zv t).1
  hessian : ∀ (m : Mem) (s : μ) (t : ν) (L : Nd (Vec3 (Arr T))) (l : Vec3 (Arr T)) (z : Z) (zv : Zv), Holds m L l →
    sv.Is m z zv →
    Ext m (M.hessian L z (m, s)).2.1 ∧
    Agree (fun a v => a.Is (M.hessian L z (m, s)).2.1 v) (M.hessian L z (m, s)).1 (mat.hessian l zv t).1

end

end Hel.Memory
