import Verif.Model.Memory

/-!
# Vocabulary for statements about arrays in memory

`Ext m m'` : every array of the memory `m` still exists in `m'` with the same numbers in its buffer.
`Holds m A v` : the array `A` exists in `m` and `v` is its content.
`Agree` : two calls return related values, or raise the same exception.
-/

namespace Hel.Memory

noncomputable section

variable {α T Z Zv μ ν : Type} [Content α] [Encodable T]

/-- The later memory `m'` has all the arrays of `m`, unchanged. -/
structure Ext (m m' : Mem) : Prop where
  next : m.next ≤ m'.next
  cell : ∀ l < m.next, m'.cell l = m.cell l

/-- In the memory `m` the array `A` exists and has the content `v`. -/
structure Holds (m : Mem) (A : Nd α) (v : α) : Prop where
  loc : A.loc < m.next
  read : m.read A = v

/-- Different entries have different addresses (this excludes broadcast views). -/
def Nd.Inj (A : Nd α) : Prop := Function.Injective A.addr

/-- Both return, and the results are related, or both raise the same exception. -/
def Agree {α β : Type} (R : α → β → Prop) : Res α → Res β → Prop
  | .ok a, .ok b => R a b
  | .error e, .error e' => e = e'
  | _, _ => False

/-- The buffer of a returned stress. -/
def StressRef.loc : StressRef T → ℕ
  | .voigt s => s.loc
  | .full p => p.loc

/-- The buffer of a returned elasticity. -/
def ElasticityRef.loc : ElasticityRef T → ℕ
  | .voigt s => s.loc
  | .full p => p.loc

/-- The returned array exists in the memory and its content is the given one. -/
def StressRef.Is (m : Mem) : StressRef T → Batch.Stress T → Prop
  | .voigt A, .voigt a => Holds m A a
  | .full A, .full a => Holds m A a
  | _, _ => False

/-- The returned array exists in the memory and its content is the given one. -/
def ElasticityRef.Is (m : Mem) : ElasticityRef T → Batch.Elasticity T → Prop
  | .voigt A, .voigt a => Holds m A a
  | .full A, .full a => Holds m A a
  | _, _ => False

/-- What the state variables handed to a method (references) mean. -/
structure SV (Z Zv : Type) where
  Is : Mem → Z → Zv → Prop
  ext : ∀ {m m' : Mem} {z : Z} {v : Zv}, Ext m m' → Is m z v → Is m' z v

/-- No state variables, or numbers. -/
def SV.pure (Z : Type) : SV Z Z where
  Is _ z v := z = v
  ext _ h := h

/-- State variables in an array. -/
def SV.array (α : Type) [Content α] : SV (Nd α) α where
  Is m z v := Holds m z v
  ext {m m' z v} h hz := by
    refine ⟨hz.loc.trans_le h.next, ?_⟩
    rw [← hz.read]
    unfold Mem.read
    rw [h.cell _ hz.loc]

/-- The material object `M` working on arrays in memory computes what the material `mat` computes on
values, and changes no existing array (also if it raises).  Its answers do not depend on the attributes
of either object. -/
structure Mat.Implements (sv : SV Z Zv) (M : Mat T Z μ) (mat : Material (Arr T) Zv ν) : Prop where
  gradient : ∀ (m : Mem) (s : μ) (t : ν) (C : V T) (c : Vec6 (Arr T)) (z : Z) (zv : Zv), Holds m C c → sv.Is m z zv →
    Ext m (M.gradient C z (m, s)).2.1 ∧
    Agree (fun a v => Holds (M.gradient C z (m, s)).2.1 a.1 v.1 ∧ sv.Is (M.gradient C z (m, s)).2.1 a.2 v.2)
      (M.gradient C z (m, s)).1 (mat.gradient c zv t).1
  hessian : ∀ (m : Mem) (s : μ) (t : ν) (C : V T) (c : Vec6 (Arr T)) (z : Z) (zv : Zv), Holds m C c → sv.Is m z zv →
    Ext m (M.hessian C z (m, s)).2.1 ∧
    Agree (fun a v => Holds (M.hessian C z (m, s)).2.1 a v) (M.hessian C z (m, s)).1 (mat.hessian c zv t).1

/-- The space object `X` working on arrays in memory computes what the object `x` computes on values,
from any attributes, changes no existing array (also if it raises), and returns a new array. -/
structure SpaceObj.Implements {σ τ : Type} (sv : SV Z Zv) (X : SpaceObj T Z σ) (x : Batch.SpaceObj T Zv τ) : Prop where
  gradient : ∀ (m : Mem) (s : σ) (t : τ) (F : Nd (Full2 (Arr T))) (f : Full2 (Arr T)) (z : Z) (zv : Zv),
    Holds m F f → sv.Is m z zv →
    Ext m (X.gradient F z (m, s)).2.1 ∧
    Agree (fun a v => m.next ≤ a.1.loc ∧ a.1.Is (X.gradient F z (m, s)).2.1 v.1 ∧
        sv.Is (X.gradient F z (m, s)).2.1 a.2 v.2)
      (X.gradient F z (m, s)).1 (x.gradient f zv t).1
  hessian : ∀ (m : Mem) (s : σ) (t : τ) (F : Nd (Full2 (Arr T))) (f : Full2 (Arr T)) (z : Z) (zv : Zv),
    Holds m F f → sv.Is m z zv →
    Ext m (X.hessian F z (m, s)).2.1 ∧
    Agree (fun a v => m.next ≤ a.loc ∧ a.Is (X.hessian F z (m, s)).2.1 v)
      (X.hessian F z (m, s)).1 (x.hessian f zv t).1

/-- `None`, a number or an array, and its value. -/
def Num.Is (m : Mem) : Option (Num T) → Option (Arr T) → Prop
  | none, none => True
  | some (.num x), some v => v = Arr.const x
  | some (.arr A), some v => Holds m A v
  | _, _ => False

/-- The same for the invariant-based models: `M` computes on arrays what `mat` computes on values, and
changes no existing array. -/
structure InvMat.Implements (sv : SV Z Zv) (M : InvMat T Z μ) (mat : Hel.InvMat (Arr T) Zv ν) : Prop where
  gradient : ∀ (m : Mem) (s : μ) (t : ν) (A B C : Nd (Arr T)) (a b c : Arr T) (z : Z) (zv : Zv), Holds m A a →
    Holds m B b → Holds m C c → sv.Is m z zv →
    Ext m (M.gradient A B C z (m, s)).2.1 ∧
    Agree (fun r v => Num.Is (M.gradient A B C z (m, s)).2.1 r.d1 v.d1 ∧ Num.Is (M.gradient A B C z (m, s)).2.1 r.d2 v.d2 ∧
        Num.Is (M.gradient A B C z (m, s)).2.1 r.d3 v.d3 ∧ sv.Is (M.gradient A B C z (m, s)).2.1 r.sv v.sv)
      (M.gradient A B C z (m, s)).1 (mat.gradient a b c zv t).1
  hessian : ∀ (m : Mem) (s : μ) (t : ν) (A B C : Nd (Arr T)) (a b c : Arr T) (z : Z) (zv : Zv), Holds m A a →
    Holds m B b → Holds m C c → sv.Is m z zv →
    Ext m (M.hessian A B C z (m, s)).2.1 ∧
    Agree (fun r v => Num.Is (M.hessian A B C z (m, s)).2.1 r.h11 v.h11 ∧ Num.Is (M.hessian A B C z (m, s)).2.1 r.h22 v.h22 ∧
        Num.Is (M.hessian A B C z (m, s)).2.1 r.h33 v.h33 ∧ Num.Is (M.hessian A B C z (m, s)).2.1 r.h12 v.h12 ∧
        Num.Is (M.hessian A B C z (m, s)).2.1 r.h23 v.h23 ∧ Num.Is (M.hessian A B C z (m, s)).2.1 r.h13 v.h13)
      (M.hessian A B C z (m, s)).1 (mat.hessian a b c zv t).1

end

end Hel.Memory
