import Verif.Model.InvModels

/-!
# Model of `src/hyperelastic/frameworks/_invariants.py` (class `Invariants`)

One point of the trailing axes.  The object's attributes are modelled explicitly; `None`
as attribute value and "attribute not set yet" are distinguished.
-/

namespace Hel

variable {K Z μ : Type}

/-- A Total-Lagrange material object as seen by the spaces: `gradient(C, statevars)` and
`hessian(C, statevars)`. -/
structure Material (K Z μ : Type) where
  gradient : Vec6 K → Z → PyM μ (Vec6 K × Z)
  hessian : Vec6 K → Z → PyM μ (Mat6 K)

/-- Attributes of an `Invariants` object (outer `none`: not set yet). -/
structure InvSt (K μ : Type) where
  I : Option (Vec6 K) := none
  I1 : Option K := none
  I2 : Option K := none
  I3 : Option K := none
  dWdI1 : Option (Option K) := none
  dWdI2 : Option (Option K) := none
  dWdI3 : Option (Option K) := none
  dI1dC : Option (Vec6 K) := none
  dI2dC : Option (Vec6 K) := none
  invC : Option (Vec6 K) := none
  dI3dC : Option (Vec6 K) := none
  material : μ

namespace Invariants
open PyM

/-- `self.material.<method>` -/
def callMat {α : Type} (m : PyM μ α) : PyM (InvSt K μ) α :=
  sub (·.material) (fun m s => { s with material := m }) m

/-- `Invariants.gradient`; `_invariants.py` lines 150-181. -/
def gradient [CommRing K] [Div K] (mat : InvMat K Z μ) (C : Vec6 K) (statevars : Z) :
    PyM (InvSt K μ) (Vec6 K × Z) := do
  -- lines 155-159
  let I : Vec6 K := eye
  assign fun s => { s with I := some I }
  let I1 := trace C
  assign fun s => { s with I1 := some I1 }
  assign fun s => { s with I2 := some ((I1 ^ 2 - ddot C C) / 2) }
  let I3 := det C
  assign fun s => { s with I3 := some I3 }
  -- lines 161-163
  let r ← callMat (mat.gradient (← attr (·.I1)) (← attr (·.I2)) (← attr (·.I3)) statevars)
  assign fun s => { s with dWdI1 := some r.d1, dWdI2 := some r.d2, dWdI3 := some r.d3 }
  -- lines 165-166
  let dWdC : Vec6 K := fun _ => 0
  -- lines 168-170
  let dWdC ← match ← attr (·.dWdI1) with
    | some w => do
      assign fun s => { s with dI1dC := some I }
      let dI1dC ← attr (·.dI1dC)
      pure (fun a => dWdC a + w * dI1dC a)
    | none => pure dWdC
  -- lines 172-174
  let dWdC ← match ← attr (·.dWdI2) with
    | some w => do
      assign fun s => { s with dI2dC := some (fun a => I1 * I a - C a) }
      let dI2dC ← attr (·.dI2dC)
      pure (fun a => dWdC a + w * dI2dC a)
    | none => pure dWdC
  -- lines 176-179
  let dWdC ← match ← attr (·.dWdI3) with
    | some w => do
      let invC := inv C (some (← attr (·.I3)))
      assign fun s => { s with invC := some invC }
      assign fun s => { s with dI3dC := some (fun a => I3 * invC a) }
      let dI3dC ← attr (·.dI3dC)
      pure (fun a => dWdC a + w * dI3dC a)
    | none => pure dWdC
  -- line 181
  pure (dWdC, r.sv)

/-- `if cond is not None: acc = acc + coef * T(x, y)`, where `coef` may be `None`
(`None * array` raises `TypeError`) and the local variables `x`, `y` may be unbound. -/
def addTerm [CommRing K] [Div K] {σ : Type} (acc : Mat6 K) (cond coef : Option K) (x y : Option (Vec6 K))
    (T : Vec6 K → Vec6 K → Mat6 K) : PyM σ (Mat6 K) :=
  match cond with
  | some _ => do
    let x ← localVar x
    let y ← localVar y
    match coef with
    | some d => pure (fun a b => acc a b + d * T x y a b)
    | none => raise .typeError
  | none => pure acc

/-- `dya(x, y) + dya(y, x)` -/
def dyaSum [CommRing K] [Div K] (x y : Vec6 K) : Mat6 K := fun a b => dya x y a b + dya y x a b

/-- `Invariants.hessian`; lines 183-237.  In line 226 the code multiplies `d2WdI2dI2` with
`dya(dI2dC, dI2dC)` under the condition `d2WdI3dI3 is not None`; the model does the same. -/
def hessian [CommRing K] [Div K] (mat : InvMat K Z μ) (C : Vec6 K) (statevars : Z) :
    PyM (InvSt K μ) (Mat6 K) := do
  -- line 189 (the old state variables are overwritten)
  let (_, statevars) ← gradient mat C statevars
  -- lines 190-197
  let h ← callMat (mat.hessian (← attr (·.I1)) (← attr (·.I2)) (← attr (·.I3)) statevars)
  -- line 198
  let I ← attr (·.I)
  -- lines 200-201
  let d2WdCdC : Mat6 K := fun _ _ => 0
  -- lines 203-206
  let dI1dC : Option (Vec6 K) ← match ← attr (·.dWdI1) with
    | some _ => do pure (some (← attr (·.dI1dC)))
    | none => pure none
  -- lines 208-211
  let (dI2dC, d2WdCdC) ← match ← attr (·.dWdI2) with
    | some w => do
      let dI2dC ← attr (·.dI2dC)
      let d2I2dCdC : Mat6 K := fun a b => dya I I a b - cdyaSelf I a b
      pure (some dI2dC, fun a b => d2WdCdC a b + w * d2I2dCdC a b)
    | none => pure ((none : Option (Vec6 K)), d2WdCdC)
  -- lines 213-217
  let (dI3dC, d2WdCdC) ← match ← attr (·.dWdI3) with
    | some w => do
      let dI3dC ← attr (·.dI3dC)
      let invC ← attr (·.invC)
      let I3 ← attr (·.I3)
      let d2I3dCdC : Mat6 K := fun a b => I3 * (dya invC invC a b - cdyaSelf invC a b)
      pure (some dI3dC, fun a b => d2WdCdC a b + w * d2I3dCdC a b)
    | none => pure ((none : Option (Vec6 K)), d2WdCdC)
  -- lines 219-220
  let d2WdCdC ← addTerm d2WdCdC h.h11 h.h11 dI1dC dI1dC dya
  -- lines 222-223
  let d2WdCdC ← addTerm d2WdCdC h.h22 h.h22 dI2dC dI2dC dya
  -- lines 225-226 (as written in the code: d2WdI2dI2 and dI2dC)
  let d2WdCdC ← addTerm d2WdCdC h.h33 h.h22 dI2dC dI2dC dya
  -- lines 228-229
  let d2WdCdC ← addTerm d2WdCdC h.h12 h.h12 dI1dC dI2dC dyaSum
  -- lines 231-232
  let d2WdCdC ← addTerm d2WdCdC h.h23 h.h23 dI2dC dI3dC dyaSum
  -- lines 234-235
  let d2WdCdC ← addTerm d2WdCdC h.h13 h.h13 dI1dC dI3dC dyaSum
  -- line 237
  pure d2WdCdC

/-- An `Invariants` object as a material for the spaces. -/
def material [CommRing K] [Div K] (mat : InvMat K Z μ) : Material K Z (InvSt K μ) where
  gradient := gradient mat
  hessian := hessian mat

end Invariants

end Hel
