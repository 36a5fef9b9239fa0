import Verif.Model.Batch

/-!
# Model of `GeneralizedInvariantsModel` on arrays with trailing axes

The trailing shape is `(…, n)`: `κ` indexes all trailing axes but the last one, `Fin n` the last
one.  A separate model is needed because of line 323 of `_generalized_invariants.py`, where the
literal list `[2, 0, 1]` of line 288 meets an array with trailing axes: numpy lines the list up
with the *last* trailing axis, not with the three rows.
-/

namespace Hel

noncomputable section

namespace Batch

variable {ι κ Z μ : Type} {n : ℕ}

/-- Attributes of a `GeneralizedInvariantsModel` that its methods assign. -/
structure GenSt (ι μ : Type) where
  E : Option (Vec3 (Arr ι)) := none
  dE : Option (Vec3 (Arr ι)) := none
  d2E : Option (Vec3 (Arr ι)) := none
  I1 : Option (Arr ι) := none
  I2 : Option (Arr ι) := none
  I3 : Option (Arr ι) := none
  dWdI1 : Option (Option (Arr ι)) := none
  dWdI2 : Option (Option (Arr ι)) := none
  dWdI3 : Option (Option (Arr ι)) := none
  dI1dE : Option (Vec3 (Arr ι)) := none
  dI2dE : Option (Vec3 (Arr ι)) := none
  dI3dE : Option (Vec3 (Arr ι)) := none
  material : μ

namespace GenInv
open PyM

/-- `self.material.<method>` -/
def callMat {α : Type} (m : PyM μ α) : PyM (GenSt ι μ) α :=
  sub (·.material) (fun m s => { s with material := m }) m

/-- `if d is not None: acc += d * x` on arrays with `k` rows: `d` has the trailing shape only. -/
def addVec {k : ℕ} (acc : Fin k → Arr ι) (d : Option (Arr ι)) (x : Fin k → Arr ι) : Fin k → Arr ι :=
  match d with
  | some d => fun a => acc a + d * x a
  | none => acc

/-- `GeneralizedInvariantsModel.gradient`; lines 227-266, on arrays. -/
def gradient (g : Hel.GenInv) (mat : InvMat (Arr ι) Z μ) (stretches : Vec3 (Arr ι)) (statevars : Z) :
    PyM (GenSt ι μ) (Vec3 (Arr ι) × Z) := do
  -- line 232
  assign fun s => { s with
    E := some fun a i => (g.strain.eval (stretches a i)).E
    dE := some fun a i => (g.strain.eval (stretches a i)).dE
    d2E := some fun a i => (g.strain.eval (stretches a i)).d2E }
  -- line 233
  let E ← attr (·.E)
  -- lines 236-238
  let I1 := E 0 + E 1 + E 2
  let I2 := E 0 * E 1 + E 1 * E 2 + E 2 * E 0
  let I3 := E 0 * E 1 * E 2
  -- lines 240-242
  assign fun s => { s with I1 := some (Arr.const g.c1 * I1 - Arr.const (g.I10 * (g.c1 - 1))) }
  assign fun s => { s with I2 := some (Arr.const g.c2 * I2 - Arr.const (g.I20 * (g.c2 - 1))) }
  assign fun s => { s with I3 := some I3 }
  -- lines 244-246
  let r ← callMat (mat.gradient (← attr (·.I1)) (← attr (·.I2)) (← attr (·.I3)) statevars)
  assign fun s => { s with dWdI1 := some r.d1, dWdI2 := some r.d2, dWdI3 := some r.d3 }
  -- lines 248-249
  let Eb : Vec3 (Arr ι) := fun a => E (![1, 0, 0] a)
  let Ec : Vec3 (Arr ι) := fun a => E (![2, 2, 1] a)
  -- lines 251-253
  assign fun s => { s with dI1dE := some fun _ => Arr.const g.c1 * 1 }
  assign fun s => { s with dI2dE := some fun a => Arr.const g.c2 * (Eb a + Ec a) }
  assign fun s => { s with dI3dE := some fun a => Eb a * Ec a }
  -- line 255
  let dWdl : Vec3 (Arr ι) := fun _ => 0
  let dE ← attr (·.dE)
  -- lines 257-264
  let dI1dE ← attr (·.dI1dE)
  let dWdl := addVec dWdl (← attr (·.dWdI1)) fun a => dI1dE a * dE a
  let dI2dE ← attr (·.dI2dE)
  let dWdl := addVec dWdl (← attr (·.dWdI2)) fun a => dI2dE a * dE a
  let dI3dE ← attr (·.dI3dE)
  let dWdl := addVec dWdl (← attr (·.dWdI3)) fun a => dI3dE a * dE a
  -- line 266
  pure (dWdl, r.sv)

/-- `x[3:] += y` on an array with six rows, `y` with three rows. -/
def addTail (x : Vec6 (Arr ι)) (y : Vec3 (Arr ι)) : Vec6 (Arr ι) :=
  ![x 0, x 1, x 2, x 3 + y 0, x 4 + y 1, x 5 + y 2]

/-- `x[:3] += y` on an array with six rows. -/
def addHead (x : Vec6 (Arr ι)) (y : Vec3 (Arr ι)) : Vec6 (Arr ι) :=
  ![x 0 + y 0, x 1 + y 1, x 2 + y 2, x 3, x 4, x 5]

/-- `if self.dWdI3 is not None: d2WdEαdEβ[3:] += self.dWdI3 * [2, 0, 1]`; lines 321-323.
`self.dWdI3` has the trailing shape `(…, n)`.  Times the list, of shape `(3,)`: a broadcasting
error unless `n` is 3 or 1, and for `n = 1` the product has shape `(…, 3)`, which cannot be added
in place to the rows of shape `(…, 1)`: also a `ValueError`.  For `n = 3` the product has no axis of rows, the
in-place addition adds it to each of the three rows. -/
def addThird (x : Vec6 (Arr (κ × Fin n))) (w3 : Option (Arr (κ × Fin n))) : Res (Vec6 (Arr (κ × Fin n))) :=
  match w3 with
  | none => .ok x
  | some w =>
    if h : n = 3 then
      let y : Arr (κ × Fin n) := fun p => w p * (![2, 0, 1] : Vec3 ℝ) (Fin.cast h p.2)
      .ok (addTail x fun _ => y)
    else .error .valueError

/-- `GeneralizedInvariantsModel.hessian`; lines 268-338, on arrays of the trailing shape `(…, n)`. -/
def hessian (g : Hel.GenInv) (mat : InvMat (Arr (κ × Fin n)) Z μ) (stretches : Vec3 (Arr (κ × Fin n)))
    (statevars : Z) : PyM (GenSt (κ × Fin n) μ) (StrHess (κ × Fin n)) := do
  -- line 272 (statevars_new is not used)
  let _ ← gradient g mat stretches statevars
  -- lines 273-280
  let h ← callMat (mat.hessian (← attr (·.I1)) (← attr (·.I2)) (← attr (·.I3)) statevars)
  -- lines 282-286
  let dI1dE ← attr (·.dI1dE)
  let dI2dE ← attr (·.dI2dE)
  let dI3dE ← attr (·.dI3dE)
  let dE ← attr (·.dE)
  let d2E ← attr (·.d2E)
  -- lines 290-311
  let ia := Hel.GenInv.ia
  let ib := Hel.GenInv.ib
  let d2W : Vec6 (Arr (κ × Fin n)) := fun _ => 0
  let d2W := addVec d2W h.h11 fun m => dI1dE (ia m) * dI1dE (ib m)
  let d2W := addVec d2W h.h22 fun m => dI2dE (ia m) * dI2dE (ib m)
  let d2W := addVec d2W h.h33 fun m => dI3dE (ia m) * dI3dE (ib m)
  let d2W := addVec d2W h.h12 fun m => dI1dE (ia m) * dI2dE (ib m) + dI2dE (ia m) * dI1dE (ib m)
  let d2W := addVec d2W h.h23 fun m => dI2dE (ia m) * dI3dE (ib m) + dI3dE (ia m) * dI2dE (ib m)
  let d2W := addVec d2W h.h13 fun m => dI1dE (ia m) * dI3dE (ib m) + dI3dE (ia m) * dI1dE (ib m)
  -- lines 317-319
  let w1 ← attr (·.dWdI1)
  let w2 ← attr (·.dWdI2)
  let w3 ← attr (·.dWdI3)
  let d2W := match w2 with
    | some w => addTail d2W fun _ => w * Arr.const g.c2
    | none => d2W
  -- lines 321-323
  let d2W ← PyM.lift (addThird d2W w3)
  -- lines 326-327
  let d2W : Vec6 (Arr (κ × Fin n)) := fun m => d2W m * (dE (ia m) * dE (ib m))
  -- lines 329-336
  let d2W := match w1 with
    | some w => addHead d2W fun a => w * dI1dE a * d2E a
    | none => d2W
  let d2W := match w2 with
    | some w => addHead d2W fun a => w * dI2dE a * d2E a
    | none => d2W
  let d2W := match w3 with
    | some w => addHead d2W fun a => w * dI3dE a * d2E a
    | none => d2W
  -- line 338
  pure (.array d2W)

/-- A `GeneralizedInvariantsModel` as a stretch-based material object. -/
def mat (g : Hel.GenInv) (m : InvMat (Arr (κ × Fin n)) Z μ) : StrMat (κ × Fin n) Z (GenSt (κ × Fin n) μ) where
  gradient := gradient g m
  hessian := hessian g m

end GenInv

end Batch

end

end Hel
