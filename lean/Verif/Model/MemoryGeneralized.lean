import Verif.Model.MemoryStretches
import Verif.Model.BatchGeneralized

/-!
# Model of `GeneralizedInvariantsModel` on arrays in memory

See `Model/Memory` for the conventions, and `Model/BatchGeneralized` for the trailing axes `(…, n)`.
The strain function is any function on arrays: it may return new arrays or its argument (the
Seth-Hill measure with the exponent 1 could return the stretches themselves).
-/

namespace Hel.Memory

noncomputable section

open PyM

/-- `A[3:]` of an array with six rows: a view. -/
def Nd.last3 {α : Type} [Content α] (A : Nd (Fin 6 → α)) : Nd (Fin 3 → α) :=
  ⟨A.loc, fun x => A.addr (![3, 4, 5] x.1, x.2)⟩

variable {T κ : Type} [Encodable T] [Encodable κ] {n : ℕ} {Z σ μ : Type}

/-- The strain function `fun(stretches, **kwargs)[:3]` on an array. -/
abbrev Strain (T : Type) [Encodable T] :=
  Nd (Vec3 (Arr T)) → MemM (Nd (Vec3 (Arr T)) × Nd (Vec3 (Arr T)) × Nd (Vec3 (Arr T)))

/-- `strain(stretches, exponent)` and `deformation(stretches, exponent)`; `_stretch.py` lines 15, 33: three new arrays. -/
def Strain.ofFun (f : StrainFun) : Strain T := fun L => do
  let l ← rd L
  let E ← new (fun a i => (f.eval (l a i)).E : Vec3 (Arr T))
  let dE ← new (fun a i => (f.eval (l a i)).dE : Vec3 (Arr T))
  let d2E ← new (fun a i => (f.eval (l a i)).d2E : Vec3 (Arr T))
  pure (E, dE, d2E)

/-- Attributes of a `GeneralizedInvariantsModel` that its methods assign: references. -/
structure GenSt (T μ : Type) [Encodable T] where
  E : Option (Nd (Vec3 (Arr T))) := none
  dE : Option (Nd (Vec3 (Arr T))) := none
  d2E : Option (Nd (Vec3 (Arr T))) := none
  I1 : Option (Nd (Arr T)) := none
  I2 : Option (Nd (Arr T)) := none
  I3 : Option (Nd (Arr T)) := none
  dWdI1 : Option (Option (Num T)) := none
  dWdI2 : Option (Option (Num T)) := none
  dWdI3 : Option (Option (Num T)) := none
  dI1dE : Option (Nd (Vec3 (Arr T))) := none
  dI2dE : Option (Nd (Vec3 (Arr T))) := none
  dI3dE : Option (Nd (Vec3 (Arr T))) := none
  material : μ

namespace GenInv

/-- `self.material.<method>` -/
def callMat {τ : Type} (p : PyM (Mem × μ) τ) : PyM (Mem × GenSt T μ) τ :=
  call (·.material) (fun m s => { s with material := m }) p

/-- `if w is not None: acc += w * x` (in place); `x` are the values of the other factors. -/
def iaddVec {α : Type} [Encodable α] (acc : Nd (α → Arr T)) (w : Option (Num T)) (x : MemM (α → Arr T)) : MemM Unit :=
  match w with
  | none => pure ()
  | some w => do
    let w ← rdNum w
    let x ← x
    let a ← rd acc
    put acc fun i => a i + w * x i

/-- The product `x * y` of two arrays. -/
def times (X Y : Nd (Vec3 (Arr T))) : MemM (Vec3 (Arr T)) := do
  let x ← rd X
  let y ← rd Y
  pure fun a => x a * y a

/-- `x[α] * y[β]` with the index lists of lines 292-293. -/
def pick (X Y : Nd (Vec3 (Arr T))) : MemM (Vec6 (Arr T)) := do
  let x ← rd X
  let y ← rd Y
  pure fun m => x (Hel.GenInv.ia m) * y (Hel.GenInv.ib m)

/-- `x[α] * y[β] + y[α] * x[β]` -/
def pick2 (X Y : Nd (Vec3 (Arr T))) : MemM (Vec6 (Arr T)) := do
  let x ← rd X
  let y ← rd Y
  pure fun m => x (Hel.GenInv.ia m) * y (Hel.GenInv.ib m) + y (Hel.GenInv.ia m) * x (Hel.GenInv.ib m)

/-- `GeneralizedInvariantsModel.gradient`; `_generalized_invariants.py` lines 227-266. -/
def gradient (g : Hel.GenInv) (strain : Strain T) (mat : InvMat T Z μ) (stretches : Nd (Vec3 (Arr T))) (statevars : Z) :
    PyM (Mem × GenSt T μ) (Nd (Vec3 (Arr T)) × Z) := do
  -- lines 232-233
  let r ← mem (strain stretches)
  set' fun s => { s with E := some r.1, dE := some r.2.1, d2E := some r.2.2 }
  let E ← at' (·.E)
  -- lines 236-238
  let I1 ← mem do
    let e ← rd E
    new (e 0 + e 1 + e 2)
  let I2 ← mem do
    let e ← rd E
    new (e 0 * e 1 + e 1 * e 2 + e 2 * e 0)
  let I3 ← mem do
    let e ← rd E
    new (e 0 * e 1 * e 2)
  -- lines 240-242
  let J1 ← mem do
    let i ← rd I1
    new (Arr.const g.c1 * i - Arr.const (g.I10 * (g.c1 - 1)))
  set' fun s => { s with I1 := some J1 }
  let J2 ← mem do
    let i ← rd I2
    new (Arr.const g.c2 * i - Arr.const (g.I20 * (g.c2 - 1)))
  set' fun s => { s with I2 := some J2 }
  set' fun s => { s with I3 := some I3 }
  -- lines 244-246
  let r ← callMat (mat.gradient (← at' (·.I1)) (← at' (·.I2)) (← at' (·.I3)) statevars)
  set' fun s => { s with dWdI1 := some r.d1, dWdI2 := some r.d2, dWdI3 := some r.d3 }
  -- lines 248-249 (fancy indexing)
  let Eb ← mem do
    let e ← rd E
    new (fun a => e (![1, 0, 0] a) : Vec3 (Arr T))
  let Ec ← mem do
    let e ← rd E
    new (fun a => e (![2, 2, 1] a) : Vec3 (Arr T))
  -- lines 251-253
  let d1 ← mem (new (fun _ => Arr.const g.c1 * 1 : Vec3 (Arr T)))
  set' fun s => { s with dI1dE := some d1 }
  let d2 ← mem do
    let x ← rd Eb
    let y ← rd Ec
    new (fun a => Arr.const g.c2 * (x a + y a) : Vec3 (Arr T))
  set' fun s => { s with dI2dE := some d2 }
  let d3 ← mem do
    let x ← rd Eb
    let y ← rd Ec
    new (fun a => x a * y a : Vec3 (Arr T))
  set' fun s => { s with dI3dE := some d3 }
  -- line 255
  let dWdl ← mem (new (fun _ => 0 : Vec3 (Arr T)))
  -- lines 257-264
  let dE ← at' (·.dE)
  let d1 ← at' (·.dI1dE)
  let w ← at' (·.dWdI1)
  mem (iaddVec dWdl w (times d1 dE))
  let d2 ← at' (·.dI2dE)
  let w ← at' (·.dWdI2)
  mem (iaddVec dWdl w (times d2 dE))
  let d3 ← at' (·.dI3dE)
  let w ← at' (·.dWdI3)
  mem (iaddVec dWdl w (times d3 dE))
  -- line 266
  pure (dWdl, r.sv)

/-- Lines 321-323, see `Batch.GenInv.addThird`: `d2WdEαdEβ[3:] += self.dWdI3 * [2, 0, 1]`.  A Python float times a
list is a `TypeError`. -/
def addThird (acc : V (κ × Fin n)) (w : Option (Num (κ × Fin n))) : PyM (Mem × σ) Unit :=
  match w with
  | none => pure ()
  | some (.num _) => raise .typeError
  | some (.arr W) =>
    if h : n = 3 then mem do
      let w ← rd W
      let a ← rd acc.last3
      put acc.last3 fun i => a i + fun p => w p * (![2, 0, 1] : Vec3 ℝ) (Fin.cast h p.2)
    else raise .valueError

/-- `GeneralizedInvariantsModel.hessian`; lines 268-338. -/
def hessian (g : Hel.GenInv) (strain : Strain (κ × Fin n)) (mat : InvMat (κ × Fin n) Z μ)
    (stretches : Nd (Vec3 (Arr (κ × Fin n)))) (statevars : Z) :
    PyM (Mem × GenSt (κ × Fin n) μ) (StrHessRef (κ × Fin n)) := do
  -- line 272
  let _ ← gradient g strain mat stretches statevars
  -- lines 273-280
  let h ← callMat (mat.hessian (← at' (·.I1)) (← at' (·.I2)) (← at' (·.I3)) statevars)
  -- lines 282-286
  let d1 ← at' (·.dI1dE)
  let d2 ← at' (·.dI2dE)
  let d3 ← at' (·.dI3dE)
  let dE ← at' (·.dE)
  let d2E ← at' (·.d2E)
  -- line 290
  let d2W ← mem (new (fun _ => 0 : Vec6 (Arr (κ × Fin n))))
  -- lines 295-311
  mem (iaddVec d2W h.h11 (pick d1 d1))
  mem (iaddVec d2W h.h22 (pick d2 d2))
  mem (iaddVec d2W h.h33 (pick d3 d3))
  mem (iaddVec d2W h.h12 (pick2 d1 d2))
  mem (iaddVec d2W h.h23 (pick2 d2 d3))
  mem (iaddVec d2W h.h13 (pick2 d1 d3))
  -- lines 317-319
  let w1 ← at' (·.dWdI1)
  let w2 ← at' (·.dWdI2)
  let w3 ← at' (·.dWdI3)
  mem (iaddVec d2W.last3 w2 (pure fun _ => Arr.const g.c2))
  -- lines 321-323
  addThird d2W w3
  -- lines 326-327
  mem do
    let x ← rd d2W
    let y ← pick dE dE
    put d2W fun m => x m * y m
  -- lines 329-336
  mem (iaddVec d2W.first3 w1 (times d1 d2E))
  mem (iaddVec d2W.first3 w2 (times d2 d2E))
  mem (iaddVec d2W.first3 w3 (times d3 d2E))
  -- line 338
  pure (.array d2W)

/-- A `GeneralizedInvariantsModel` as a stretch-based material object. -/
def mat (g : Hel.GenInv) (strain : Strain (κ × Fin n)) (m : InvMat (κ × Fin n) Z μ) :
    StrMat (κ × Fin n) Z (GenSt (κ × Fin n) μ) where
  gradient := gradient g strain m
  hessian := hessian g strain m

end GenInv

end

end Hel.Memory
