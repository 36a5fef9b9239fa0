import Verif.Model.InvModels
import Mathlib.Analysis.SpecialFunctions.Pow.Real

/-!
# Model of `src/hyperelastic/models/stretches/` and `models/generalized/`

The interface expected by `frameworks.Stretches`, the `Ogden` model, the one-dimensional
strain and deformation measures and `GeneralizedInvariantsModel`, at one point of the
trailing axes.  `**` on positive stretches is `Real.rpow`.
-/

namespace Hel

noncomputable section

variable {Z μ : Type}

/-- What a stretch-based model's `hessian` returns, in the order
`11, 22, 33, 12, 23, 13`: an ndarray or a list whose items may be `None`. -/
inductive StrHess where
  | array (h : Vec6 ℝ)
  | list (h : Fin 6 → Option ℝ)

/-- A stretch-based material object with internal state `μ`. -/
structure StrMat (Z μ : Type) where
  gradient : Vec3 ℝ → Z → PyM μ (Vec3 ℝ × Z)
  hessian : Vec3 ℝ → Z → PyM μ StrHess

/-! ### Ogden -/

/-- Attributes of `Ogden`; `_ogden.py` lines 40-41. -/
structure Ogden where
  mu : List ℝ
  alpha : List ℝ

/-- `Ogden.gradient`; lines 43-52.  The loop over `zip(self.mu, self.alpha)`; a zero
exponent raises `ZeroDivisionError` (Python numbers). -/
def Ogden.gradient (m : Ogden) (stretches : Vec3 ℝ) (statevars : Z) : Res (Vec3 ℝ × Z) := do
  let dW ← (m.mu.zip m.alpha).foldlM (init := (fun _ => 0 : Vec3 ℝ)) fun acc p =>
    if p.2 = 0 then .error .zeroDivision
    else .ok fun a => acc a + 2 * p.1 / p.2 * stretches a ^ (p.2 - 1)
  .ok (dW, statevars)

/-- `Ogden.hessian`; lines 54-63: `[*d2Wdλαdλα, None, None, None]`. -/
def Ogden.hessian (m : Ogden) (stretches : Vec3 ℝ) (_statevars : Z) : Res StrHess := do
  let d2W ← (m.mu.zip m.alpha).foldlM (init := (fun _ => 0 : Vec3 ℝ)) fun acc p =>
    if p.2 = 0 then .error .zeroDivision
    else .ok fun a => acc a + 2 * p.1 / p.2 * (p.2 - 1) * stretches a ^ (p.2 - 2)
  .ok (.list ![some (d2W 0), some (d2W 1), some (d2W 2), none, none, none])

/-- `Ogden` as a material object (it has no mutable attributes). -/
def Ogden.mat (m : Ogden) : StrMat Z Unit where
  gradient l z := PyM.lift (m.gradient l z)
  hessian l z := PyM.lift (m.hessian l z)

/-! ### One-dimensional measures -/

/-- `E, dEdλ, d2Edλdλ, E0, dEdλ0, d2Edλdλ0` -/
structure Measure where
  E : ℝ
  dE : ℝ
  d2E : ℝ
  E0 : ℝ
  dE0 : ℝ
  d2E0 : ℝ

/-- A strain-stretch relation with its keyword arguments fixed.  `eval` is the value on a
(numpy) stretch, `at1` the call `fun(1, **kwargs)` with the Python integer 1, which may
raise. -/
structure StrainFun where
  eval : ℝ → Measure
  at1 : Res Measure

/-- `strain(stretch, exponent)` on an array entry; `_stretch.py` lines 1-15. -/
def strainEval (k l : ℝ) : Measure :=
  let E := fun l k : ℝ => (l ^ k - 1) / k
  let dE := fun l k : ℝ => l ^ (k - 1)
  let d2E := fun l k : ℝ => (k - 1) * l ^ (k - 2)
  { E := E l k, dE := dE l k, d2E := d2E l k, E0 := E 1 2, dE0 := dE 1 2, d2E0 := d2E 1 2 }

/-- `strain` with `exponent=k`: `(1**k - 1) / k` raises for `k = 0`. -/
def strainFun (k : ℝ) : StrainFun where
  eval := strainEval k
  at1 := if k = 0 then .error .zeroDivision else .ok (strainEval k 1)

/-- `deformation(stretch, exponent)` on an array entry; `_stretch.py` lines 18-33. -/
def deformationEval (k l : ℝ) : Measure :=
  let Ck := fun l k : ℝ => l ^ k
  let dCk := fun l k : ℝ => k * l ^ (k - 1)
  let d2Ck := fun l k : ℝ => k * (k - 1) * l ^ (k - 2)
  { E := Ck l k, dE := dCk l k, d2E := d2Ck l k, E0 := Ck 1 2, dE0 := dCk 1 2, d2E0 := d2Ck 1 2 }

/-- `deformation` with `exponent=k`. -/
def deformationFun (k : ℝ) : StrainFun where
  eval := deformationEval k
  at1 := .ok (deformationEval k 1)

/-! ### GeneralizedInvariantsModel -/

/-- Attributes set by `GeneralizedInvariantsModel.__init__` and never changed. -/
structure GenInv where
  strain : StrainFun
  c1 : ℝ
  c2 : ℝ
  I10 : ℝ
  I20 : ℝ
  I30 : ℝ

/-- Division of Python numbers. -/
def pyDiv (a b : ℝ) : Res ℝ := if b = 0 then .error .zeroDivision else .ok (a / b)

/-- `GeneralizedInvariantsModel.__init__`; `_generalized_invariants.py` lines 203-225. -/
def GenInv.init (f : StrainFun) : Res GenInv := do
  -- line 211
  let m ← f.at1
  -- lines 214-215
  let c1_upper := 3 / 2 * (m.d2E0 + m.dE0)
  let c1_lower := 3 / 2 * (m.d2E + m.dE)
  -- lines 217-218
  let c2_upper := 3 * (m.d2E0 + m.dE0) * m.E0 - 3 / 2 * m.dE0 ^ 2
  let c2_lower := 3 * (m.d2E + m.dE) * m.E - 3 / 2 * m.dE ^ 2
  -- lines 220-221
  let c1 ← pyDiv c1_upper c1_lower
  let c2 ← pyDiv c2_upper c2_lower
  -- lines 223-225
  .ok { strain := f, c1, c2, I10 := 3 * m.E, I20 := 3 * m.E ^ 2, I30 := m.E ^ 3 }

/-- Attributes of a `GeneralizedInvariantsModel` that its methods assign. -/
structure GenSt (μ : Type) where
  E : Option (Vec3 ℝ) := none
  dE : Option (Vec3 ℝ) := none
  d2E : Option (Vec3 ℝ) := none
  I1 : Option ℝ := none
  I2 : Option ℝ := none
  I3 : Option ℝ := none
  dWdI1 : Option (Option ℝ) := none
  dWdI2 : Option (Option ℝ) := none
  dWdI3 : Option (Option ℝ) := none
  dI1dE : Option (Vec3 ℝ) := none
  dI2dE : Option (Vec3 ℝ) := none
  dI3dE : Option (Vec3 ℝ) := none
  material : μ

namespace GenInv
open PyM

/-- `self.material.<method>` -/
def callMat {α : Type} (m : PyM μ α) : PyM (GenSt μ) α :=
  sub (·.material) (fun m s => { s with material := m }) m

/-- `if d is not None: acc += d * x * y` on vectors. -/
def addVec {n : ℕ} (acc : Fin n → ℝ) (d : Option ℝ) (x : Fin n → ℝ) : Fin n → ℝ :=
  match d with
  | some d => fun a => acc a + d * x a
  | none => acc

/-- `GeneralizedInvariantsModel.gradient`; lines 227-266. -/
def gradient (g : GenInv) (mat : InvMat ℝ Z μ) (stretches : Vec3 ℝ) (statevars : Z) :
    PyM (GenSt μ) (Vec3 ℝ × Z) := do
  -- line 232
  assign fun s => { s with
    E := some fun a => (g.strain.eval (stretches a)).E
    dE := some fun a => (g.strain.eval (stretches a)).dE
    d2E := some fun a => (g.strain.eval (stretches a)).d2E }
  -- line 233
  let E ← attr (·.E)
  -- lines 236-238
  let I1 := E 0 + E 1 + E 2
  let I2 := E 0 * E 1 + E 1 * E 2 + E 2 * E 0
  let I3 := E 0 * E 1 * E 2
  -- lines 240-242
  assign fun s => { s with I1 := some (g.c1 * I1 - g.I10 * (g.c1 - 1)) }
  assign fun s => { s with I2 := some (g.c2 * I2 - g.I20 * (g.c2 - 1)) }
  assign fun s => { s with I3 := some I3 }
  -- lines 244-246
  let r ← callMat (mat.gradient (← attr (·.I1)) (← attr (·.I2)) (← attr (·.I3)) statevars)
  assign fun s => { s with dWdI1 := some r.d1, dWdI2 := some r.d2, dWdI3 := some r.d3 }
  -- lines 248-249
  let Eb := take E ![1, 0, 0]
  let Ec := take E ![2, 2, 1]
  -- lines 251-253
  assign fun s => { s with dI1dE := some fun _ => g.c1 * 1 }
  assign fun s => { s with dI2dE := some fun a => g.c2 * (Eb a + Ec a) }
  assign fun s => { s with dI3dE := some fun a => Eb a * Ec a }
  -- line 255
  let dWdl : Vec3 ℝ := fun _ => 0
  let dE ← attr (·.dE)
  -- lines 257-264
  let dI1dE ← attr (·.dI1dE)
  let dWdl := addVec dWdl (← attr (·.dWdI1)) fun a => dI1dE a * dE a
  let dI2dE ← attr (·.dI2dE)
  let dWdl := addVec dWdl (← attr (·.dWdI2)) fun a => dI2dE a * dE a
  let dI3dE ← attr (·.dI3dE)
  let dWdl := addVec dWdl (← attr (·.dWdI3)) fun a => dI3dE a * dE a
  -- line 266
  pure (dWdl, r.sv)

/-- The index list `α = [0, 1, 2, 0, 1, 0]`; line 292. -/
def ia : Fin 6 → Fin 3 := ![0, 1, 2, 0, 1, 0]
/-- The index list `β = [0, 1, 2, 1, 2, 2]`; line 293. -/
def ib : Fin 6 → Fin 3 := ![0, 1, 2, 1, 2, 2]

/-- `x[3:] += y` on an array with six rows. -/
def addTail (x : Vec6 ℝ) (y : Vec3 ℝ) : Vec6 ℝ :=
  ![x 0, x 1, x 2, x 3 + y 0, x 4 + y 1, x 5 + y 2]

/-- `x[:3] += y` on an array with six rows. -/
def addHead (x : Vec6 ℝ) (y : Vec3 ℝ) : Vec6 ℝ :=
  ![x 0 + y 0, x 1 + y 1, x 2 + y 2, x 3, x 4, x 5]

/-- `GeneralizedInvariantsModel.hessian`; lines 268-338, for arguments without trailing axes
(shape `(3,)`), where `self.dWdI3 * Eγ` in line 323 is a numpy scalar times the literal list
`[2, 0, 1]` of line 288.  (With trailing axes that product broadcasts the list along
the *last* axis and raises unless that axis has length 3; see `Model/Shapes`.) -/
def hessian (g : GenInv) (mat : InvMat ℝ Z μ) (stretches : Vec3 ℝ) (statevars : Z) :
    PyM (GenSt μ) StrHess := do
  -- line 272 (statevars_new is not used)
  let _ ← gradient g mat stretches statevars
  -- lines 273-280
  let h ← callMat (mat.hessian (← attr (·.I1)) (← attr (·.I2)) (← attr (·.I3)) statevars)
  -- lines 282-286
  let dI1dE ← attr (·.dI1dE)
  let dI2dE ← attr (·.dI2dE)
  let dI3dE ← attr (·.dI3dE)
  let dE ← attr (·.dE)
  let d2E ← attr (·.d2E)
  -- line 288 (a literal list, not the entries of E)
  let Ec : Vec3 ℝ := ![2, 0, 1]
  -- lines 290-311
  let d2W : Vec6 ℝ := fun _ => 0
  let d2W := addVec d2W h.h11 fun m => dI1dE (ia m) * dI1dE (ib m)
  let d2W := addVec d2W h.h22 fun m => dI2dE (ia m) * dI2dE (ib m)
  let d2W := addVec d2W h.h33 fun m => dI3dE (ia m) * dI3dE (ib m)
  let d2W := addVec d2W h.h12 fun m => dI1dE (ia m) * dI2dE (ib m) + dI2dE (ia m) * dI1dE (ib m)
  let d2W := addVec d2W h.h23 fun m => dI2dE (ia m) * dI3dE (ib m) + dI3dE (ia m) * dI2dE (ib m)
  let d2W := addVec d2W h.h13 fun m => dI1dE (ia m) * dI3dE (ib m) + dI3dE (ia m) * dI1dE (ib m)
  -- lines 317-319
  let w1 ← attr (·.dWdI1)
  let w2 ← attr (·.dWdI2)
  let w3 ← attr (·.dWdI3)
  let d2W := match w2 with
    | some w => addTail d2W fun _ => w * g.c2
    | none => d2W
  -- lines 321-323
  let d2W := match w3 with
    | some w => addTail d2W fun a => w * Ec a
    | none => d2W
  -- lines 326-327
  let d2W : Vec6 ℝ := fun m => d2W m * (dE (ia m) * dE (ib m))
  -- lines 329-336
  let d2W := match w1 with
    | some w => addHead d2W fun a => w * dI1dE a * d2E a
    | none => d2W
  let d2W := match w2 with
    | some w => addHead d2W fun a => w * dI2dE a * d2E a
    | none => d2W
  let d2W := match w3 with
    | some w => addHead d2W fun a => w * dI3dE a * d2E a
    | none => d2W
  -- line 338
  pure (.array d2W)

/-- A `GeneralizedInvariantsModel` as a stretch-based material object. -/
def mat (g : GenInv) (mat : InvMat ℝ Z μ) : StrMat Z (GenSt μ) where
  gradient := gradient g mat
  hessian := hessian g mat

end GenInv

end

end Hel
