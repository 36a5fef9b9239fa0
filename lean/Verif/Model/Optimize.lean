import Verif.Model.Lab

/-!
# Model of `src/hyperelastic/lab/_optimize.py` and `_curve_fit.py`

Objects live in a `World` and are referred to by numbers, so that two attributes can hold the same
object: assigning to the slice of a parameter array is seen through every attribute which holds
this array.  `scipy.optimize.curve_fit` is not part of the code base: it is an arbitrary function
of the arguments it is called with, which returns or raises (and does not modify `p0`).
`plot` is in `Model/Plot`.  Arrays which share only a part of their memory (views) are
not modelled.
-/

namespace Hel

noncomputable section

variable {Z : Type}

/-- Read the world. -/
def PyM.read {σ α : Type} (f : σ → α) : PyM σ α := fun s => (.ok (f s), s)

/-! ### numpy on one-dimensional data -/

/-- `np.concatenate(l)`: raises for an empty list. -/
def npConcatenate {α : Type} (l : List (List α)) : Res (List α) :=
  if l = [] then .error .valueError else .ok l.flatten

/-- `a - b` with numpy's broadcasting of arrays of length one. -/
def npSub (a b : List ℝ) : Res (List ℝ) :=
  if a.length = b.length then .ok (List.zipWith (· - ·) a b)
  else if a.length = 1 then .ok (b.map fun y => a.headD 0 - y)
  else if b.length = 1 then .ok (a.map fun x => x - b.headD 0)
  else .error .valueError

/-- The new contents of an array of length `n` after `array[:] = src`. -/
def npFill {α : Type} (n : ℕ) (src : List α) : Res (List α) :=
  if src.length = n then .ok src
  else match src with
    | [a] => .ok (List.replicate n a)
    | _ => .error .valueError

/-- A number of a floating-point computation which may also yield `nan` or `inf` (`none`). -/
abbrev Num := Option ℝ

/-- `np.sqrt`, entry-wise. -/
def npSqrt : Num → Num
  | none => none
  | some v => if 0 ≤ v then some (√v) else none

/-- `np.diag` of a matrix. -/
def npDiag (m : List (List Num)) : List Num := m.zipIdx.filterMap fun e => e.1[e.2]?

/-- Conversion of a float to an integer element type: truncation towards zero. -/
def truncate (v : ℝ) : ℝ := if 0 ≤ v then (⌊v⌋ : ℝ) else (⌈v⌉ : ℝ)

/-! ### masks -/

/-- What a user may pass as a mask: a slice (`slice(None)` is `slice none none none`), an array of
booleans, or an array of (possibly negative) integers. -/
inductive Mask where
  | slice (start stop step : Option Int)
  | bools (b : List Bool)
  | index (i : List Int)

/-- The positions which `slice(start, stop, step)` takes from `n` data points (`slice.indices` of
the Python language reference). -/
def slicePositions (n : ℕ) (start stop step : Option Int) : Res (List ℕ) :=
  let step := step.getD 1
  if step = 0 then .error .valueError
  else
    let lower : Int := if step < 0 then -1 else 0
    let upper : Int := if step < 0 then (n : Int) - 1 else n
    let bound (i : Int) : Int := if i < 0 then max (i + n) lower else min i upper
    let start := start.elim (if step < 0 then upper else lower) bound
    let stop := stop.elim (if step < 0 then lower else upper) bound
    let len : Int :=
      if step < 0 then (if stop < start then (start - stop - 1) / (-step) + 1 else 0)
      else (if start < stop then (stop - start - 1) / step + 1 else 0)
    .ok ((List.range len.toNat).map fun k : ℕ => (start + (k : Int) * step).toNat)

/-- One integer index into `n` data points. -/
def indexPosition (n : ℕ) (i : Int) : Res ℕ :=
  if 0 ≤ i ∧ i < n then .ok i.toNat
  else if -(n : Int) ≤ i ∧ i < 0 then .ok (i + n).toNat
  else .error .indexError

/-- The positions a mask takes from `n` data points. -/
def Mask.positions (n : ℕ) : Mask → Res (List ℕ)
  | .slice start stop step => slicePositions n start stop step
  | .bools b => if b.length = n then .ok ((List.range n).filter fun i => b.getD i false) else .error .indexError
  | .index is => is.mapM (indexPosition n)

/-- `array[mask]` -/
def Mask.select (m : Mask) (a : List ℝ) : Res (List ℝ) := do
  let ps ← m.positions a.length
  .ok (ps.map fun p => a.getD p 0)

/-! ### objects -/

/-- Types of the object a user may pass as `parameters`. -/
inductive ParamKind where
  | tuple
  | list
  | floatArray
  | intArray
  deriving DecidableEq

/-- An object which holds material parameters. -/
structure ParamObj where
  kind : ParamKind
  vals : List ℝ

/-- `obj[:] = src` -/
def ParamObj.setAll (o : ParamObj) (src : List ℝ) : Res ParamObj :=
  match o.kind with
  | .tuple => .error .typeError
  | .list => .ok { o with vals := src }
  | .floatArray => do
    let v ← npFill o.vals.length src
    .ok { o with vals := v }
  | .intArray => do
    let v ← npFill o.vals.length src
    .ok { o with vals := v.map truncate }

/-- A `Simulation` object: its attributes and the parameter object it holds. -/
structure SimObj (Z : Type) where
  sim : Simulation Z
  parameters : ℕ

/-- An `Optimize` object.  `f`, `x`, `y`, `errors` and `residuals` do not exist before the first
fit.  `f` are bound methods `simulation.stress_curve_fit`, given by their simulation. -/
structure Optimizer where
  experiments : List Experiment
  simulations : List ℕ
  parameters : ℕ
  mask : List Mask
  f : Option (List ℕ) := none
  x : Option (List (List ℝ)) := none
  y : Option (List (List ℝ)) := none
  errors : Option (List Num) := none
  residuals : Option (List ℝ) := none

/-- `Optimize.__init__`; `_optimize.py` lines 135-160. -/
def Optimizer.init (experiments : List Experiment) (simulations : List ℕ) (parameters : ℕ)
    (mask : Option (List Mask) := none) : Optimizer where
  experiments := experiments
  simulations := simulations
  parameters := parameters
  mask := mask.getD (List.replicate experiments.length (.slice none none none))

/-- All objects of the session. -/
structure World (Z : Type) where
  params : ℕ → ParamObj
  sims : ℕ → SimObj Z
  opts : ℕ → Optimizer

namespace World

/-- Assign attributes of the optimizer `o`. -/
def setOpt (w : World Z) (o : ℕ) (f : Optimizer → Optimizer) : World Z :=
  { w with opts := Function.update w.opts o (f (w.opts o)) }

/-- Assign to the contents of the parameter object `r`. -/
def setParam (w : World Z) (r : ℕ) (v : ParamObj) : World Z :=
  { w with params := Function.update w.params r v }

/-- `simulation.parameters = r` -/
def bindSim (w : World Z) (s r : ℕ) : World Z :=
  { w with sims := Function.update w.sims s { w.sims s with parameters := r } }

/-- `np.concatenate([fi(xi, *p) for fi, xi in zip(f, x)])`; `_optimize.py` lines 173-175 and 201,
`_curve_fit.py` line 20. -/
def evaluate (w : World Z) (f : List ℕ) (x : List (List ℝ)) (p : List ℝ) : Res (List ℝ) := do
  let r ← (f.zip x).mapM fun e => (w.sims e.1).sim.stressCurveFit e.2 p
  npConcatenate r

end World

/-- A solver: `scipy.optimize.curve_fit(F, xdata, ydata, p0, *args, **kwargs)` with some additional
arguments.  It returns the optimum and its covariance or raises. -/
abbrev Solver := (List ℝ → List ℝ → Res (List ℝ)) → List ℝ → List ℝ → List ℝ → Res (List ℝ × List (List Num))

/-- `concatenate_curve_fit(f, xdata, ydata, p0, *args, **kwargs)`; `_curve_fit.py` lines 8-29. -/
def concatenateCurveFit (w : World Z) (f : List ℕ) (xdata ydata : List (List ℝ)) (p0 : List ℝ) (solver : Solver) :
    Res (List ℝ × List (List Num)) := do
  let x ← npConcatenate xdata
  let y ← npConcatenate ydata
  solver (fun _ p => w.evaluate f xdata p) x y p0

/-- The values of the mask-selected data; `_optimize.py` lines 164-171. -/
def selectAll (data : Experiment → List ℝ) (op : Optimizer) : Res (List (List ℝ)) :=
  (op.mask.zip op.experiments).mapM fun e => e.1.select (data e.2)

/-- `Optimize.init_curve_fit`; `_optimize.py` lines 162-183. -/
def initCurveFit (o : ℕ) : PyM (World Z) ℕ := do
  PyM.assign fun w => w.setOpt o fun op => { op with f := some op.simulations }
  let op ← PyM.read fun w => w.opts o
  let x ← PyM.lift (selectAll (·.stretch) op)
  PyM.assign fun w => w.setOpt o fun op => { op with x := some x }
  let y ← PyM.lift (selectAll (·.stress) op)
  PyM.assign fun w => w.setOpt o fun op => { op with y := some y }
  let w ← PyM.read id
  let f0 ← PyM.lift (w.evaluate op.simulations x (w.params op.parameters).vals)
  PyM.assign fun w => w.setOpt o fun op =>
    { op with errors := some (List.replicate (w.params op.parameters).vals.length none) }
  let yc ← PyM.lift (npConcatenate y)
  let r ← PyM.lift (npSub f0 yc)
  PyM.assign fun w => w.setOpt o fun op => { op with residuals := some r }
  PyM.assign fun w => op.simulations.foldl (fun w s => w.bindSim s op.parameters) w
  pure op.parameters

/-- `for simulation in self.simulations: simulation.parameters[:] = self.parameters`;
`_optimize.py` lines 207-208. -/
def syncSims (r : ℕ) : List ℕ → PyM (World Z) Unit
  | [] => pure ()
  | s :: l => do
    let w ← PyM.read id
    let obj ← PyM.lift ((w.params (w.sims s).parameters).setAll (w.params r).vals)
    PyM.assign fun w => w.setParam (w.sims s).parameters obj
    syncSims r l

/-- `Optimize.curve_fit(*args, **kwargs)`; `_optimize.py` lines 196-210.  Returns the parameter
object and the covariance. -/
def curveFit (o : ℕ) (solver : Solver) : PyM (World Z) (ℕ × List (List Num)) := do
  let p0 ← initCurveFit o
  let w ← PyM.read id
  let f ← PyM.attr fun w : World Z => (w.opts o).f
  let x ← PyM.attr fun w : World Z => (w.opts o).x
  let y ← PyM.attr fun w : World Z => (w.opts o).y
  let (popt, pcov) ← PyM.lift (concatenateCurveFit w f x y (w.params p0).vals solver)
  let fopt ← PyM.lift (w.evaluate f x popt)
  let r := (w.opts o).parameters
  let obj ← PyM.lift ((w.params r).setAll popt)
  PyM.assign fun w => w.setParam r obj
  let errors ← PyM.attr fun w : World Z => (w.opts o).errors
  let e ← PyM.lift (npFill errors.length ((npDiag pcov).map npSqrt))
  PyM.assign fun w => w.setOpt o fun op => { op with errors := some e }
  let residuals ← PyM.attr fun w : World Z => (w.opts o).residuals
  let yc ← PyM.lift (npConcatenate y)
  let d ← PyM.lift (npSub fopt yc)
  let d ← PyM.lift (npFill residuals.length d)
  PyM.assign fun w => w.setOpt o fun op => { op with residuals := some d }
  syncSims r (w.opts o).simulations
  pure (r, pcov)

/-- `Optimize.mean_relative_std`; `_optimize.py` lines 185-189.  Zero parameters give `nan` or
`inf`, and so does an empty list. -/
def meanRelativeStd (o : ℕ) : PyM (World Z) Num := do
  let e ← PyM.attr fun w : World Z => (w.opts o).errors
  let p ← PyM.read fun w : World Z => (w.params (w.opts o).parameters).vals
  if e.length = p.length then
    let q : List Num := List.zipWith (fun e p => e.bind fun e => if p = 0 then none else some (e / |p|)) e p
    pure (if q = [] then none else (q.mapM id).map fun l => l.sum / l.length * 100)
  else PyM.raise .valueError

/-- `Optimize.norm_residuals`; `_optimize.py` lines 191-194. -/
def normResiduals (o : ℕ) : PyM (World Z) ℝ := do
  let r ← PyM.attr fun w : World Z => (w.opts o).residuals
  pure (√((r.map fun v => v ^ 2).sum))

end

end Hel
