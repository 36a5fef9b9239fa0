import Verif.Model.Batch

/-!
# Model of `src/hyperelastic/lab/`: load cases, experiments, simulations

One-dimensional data (stretches, displacements, forces, stresses) are lists of numbers.  Plotting
(`_plotting.py`) is in `Model/Plot`.
-/

namespace Hel

noncomputable section

variable {ι Z μ : Type}

/-! ### `_load_case.py` -/

/-- An axis of length 3 indexed with a Python integer: negative numbers count from the end,
anything else raises `IndexError`. -/
def pyIndex3 (i : Int) : Res (Fin 3) :=
  if i = 0 ∨ i = -3 then .ok 0
  else if i = 1 ∨ i = -2 then .ok 1
  else if i = 2 ∨ i = -1 then .ok 2
  else .error .indexError

/-- `IncompressibleHomogeneousStretch.stress(F, P, axis=0, traction_free=-1)`;
`_load_case.py` lines 41-67. -/
def loadStress (F P : Full2 (Arr ι)) (axis : Int := 0) (traction_free : Int := -1) : Res (Arr ι) := do
  let i ← pyIndex3 axis
  let j ← pyIndex3 traction_free
  .ok (P i i - P j j * F j j / F i i)

/-- A load case object: a subclass of `IncompressibleHomogeneousStretch` with a `defgrad` method
(for any number of data points). -/
structure LoadCase where
  label : String
  defgrad : ∀ n, Arr (Fin n) → Full2 (Arr (Fin n))

/-- `Uniaxial.defgrad`; lines 85-92. -/
def uniaxialDefgrad (stretch : Arr ι) : Full2 (Arr ι) :=
  let x := stretch
  let y := 1 / Arr.sqrt stretch
  let z : Arr ι := 0
  ![![x, z, z], ![z, y, z], ![z, z, y]]

/-- `Uniaxial(label=None)`; lines 80-83. -/
def uniaxial (label : Option String := none) : LoadCase where
  label := label.getD "Uniaxial Tension"
  defgrad _ := uniaxialDefgrad

/-- `Biaxial.defgrad`; lines 110-117. -/
def biaxialDefgrad (stretch : Arr ι) : Full2 (Arr ι) :=
  let x := stretch
  let y := 1 / stretch ^ 2
  let z : Arr ι := 0
  ![![x, z, z], ![z, x, z], ![z, z, y]]

/-- `Biaxial(label=None)`; lines 105-108. -/
def biaxial (label : Option String := none) : LoadCase where
  label := label.getD "Biaxial Tension"
  defgrad _ := biaxialDefgrad

/-- `Planar.defgrad`; lines 135-143. -/
def planarDefgrad (stretch : Arr ι) : Full2 (Arr ι) :=
  let x := stretch
  let y := 1 / stretch
  let o : Arr ι := 1
  let z : Arr ι := 0
  ![![x, z, z], ![z, o, z], ![z, z, y]]

/-- `Planar(label=None)`; lines 130-133. -/
def planar (label : Option String := none) : LoadCase where
  label := label.getD "Planar Tension"
  defgrad _ := planarDefgrad

/-! ### `_experiment.py` -/

/-- Attributes of an `Experiment`; `_experiment.py` lines 28-71 (`time` and `temperature` are
stored and never read). -/
structure Experiment where
  label : String
  displacement : List ℝ
  force : List ℝ
  area : ℝ
  length : ℝ
  stretch : List ℝ

/-- `Experiment.__init__`; lines 28-71. -/
def Experiment.init (label : String) (displacement force : List ℝ) (area : ℝ := 1) (length : ℝ := 1) :
    Experiment where
  label := label
  displacement := displacement
  force := force
  area := area
  length := length
  stretch := displacement.map fun d => 1 + d / length

/-- `Experiment.stress`; lines 73-76. -/
def Experiment.stress (e : Experiment) : List ℝ := e.force.map fun f => f / e.area

/-! ### `_simulation.py` -/

/-- A Python dict of keyword arguments, in insertion order. -/
abbrev Kwargs := List (String × ℝ)

/-- `d[k] = v`: replaces the value of an existing key, appends a new key. -/
def Kwargs.set : Kwargs → String → ℝ → Kwargs
  | [], k, v => [(k, v)]
  | (k', v') :: d, k, v => if k' = k then (k, v) :: d else (k', v') :: Kwargs.set d k v

/-- `{label: p for label, p in ...}` -/
def Kwargs.ofList (l : List (String × ℝ)) : Kwargs := l.foldl (fun d e => d.set e.1 e.2) []

/-- `d[k]`, `none` if there is no such key. -/
def Kwargs.get (d : Kwargs) (k : String) : Option ℝ := d.lookup k

/-- A material object as returned by the user's factory, freshly constructed: what
`mat.gradient([F, statevars])` returns for an `F` with `n` points in its trailing axes.
(The trailing shape is `(1, n)`, `_simulation.py` line 116.) -/
structure MatObj (Z : Type) where
  gradient : ∀ n, Full2 (Arr (Fin n)) → Z → Res (Batch.Stress (Fin n) × Z)

/-- The user's function `material(**kwargs)`: it may raise.  A user function which keeps state
between calls is not modelled. -/
abbrev Factory (Z : Type) := Kwargs → Res (MatObj Z)

/-- The attributes of a `Simulation` other than the parameters; `_simulation.py` lines 76-105.
The type of the state variables is `Option Z` because the value `None` is passed (line 116). -/
structure Simulation (Z : Type) where
  loadcase : LoadCase
  stretch : List ℝ
  labels : List String
  material : Factory (Option Z)

/-- `self.label = loadcase.label`; line 102. -/
def Simulation.label (sim : Simulation Z) : String := sim.loadcase.label

/-- The initial value of `self.parameters`; lines 99, 104-105. -/
def Simulation.initParameters (sim : Simulation Z) (parameters : Option (List ℝ)) : List ℝ :=
  match parameters with
  | some p => p
  | none => List.replicate sim.labels.length 1

/-- `Simulation.stress_curve_fit(x, *parameters)`; lines 107-117.  `finalize=False` materials
return six components, which `.reshape(3, 3, -1)` and the subtraction reject for every non-empty
`x`. -/
def Simulation.stressCurveFit (sim : Simulation Z) (x parameters : List ℝ) : Res (List ℝ) := do
  let kwargs := Kwargs.ofList (sim.labels.zip parameters)
  let mat ← sim.material kwargs
  let F := sim.loadcase.defgrad x.length x.get
  let (P, _) ← mat.gradient x.length F none
  match P with
  | .full P =>
    let r ← loadStress F P
    .ok (List.ofFn r)
  | .voigt _ => if x = [] then .ok [] else .error .valueError

/-- `Simulation.stress()` with the stored parameters; lines 119-122. -/
def Simulation.stress (sim : Simulation Z) (parameters : List ℝ) : Res (List ℝ) :=
  sim.stressCurveFit sim.stretch parameters

/-! ### material factories -/

/-- A space object with its initial attributes as a material object. -/
def MatObj.of {σ : ℕ → Type} (obj : ∀ n, Batch.SpaceObj (Fin n) Z (σ n)) (init : ∀ n, σ n) : MatObj Z where
  gradient n F z := ((obj n).gradient F z (init n)).1

/-- `ThirdOrderDeformation(**kwargs)`: unknown keywords raise `TypeError`, missing ones are zero;
`_third_order_deformation.py` lines 40-52. -/
def todKwargs (kw : Kwargs) : Res (ℝ × ℝ × ℝ × ℝ × ℝ × Bool) :=
  if ∀ e ∈ kw, e.1 ∈ ["C10", "C01", "C11", "C20", "C30", "strain"] then
    .ok ((kw.get "C10").getD 0, (kw.get "C01").getD 0, (kw.get "C11").getD 0, (kw.get "C20").getD 0,
      (kw.get "C30").getD 0, decide ((kw.get "strain").getD 0 ≠ 0))
  else .error .typeError

open Classical in
/-- `Invariants(ThirdOrderDeformation(...))` on batches. -/
def todFramework (ι : Type) (c : ℝ × ℝ × ℝ × ℝ × ℝ × Bool) : Material (Arr ι) Z (InvSt (Arr ι) Unit) :=
  Invariants.material (TOD.init (Arr.const c.1) (Arr.const c.2.1) (Arr.const c.2.2.1) (Arr.const c.2.2.2.1)
    (Arr.const c.2.2.2.2.1 : Arr ι) c.2.2.2.2.2).mat

/-- The factory of the documentation (`_simulation.py` lines 44-50, `_optimize.py` lines 74-80). -/
def todDeformation : Factory Z := fun kw => do
  let c ← todKwargs kw
  .ok (MatObj.of (fun n => Batch.Deformation.obj {} (todFramework (Fin n) c)) fun _ => { material := { material := () } })

/-- The same on the distortional space. -/
def todDistortional : Factory Z := fun kw => do
  let c ← todKwargs kw
  .ok (MatObj.of (fun n => Batch.Distortional.obj {} (todFramework (Fin n) c)) fun _ => { material := { material := () } })

end

end Hel
