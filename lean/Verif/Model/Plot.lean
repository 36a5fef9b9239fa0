import Verif.Model.Optimize

/-!
# Model of `src/hyperelastic/lab/_plotting.py` and of `Optimize.plot`

What is drawn is recorded: a session has a list of axes, each with the lines, axis labels, legend,
text and title which matplotlib was asked to draw.  Formatting of the numbers in the text
(`{p:1.2g}`) and the appearance of the lines are not modelled: the text is the table of the numbers
which are formatted, and the styles are passed through.  `fig.tight_layout()` only moves axes.
matplotlib's `ax.plot(x, y)` raises `ValueError` if `x` and `y` have different lengths, and draws
nothing then.
-/

namespace Hel

noncomputable section

variable {Z : Type}

/-- Positional and keyword arguments which are handed to matplotlib (`"C0"`, `lw=3`). -/
structure Style where
  args : List String := []
  kwargs : List (String × ℝ) := []
  deriving Inhabited

/-- One call of `ax.plot(x, y, *args, label=label, **kwargs)`. -/
structure Line where
  x : List ℝ
  y : List ℝ
  label : Option String
  style : Style

/-- The text drawn by `Optimize.plot`: a row for each parameter (name, value, the number after
`±`), the norm of the residuals and the mean relative deviation (in percent). -/
structure FitText where
  rows : List (String × ℝ × Num)
  norm : ℝ
  mean : Num

/-- matplotlib axes. -/
structure Axes where
  fig : ℕ
  lines : List Line := []
  xlabel : String := ""
  ylabel : String := ""
  legend : Option ℕ := none
  text : Option FitText := none
  title : Option String := none

/-- All figures of the session: their number and the axes. -/
structure Canvas where
  figs : ℕ
  axes : List Axes

/-- All objects of the session, including those of matplotlib. -/
structure Session (Z : Type) where
  world : World Z
  canvas : Canvas

/-- `plt.subplots()`: a new figure with new axes. -/
def subplots : PyM Canvas (ℕ × ℕ) := do
  let c ← PyM.read id
  PyM.assign fun c => { figs := c.figs + 1, axes := c.axes ++ [{ fig := c.figs }] }
  pure (c.figs, c.axes.length)

/-- `ax.get_figure()` -/
def getFigure (ax : ℕ) : PyM Canvas ℕ := PyM.read fun c => (c.axes[ax]?.map (·.fig)).getD 0

/-- A method of the axes which sets a property. -/
def onAxes (ax : ℕ) (f : Axes → Axes) : PyM Canvas Unit :=
  PyM.assign fun c => { c with axes := c.axes.modify ax f }

/-- `ax.plot(x, y, *args, label=label, **kwargs)` -/
def axPlot (ax : ℕ) (x y : List ℝ) (label : Option String) (style : Style) : PyM Canvas Unit :=
  if x.length = y.length then onAxes ax fun a => { a with lines := a.lines ++ [⟨x, y, label, style⟩] }
  else PyM.raise .valueError

/-- What `LabPlotter`'s methods read from `self`: attributes (which may not exist) and `stress()`
(which may raise). -/
structure Plotter where
  label : Option String
  displacement : Option (List ℝ)
  force : Option (List ℝ)
  stretch : List ℝ
  stress : Res (List ℝ)

/-- An `Experiment` as a `LabPlotter`; `_experiment.py` lines 62-76. -/
def Experiment.plotter (e : Experiment) : Plotter where
  label := some e.label
  displacement := some e.displacement
  force := some e.force
  stretch := e.stretch
  stress := .ok e.stress

/-- A `Simulation` as a `LabPlotter`: it has no attributes `displacement` and `force`;
`_simulation.py` lines 94-122. -/
def SimObj.plotter (w : World Z) (s : SimObj Z) : Plotter where
  label := some s.sim.label
  displacement := none
  force := none
  stretch := s.sim.stretch
  stress := s.sim.stress (w.params s.parameters).vals

/-- The first lines of both methods: `if ax is None: fig, ax = plt.subplots() else: fig = ax.get_figure()`;
`_plotting.py` lines 21-24 and 46-49. -/
def chooseAxes : Option ℕ → PyM Canvas (ℕ × ℕ)
  | none => subplots
  | some ax => do
    let fig ← getFigure ax
    pure (fig, ax)

/-- `LabPlotter.plot_force_displacement`; `_plotting.py` lines 10-33. -/
def Plotter.plotForceDisplacement (self : Plotter) (style : Style := {}) (xlabel : String := "Displacement $d$")
    (ylabel : String := "Force $F$") (ax : Option ℕ := none) (label : Option String := none) : PyM Canvas (ℕ × ℕ) := do
  let (fig, ax) ← chooseAxes ax
  let label := label.or self.label
  let x ← PyM.attr fun _ => self.displacement
  let y ← PyM.attr fun _ => self.force
  axPlot ax x y label style
  onAxes ax fun a => { a with xlabel := xlabel }
  onAxes ax fun a => { a with ylabel := ylabel }
  pure (fig, ax)

/-- `LabPlotter.plot_stress_stretch`; `_plotting.py` lines 35-58. -/
def Plotter.plotStressStretch (self : Plotter) (style : Style := {}) (xlabel : String := "Stretch $l/L$")
    (ylabel : String := "Force per undeformed area $F/A$") (ax : Option ℕ := none) (label : Option String := none) :
    PyM Canvas (ℕ × ℕ) := do
  let (fig, ax) ← chooseAxes ax
  let label := label.or self.label
  let y ← PyM.lift self.stress
  axPlot ax self.stretch y label style
  onAxes ax fun a => { a with xlabel := xlabel }
  onAxes ax fun a => { a with ylabel := ylabel }
  pure (fig, ax)

/-- A call which only draws, inside a session. -/
def drawing {α : Type} (m : PyM Canvas α) : PyM (Session Z) α :=
  PyM.sub (·.canvas) (fun c s => { s with canvas := c }) m

/-- A call which only touches the objects of the library, inside a session. -/
def computing {α : Type} (m : PyM (World Z) α) : PyM (Session Z) α :=
  PyM.sub (·.world) (fun w s => { s with world := w }) m

/-- The loop of `Optimize.plot`; `_optimize.py` lines 220-229.  `fig`, `ax` and `simulation` are the
Python variables of these names (`simulation` is unbound before the first iteration). -/
def plotPairs : List ((ℕ × Experiment) × ℕ) → ℕ → ℕ → Option ℕ → PyM (Session Z) (ℕ × ℕ × Option ℕ)
  | [], fig, ax, simulation => pure (fig, ax, simulation)
  | ((s, e), i) :: l, _, ax, _ => do
    let w ← PyM.read fun s : Session Z => s.world
    let (_, ax) ← drawing (((w.sims s).plotter w).plotStressStretch
      (style := { args := [s!"C{i}"], kwargs := [("lw", 3)] }) (ax := some ax) (label := some e.label))
    let (fig, ax) ← drawing (e.plotter.plotStressStretch
      (style := { args := [s!"C{i}"], kwargs := [("lw", 7 / 10)] }) (ax := some ax)
      (label := some (e.label ++ " (Experiment)")))
    plotPairs l fig ax (some s)

/-- `Optimize.plot(title=None)`; `_optimize.py` lines 217-259. -/
def optimizePlot (o : ℕ) (title : Option String := none) : PyM (Session Z) (ℕ × ℕ) := do
  let (fig, ax) ← drawing subplots
  let op ← PyM.read fun s : Session Z => s.world.opts o
  let (fig, ax, simulation) ← plotPairs ((op.simulations.zip op.experiments).zipIdx) fig ax none
  drawing (onAxes ax fun a => { a with legend := some 2 })
  let simulation ← PyM.localVar simulation
  let w ← PyM.read fun s : Session Z => s.world
  let errors ← PyM.attr fun s : Session Z => (s.world.opts o).errors
  let rows := (w.sims simulation).sim.labels.zip
    ((w.params (w.opts o).parameters).vals.zip (errors.map fun s => s.map fun v => 2 * v))
  let norm ← computing (normResiduals o)
  let mean ← computing (meanRelativeStd o)
  drawing (onAxes ax fun a => { a with text := some ⟨rows, norm, mean⟩ })
  drawing (onAxes ax fun a => { a with title := title.or a.title })
  pure (fig, ax)

end

end Hel
