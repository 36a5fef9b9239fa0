import Verif.Model.Plot
import Verif.Spec.Optimize

/-!
# Specification vocabulary: plots

What is on the screen after a call.
-/

namespace Spec
open Hel

noncomputable section

variable {Z : Type}

/-- One line has been added to the plots `c`, and the axes labelled: without `ax` in the only axes
of a new figure, with `ax` in these axes.  Nothing else has changed.  The returned figure and axes
are those with the line. -/
def Adds (c : Canvas) (ax : Option ℕ) (line : Line) (xlabel ylabel : String) (r : ℕ × ℕ) (c' : Canvas) : Prop :=
  match ax with
  | none => r = (c.figs, c.axes.length) ∧
    c' = ⟨c.figs + 1, c.axes ++ [{ fig := c.figs, lines := [line], xlabel := xlabel, ylabel := ylabel }]⟩
  | some k => c'.figs = c.figs ∧ c'.axes.length = c.axes.length ∧ (∀ j, j ≠ k → c'.axes[j]? = c.axes[j]?) ∧
    ∃ A, c.axes[k]? = some A ∧ r = (A.fig, k) ∧
      c'.axes[k]? = some { A with lines := A.lines ++ [line], xlabel := xlabel, ylabel := ylabel }

/-- `ax` is not given or one of the axes of the session. -/
def OnScreen (c : Canvas) : Option ℕ → Prop
  | none => True
  | some k => k < c.axes.length

/-- The lines show, for the simulations and experiments of the list (numbered from `i` on): the
stress of the simulation with the parameters `p s` over its stretches, and the measured forces per
area over the measured stretches, labelled with the name of the experiment and drawn in the same
color, a different one for each experiment. -/
def ShowsFit (w : World Z) (p : ℕ → List ℝ) : List (ℕ × Experiment) → ℕ → List Line → Prop
  | [], _, lines => lines = []
  | (s, e) :: l, i, lines => ∃ a b rest, lines = a :: b :: rest ∧
    (a.x = (w.sims s).sim.stretch ∧ (w.sims s).sim.stressCurveFit a.x (p s) = .ok a.y ∧ a.label = some e.label) ∧
    (b.x = e.stretch ∧ b.y = e.force.map (· / e.area) ∧ b.label = some (e.label ++ " (Experiment)")) ∧
    a.style.args = [s!"C{i}"] ∧ b.style.args = [s!"C{i}"] ∧ ShowsFit w p l (i + 1) rest

/-- All simulations of the optimizer can be evaluated at their stretches with the parameters
`p s`, and all its experiments have one force per displacement. -/
def Drawable (w : World Z) (op : Optimizer) (p : ℕ → List ℝ) : Prop :=
  ∀ e ∈ op.simulations.zip op.experiments,
    (∃ v, (w.sims e.1).sim.stressCurveFit (w.sims e.1).sim.stretch (p e.1) = .ok v) ∧
    e.2.stretch.length = e.2.force.length

/-- The parameters which the simulation `s` holds. -/
def held (w : World Z) (s : ℕ) : List ℝ := (w.params (w.sims s).parameters).vals

end

end Spec
