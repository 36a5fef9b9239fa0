import Verif.Spec.Plot
import Verif.Proofs.Optimize

/-! Helper lemmas: running the plotting methods. -/

namespace Hel
open Spec Props

noncomputable section

variable {Z : Type}

/-- Axes after some lines have been added and the axes labelled. -/
def Axes.add (ls : List Line) (xl yl : String) (a : Axes) : Axes :=
  { a with lines := a.lines ++ ls, xlabel := xl, ylabel := yl }

theorem plotStress_some (self : Plotter) (style : Style) (xl yl : String) (k : ℕ) (label : Option String) (c : Canvas)
    (y : List ℝ) (hs : self.stress = .ok y) (hl : self.stretch.length = y.length) :
    self.plotStressStretch style xl yl (some k) label c = (.ok ((c.axes[k]?.map (·.fig)).getD 0, k),
      { c with axes := c.axes.modify k (Axes.add [⟨self.stretch, y, label.or self.label, style⟩] xl yl) }) := by
  simp only [Plotter.plotStressStretch, chooseAxes, getFigure, PyM.bind_run, read_run, PyM.pure_run, PyM.lift_run, hs,
    axPlot, hl, if_true, onAxes, PyM.assign_run, List.modify_modify_eq]
  rfl

theorem plotForce_some (self : Plotter) (style : Style) (xl yl : String) (k : ℕ) (label : Option String) (c : Canvas)
    (x y : List ℝ) (hx : self.displacement = some x) (hs : self.force = some y) (hl : x.length = y.length) :
    self.plotForceDisplacement style xl yl (some k) label c = (.ok ((c.axes[k]?.map (·.fig)).getD 0, k),
      { c with axes := c.axes.modify k (Axes.add [⟨x, y, label.or self.label, style⟩] xl yl) }) := by
  simp only [Plotter.plotForceDisplacement, chooseAxes, getFigure, PyM.bind_run, read_run, PyM.pure_run, PyM.attr_run, hs,
    hx, axPlot, hl, if_true, onAxes, PyM.assign_run, List.modify_modify_eq]
  rfl

theorem modify_last {α : Type} (l : List α) (a : α) (f : α → α) : (l ++ [a]).modify l.length f = l ++ [f a] := by
  induction l with
  | nil => rfl
  | cons b l ih => simp [ih]

theorem plotStress_none (self : Plotter) (style : Style) (xl yl : String) (label : Option String) (c : Canvas)
    (y : List ℝ) (hs : self.stress = .ok y) (hl : self.stretch.length = y.length) :
    self.plotStressStretch style xl yl none label c = (.ok (c.figs, c.axes.length),
      ⟨c.figs + 1, c.axes ++ [Axes.add [⟨self.stretch, y, label.or self.label, style⟩] xl yl { fig := c.figs }]⟩) := by
  simp only [Plotter.plotStressStretch, chooseAxes, subplots, PyM.bind_run, read_run, PyM.pure_run, PyM.lift_run, hs,
    axPlot, hl, if_true, onAxes, PyM.assign_run, id, modify_last]
  rfl

theorem plotForce_none (self : Plotter) (style : Style) (xl yl : String) (label : Option String) (c : Canvas)
    (x y : List ℝ) (hx : self.displacement = some x) (hs : self.force = some y) (hl : x.length = y.length) :
    self.plotForceDisplacement style xl yl none label c = (.ok (c.figs, c.axes.length),
      ⟨c.figs + 1, c.axes ++ [Axes.add [⟨x, y, label.or self.label, style⟩] xl yl { fig := c.figs }]⟩) := by
  simp only [Plotter.plotForceDisplacement, chooseAxes, subplots, PyM.bind_run, read_run, PyM.pure_run, PyM.attr_run, hs,
    hx, axPlot, hl, if_true, onAxes, PyM.assign_run, id, modify_last]
  rfl

theorem adds_some {c : Canvas} {k : ℕ} (hk : k < c.axes.length) (line : Line) (xl yl : String) :
    Adds c (some k) line xl yl ((c.axes[k]?.map (·.fig)).getD 0, k)
      { c with axes := c.axes.modify k (Axes.add [line] xl yl) } := by
  refine ⟨rfl, by simp, fun j hj => ?_, c.axes[k], by simp [hk], by simp [hk], ?_⟩
  · simp [List.getElem?_modify, Ne.symm hj]
  · simp [List.getElem?_modify, hk, Axes.add]

theorem plotStress_adds {self : Plotter} (style : Style) (xl yl : String) (ax : Option ℕ) (label : Option String)
    (c : Canvas) (hc : OnScreen c ax) {y : List ℝ} (hs : self.stress = .ok y) (hl : self.stretch.length = y.length) :
    ∃ r c', self.plotStressStretch style xl yl ax label c = (.ok r, c') ∧
      Adds c ax ⟨self.stretch, y, label.or self.label, style⟩ xl yl r c' := by
  cases ax with
  | none => exact ⟨_, _, plotStress_none self style xl yl label c y hs hl, rfl, rfl⟩
  | some k => exact ⟨_, _, plotStress_some self style xl yl k label c y hs hl, adds_some hc _ _ _⟩

theorem plotForce_adds {self : Plotter} (style : Style) (xl yl : String) (ax : Option ℕ) (label : Option String)
    (c : Canvas) (hc : OnScreen c ax) {x y : List ℝ} (hx : self.displacement = some x) (hs : self.force = some y)
    (hl : x.length = y.length) :
    ∃ r c', self.plotForceDisplacement style xl yl ax label c = (.ok r, c') ∧
      Adds c ax ⟨x, y, label.or self.label, style⟩ xl yl r c' := by
  cases ax with
  | none => exact ⟨_, _, plotForce_none self style xl yl label c x y hx hs hl, rfl, rfl⟩
  | some k => exact ⟨_, _, plotForce_some self style xl yl k label c x y hx hs hl, adds_some hc _ _ _⟩

/-- The loop of `Optimize.plot`. -/
theorem plotPairs_run (w : World Z) (l : List (ℕ × Experiment)) (i : ℕ)
    (hd : ∀ e ∈ l, (∃ v, (w.sims e.1).sim.stressCurveFit (w.sims e.1).sim.stretch (held w e.1) = .ok v) ∧
      e.2.stretch.length = e.2.force.length) (fig k : ℕ) (sim : Option ℕ) (c : Canvas) (hk : k < c.axes.length)
    (hfig : (c.axes[k]?.map (·.fig)).getD 0 = fig) :
    ∃ lines c', plotPairs (l.zipIdx i) fig k sim ⟨w, c⟩ =
        (.ok (fig, k, ((l.getLast?).map (·.1)).or sim), ⟨w, c'⟩) ∧
      ShowsFit w (held w) l i lines ∧ (l = [] → c' = c) ∧
      (l ≠ [] → c' = (⟨c.figs, c.axes.modify k
        (Axes.add lines "Stretch $l/L$" "Force per undeformed area $F/A$")⟩ : Canvas)) := by
  induction l generalizing i fig sim c with
  | nil => exact ⟨[], c, rfl, rfl, fun _ => rfl, fun h => absurd rfl h⟩
  | cons e l ih =>
    obtain ⟨s, e⟩ := e
    obtain ⟨⟨v, hv⟩, hlen⟩ := hd (s, e) List.mem_cons_self
    rw [List.zipIdx_cons]
    have h1 := fun st la => plotStress_some ((w.sims s).plotter w) st "Stretch $l/L$" "Force per undeformed area $F/A$" k la c
      v hv (stressCurveFit_length hv).symm
    have hel : e.plotter.stretch.length = e.stress.length := by
      change e.stretch.length = (e.force.map _).length
      rw [List.length_map, hlen]
    have h2 := fun st la c => plotStress_some e.plotter st "Stretch $l/L$" "Force per undeformed area $F/A$" k la c
      e.stress rfl hel
    simp only [plotPairs, drawing, PyM.bind_run, read_run, PyM.sub_run, h1, h2]
    set a : Line := ⟨((w.sims s).plotter w).stretch, v, (some e.label).or ((w.sims s).plotter w).label,
      { args := [s!"C{i}"], kwargs := [("lw", 3)] }⟩ with ha
    set b : Line := ⟨e.plotter.stretch, e.stress, (some (e.label ++ " (Experiment)")).or e.plotter.label,
      { args := [s!"C{i}"], kwargs := [("lw", 7 / 10)] }⟩ with hb
    rw [List.modify_modify_eq]
    set c2 : Canvas := { c with axes := c.axes.modify k (Axes.add [b] "Stretch $l/L$" "Force per undeformed area $F/A$" ∘
      Axes.add [a] "Stretch $l/L$" "Force per undeformed area $F/A$") } with hc2
    have hfig2 : ((c2.axes[k]?).map (·.fig)).getD 0 = fig := by
      rw [hc2, ← hfig]
      simp [List.getElem?_modify, hk, Axes.add]
    have hfig1 : ((((c.axes.modify k (Axes.add [a] "Stretch $l/L$" "Force per undeformed area $F/A$"))[k]?).map
        (·.fig)).getD 0) = fig := by
      rw [← hfig]
      simp [List.getElem?_modify, hk, Axes.add]
    obtain ⟨lines, c', g1, g2, g3, g4⟩ := ih (i + 1) (fun e he => hd e (List.mem_cons_of_mem _ he)) fig (some s) c2
      (by rw [hc2]; simpa using hk) hfig2
    rw [hfig1, g1]
    refine ⟨a :: b :: lines, c', ?_, ⟨a, b, lines, rfl, ⟨rfl, hv, rfl⟩, ⟨rfl, rfl, rfl⟩, rfl, rfl, g2⟩,
      fun h => absurd h (by simp), fun _ => ?_⟩
    · cases l with
      | nil => rfl
      | cons e' l => 
        simp only [List.getLast?_cons_cons]
        have : ∃ z, (e' :: l).getLast? = some z := ⟨_, List.getLast?_cons⟩
        obtain ⟨z, hz⟩ := this
        rw [hz]; rfl
    · rcases l with _ | ⟨e', l⟩
      · rw [g3 rfl, hc2]
        have : lines = [] := g2
        subst this
        congr 2
        funext A
        simp [Axes.add]
      · rw [g4 (by simp), hc2]
        simp only [List.modify_modify_eq]
        congr 2
        funext A
        simp [Axes.add]

end

end Hel
