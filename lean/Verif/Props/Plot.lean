import Verif.Proofs.Plot
import Verif.Props.Optimize

/-! # Property C63: plots show the data and the fit -/

namespace Props
open Spec Hel

variable {Z : Type}

/-! ## Experiments and simulations -/

/-- `experiment.plot_stress_stretch(...)` adds one line: the measured forces per area over the
measured stretches, with the given label or the label of the experiment. -/
theorem C63_experiment (label : String) (u f : List ℝ) (A L : ℝ) (hl : u.length = f.length) (style : Style)
    (xl yl : String) (ax : Option ℕ) (la : Option String) (c : Canvas) (hc : OnScreen c ax) :
    ∃ r c', (Experiment.init label u f A L).plotter.plotStressStretch style xl yl ax la c = (.ok r, c') ∧
      Adds c ax ⟨u.map fun d => 1 + d / L, f.map (· / A), some (la.getD label), style⟩ xl yl r c' := by
  have := plotStress_adds (self := (Experiment.init label u f A L).plotter) style xl yl ax la c hc (y := f.map (· / A)) rfl
    (by simp [Experiment.plotter, Experiment.init, hl])
  cases la <;> exact this

/-- `experiment.plot_force_displacement(...)` adds the measured forces over the measured
displacements. -/
theorem C63_force_displacement (label : String) (u f : List ℝ) (A L : ℝ) (hl : u.length = f.length) (style : Style)
    (xl yl : String) (ax : Option ℕ) (la : Option String) (c : Canvas) (hc : OnScreen c ax) :
    ∃ r c', (Experiment.init label u f A L).plotter.plotForceDisplacement style xl yl ax la c = (.ok r, c') ∧
      Adds c ax ⟨u, f, some (la.getD label), style⟩ xl yl r c' := by
  have := plotForce_adds (self := (Experiment.init label u f A L).plotter) style xl yl ax la c hc (x := u) (y := f) rfl rfl hl
  cases la <;> exact this

/-- `simulation.plot_stress_stretch(...)` adds the stress of the simulation with its present
parameters over its stretches, with the given label or that of the load case. -/
theorem C63_simulation (w : World Z) (s : SimObj Z) (y : List ℝ)
    (hy : s.sim.stressCurveFit s.sim.stretch (w.params s.parameters).vals = .ok y) (style : Style)
    (xl yl : String) (ax : Option ℕ) (la : Option String) (c : Canvas) (hc : OnScreen c ax) :
    ∃ r c', (s.plotter w).plotStressStretch style xl yl ax la c = (.ok r, c') ∧
      Adds c ax ⟨s.sim.stretch, y, some (la.getD s.sim.loadcase.label), style⟩ xl yl r c' := by
  have := plotStress_adds (self := s.plotter w) style xl yl ax la c hc (y := y) hy (stressCurveFit_length hy).symm
  cases la <;> exact this

/-- The method `plot_force_displacement` of a simulation never works: it raises `AttributeError` for
every simulation, and leaves a new, empty figure behind if no axes are given. -/
theorem C63_simulation_force_false (w : World Z) (s : SimObj Z) (style : Style) (xl yl : String) (ax : Option ℕ)
    (la : Option String) (c : Canvas) :
    (s.plotter w).plotForceDisplacement style xl yl ax la c = (.error .attributeError,
      if ax = none then ⟨c.figs + 1, c.axes ++ [{ fig := c.figs }]⟩ else c) := by
  cases ax <;> rfl

/-! ## `Optimize.plot` -/

theorem plot_run (w : World Z) (o : ℕ) (hd : Drawable w (w.opts o) (held w))
    (hne : (w.opts o).simulations.zip (w.opts o).experiments ≠ []) (errors : List Num) (he : (w.opts o).errors = some errors)
    (norm : ℝ) (hn : normResiduals o w = (.ok norm, w)) (mean : Num) (hm : meanRelativeStd o w = (.ok mean, w))
    (title : Option String) (c : Canvas) :
    ∃ lines s e, ((w.opts o).simulations.zip (w.opts o).experiments).getLast? = some (s, e) ∧
      ShowsFit w (held w) ((w.opts o).simulations.zip (w.opts o).experiments) 0 lines ∧
      optimizePlot o title ⟨w, c⟩ = (.ok (c.figs, c.axes.length), ⟨w, ⟨c.figs + 1, c.axes ++ [{
        fig := c.figs
        lines := lines
        xlabel := "Stretch $l/L$"
        ylabel := "Force per undeformed area $F/A$"
        legend := some 2
        text := some ⟨(w.sims s).sim.labels.zip ((w.params (w.opts o).parameters).vals.zip
          (errors.map fun s => s.map fun v => 2 * v)), norm, mean⟩
        title := title }]⟩⟩) := by
  have hk : c.axes.length < (c.axes ++ [({ fig := c.figs } : Axes)]).length := by simp
  obtain ⟨lines, c', h1, h2, -, h3⟩ := plotPairs_run w _ 0 hd c.figs c.axes.length none
    ⟨c.figs + 1, c.axes ++ [{ fig := c.figs }]⟩ hk (by simp)
  obtain ⟨⟨s, e⟩, hse⟩ : ∃ z, ((w.opts o).simulations.zip (w.opts o).experiments).getLast? = some z :=
    ⟨_, List.getLast?_eq_some_getLast hne⟩
  refine ⟨lines, s, e, hse, h2, ?_⟩
  have h3 := h3 hne
  rw [hse] at h1
  rw [h3] at h1
  simp only [modify_last] at h1
  simp only [optimizePlot, PyM.bind_run, drawing, computing, PyM.sub_run, subplots, PyM.assign_run, read_run, id,
    PyM.pure_run, h1, onAxes, Option.map_some, Option.some_or, PyM.localVar_some, PyM.attr_run, he, hn, hm, modify_last]
  cases title <;> rfl

theorem pairs_ne {w : World Z} {o : ℕ} {x y : List (List ℝ)} {f0 d : List ℝ} (hp : Prep w o x y f0 d) :
    (w.opts o).simulations.zip (w.opts o).experiments ≠ [] := by
  obtain ⟨vs, h1, h2, -⟩ := (World.evaluate_iff ..).1 hp.hf
  have hx := (selectAll_iff _ _ _).1 hp.hx
  intro h
  rw [List.zip_eq_nil_iff] at h
  rcases h with h | h
  · rw [h] at h2
    cases h2
    exact h1 rfl
  · rw [h, List.zip_nil_right] at hx
    cases hx
    rw [List.zip_nil_right] at h2
    cases h2
    exact h1 rfl

theorem meanStd_returns {w : World Z} {o : ℕ} {e : List Num} (he : (w.opts o).errors = some e)
    (hl : e.length = (w.params (w.opts o).parameters).vals.length) : ∃ mean, meanRelativeStd o w = (.ok mean, w) := by
  unfold meanRelativeStd
  simp only [PyM.bind_run, PyM.attr_run, he, read_run, hl, if_true, PyM.pure_run]
  exact ⟨_, rfl⟩

/-- The plot of an optimizer after its own fit has returned, whatever has been plotted before.  It
changes no parameter, simulation or optimizer and opens one new figure.  For every experiment it
shows the curve of its simulation *with the returned parameters* and the measured data; the text
lists the returned parameters under the labels of the last simulation with twice the standard
deviations of the returned covariance, the norm of the residuals and the mean deviation which
`norm_residuals()` and `mean_relative_std()` return. -/
theorem C63_fit (w w' : World Z) (o : ℕ) (solver : Solver) (hs : Solver.WellFormed solver)
    (hk : Writable (w.params (w.opts o).parameters).kind) (r : ℕ) (pcov : List (List Num))
    (h : curveFit o solver w = (.ok (r, pcov), w')) (hd : Drawable w (w.opts o) fun _ => (w'.params r).vals)
    (title : Option String) (c : Canvas) :
    ∃ lines s e norm mean, ((w.opts o).simulations.zip (w.opts o).experiments).getLast? = some (s, e) ∧
      ShowsFit w (fun _ => (w'.params r).vals) ((w.opts o).simulations.zip (w.opts o).experiments) 0 lines ∧
      normResiduals o w' = (.ok norm, w') ∧ meanRelativeStd o w' = (.ok mean, w') ∧
      optimizePlot o title ⟨w', c⟩ = (.ok (c.figs, c.axes.length), ⟨w', ⟨c.figs + 1, c.axes ++ [{
        fig := c.figs
        lines := lines
        xlabel := "Stretch $l/L$"
        ylabel := "Force per undeformed area $F/A$"
        legend := some 2
        text := some ⟨(w.sims s).sim.labels.zip ((w'.params r).vals.zip
          (((npDiag pcov).map npSqrt).map fun s => s.map fun v => 2 * v)), norm, mean⟩
        title := title }]⟩⟩) := by
  obtain ⟨popt, xs, ys, F, -, -, g1, g2, g3, g4, g6, g7, g5⟩ := C47_coherent_partial w w' o solver hs hk r pcov h
  obtain ⟨-, hf2, -, -, hf5, hf6, -, -⟩ := C47_frame w o solver hs w' (by rw [h])
  obtain ⟨hl1, hl2, hl3⟩ := hs _ _ _ _ _ _ g1
  obtain ⟨-, -, xs', ys', vs, d, -, -, -, hres⟩ := g7
  have hne : (w.opts o).simulations.zip (w.opts o).experiments ≠ [] := by
    obtain ⟨x, y, f0, d, popt, fopt, obj, d', hp, -⟩ := fit_result hs h
    exact pairs_ne hp
  have hheld : ∀ s ∈ (w.opts o).simulations, held w' s = (w'.params r).vals := fun s hs => by
    unfold held; rw [g6 s hs]
  have hd' : Drawable w' (w'.opts o) (held w') := by
    intro e he
    rw [hf5, hf6] at he
    have := hd e he
    rw [hf2, hheld _ (List.of_mem_zip he).1]
    exact this
  have hn : normResiduals o w' = (.ok (√((d.map fun v => v ^ 2).sum)), w') := by
    unfold normResiduals
    simp only [PyM.bind_run, PyM.attr_run, hres, PyM.pure_run]
  obtain ⟨mean, hm⟩ := meanStd_returns (w := w') g5 (by
    rw [g3, g4, List.length_map, npDiag_length hl2 hl3, hl1])
  obtain ⟨lines, s, e, h1, h2, h3⟩ := plot_run w' o hd' (by rw [hf5, hf6]; exact hne) _ g5 _ hn _ hm title c
  rw [hf5, hf6] at h1 h2
  refine ⟨lines, s, e, _, mean, h1, ?_, hn, hm, ?_⟩
  · have key : ∀ (l : List (ℕ × Experiment)) (i : ℕ) (lines : List Line), (∀ e ∈ l, e.1 ∈ (w.opts o).simulations) →
        ShowsFit w' (held w') l i lines → ShowsFit w (fun _ => (w'.params r).vals) l i lines := by
      intro l
      induction l with
      | nil => intro i lines _ h; exact h
      | cons se l ih =>
        rintro i lines hm ⟨a, b, rest, e1, ⟨a1, a2, a3⟩, e3, e4, e5, e6⟩
        rw [hf2] at a1 a2
        rw [hheld _ (hm _ List.mem_cons_self)] at a2
        exact ⟨a, b, rest, e1, ⟨a1, a2, a3⟩, e3, e4, e5, ih _ _ (fun e he => hm e (List.mem_cons_of_mem _ he)) e6⟩
    exact key _ _ _ (fun e he => (List.of_mem_zip he).1) h2
  · rw [h3, g3, hf2]

/-- The call leaves the objects of the library alone. -/
def Keeps {α : Type} (m : PyM (Session Z) α) : Prop := ∀ σ, (m σ).2.world = σ.world

theorem Keeps.bind {α β : Type} {m : PyM (Session Z) α} {f : α → PyM (Session Z) β} (hm : Keeps m)
    (hf : ∀ a, Keeps (f a)) : Keeps (m >>= f) := by
  intro σ
  have h := hm σ
  rw [PyM.bind_run]
  generalize m σ = q at h ⊢
  rcases q with ⟨_ | a, σ'⟩
  · exact h
  · exact (hf a σ').trans h

theorem Keeps.drawing {α : Type} (m : PyM Canvas α) : Keeps (drawing m : PyM (Session Z) α) := fun _ => rfl
theorem Keeps.read {α : Type} (f : Session Z → α) : Keeps (PyM.read f) := fun _ => rfl
theorem Keeps.pure {α : Type} (a : α) : Keeps (pure a : PyM (Session Z) α) := fun _ => rfl
theorem Keeps.localVar {α : Type} (a : Option α) : Keeps (PyM.localVar a : PyM (Session Z) α) := fun _ => by
  cases a <;> rfl
theorem Keeps.attr {α : Type} (f : Session Z → Option α) : Keeps (PyM.attr f) := fun σ => by
  rw [PyM.attr_run]; cases f σ <;> rfl

theorem Keeps.computing {α : Type} {m : PyM (World Z) α} (h : ∀ w, (m w).2 = w) : Keeps (computing m) := fun σ => h σ.world

theorem Keeps.plotPairs (l : List ((ℕ × Experiment) × ℕ)) (fig ax : ℕ) (sim : Option ℕ) :
    Keeps (plotPairs l fig ax sim : PyM (Session Z) _) := by
  induction l generalizing fig ax sim with
  | nil => exact Keeps.pure _
  | cons e l ih =>
    exact .bind (.read _) fun _ => .bind (.drawing _) fun _ => .bind (.drawing _) fun _ => ih _ _ _

/-- Whether it returns or raises: `plot` changes no parameter object, simulation or optimizer. -/
theorem C63_read_only (o : ℕ) (title : Option String) (σ : Session Z) : (optimizePlot o title σ).2.world = σ.world := by
  have hn : ∀ w : World Z, (normResiduals o w).2 = w := by
    intro w
    unfold normResiduals
    rw [PyM.bind_run, PyM.attr_run]
    cases (w.opts o).residuals <;> rfl
  have hm : ∀ w : World Z, (meanRelativeStd o w).2 = w := by
    intro w
    unfold meanRelativeStd
    rw [PyM.bind_run, PyM.attr_run]
    cases (w.opts o).errors with
    | none => rfl
    | some e =>
      simp only [PyM.bind_run, read_run]
      split_ifs <;> rfl
  have : Keeps (optimizePlot o title : PyM (Session Z) _) :=
    .bind (.drawing _) fun _ => .bind (.read _) fun _ => .bind (.plotPairs _ _ _ _) fun _ => .bind (.drawing _) fun _ =>
      .bind (.localVar _) fun _ => .bind (.read _) fun _ => .bind (.attr _) fun _ => .bind (.computing hn) fun _ =>
      .bind (.computing hm) fun _ => .bind (.drawing _) fun _ => .bind (.drawing _) fun _ => .pure _
  exact this σ

/-- Before the first fit there is no plot: the call raises. -/
theorem C63_before (w : World Z) (o : ℕ) (h : (w.opts o).errors = none) (title : Option String) (c : Canvas) :
    ∃ e, (optimizePlot o title ⟨w, c⟩).1 = .error e := by
  unfold optimizePlot
  simp only [PyM.bind_run, drawing, PyM.sub_run, subplots, read_run, PyM.assign_run, PyM.pure_run, id]
  have hw := Keeps.plotPairs (((w.opts o).simulations.zip (w.opts o).experiments).zipIdx) c.figs
    c.axes.length none ⟨w, ⟨c.figs + 1, c.axes ++ [{ fig := c.figs }]⟩⟩
  generalize plotPairs (((w.opts o).simulations.zip (w.opts o).experiments).zipIdx) c.figs
    c.axes.length none ⟨w, ⟨c.figs + 1, c.axes ++ [{ fig := c.figs }]⟩⟩ = q at hw ⊢
  rcases q with ⟨_ | ⟨f, a, sim⟩, σ'⟩
  · exact ⟨_, rfl⟩
  · cases sim with
    | none => exact ⟨_, rfl⟩
    | some s =>
      have hw : σ'.world = w := hw
      simp only [onAxes, PyM.assign_run, PyM.localVar_some, PyM.attr_run, hw, h]
      exact ⟨_, rfl⟩

/-! ### two optimizers with a common simulation -/

/-- One optimizer of the two-point session. -/
structure TwoPoints (w : World Unit) (o r : ℕ) (p : ℝ) : Prop where
  sim : (w.sims 0).sim = ⟨uniaxial none, [1, 2], ["C10"], todDeformation⟩
  exps : (w.opts o).experiments = [Experiment.init "" [0, 1] [0, 1]]
  sims : (w.opts o).simulations = [0]
  par : (w.opts o).parameters = r
  mask : (w.opts o).mask = [.slice none none none]
  val : w.params r = ⟨.floatArray, [p]⟩

theorem TwoPoints.curve {w : World Unit} {o r : ℕ} {p : ℝ} (h : TwoPoints w o r p) (c : ℝ) :
    (w.sims 0).sim.stressCurveFit [1, 2] [c] = .ok [0, 7 / 2 * c] := by
  rw [h.sim]
  exact session_curve .floatArray c 0

theorem TwoPoints.fit {w : World Unit} {o r : ℕ} {p : ℝ} (h : TwoPoints w o r p) :
    ∃ w', curveFit o halfSolver w = (.ok (r, [[some 0]]), w') ∧ (w'.params r).vals = [p / 2] := by
  have hdata : selectAll (·.stretch) (w.opts o) = .ok [[1, 2]] ∧ selectAll (·.stress) (w.opts o) = .ok [[0, 1]] := by
    rw [fitData_iff]
    unfold FitData
    rw [h.mask, h.exps]
    refine ⟨.cons ((selected_all _ _).2 ?_) .nil, .cons ((selected_all _ _).2 ?_) .nil⟩
    · simp [Experiment.init]; norm_num
    · simp [Experiment.init]
  have hev : ∀ c, w.evaluate (w.opts o).simulations [[1, 2]] [c] = .ok [0, 7 / 2 * c] := by
    intro c
    rw [World.evaluate_iff, h.sims]
    exact ⟨[[0, 7 / 2 * c]], by simp, .cons (h.curve c) .nil, by simp⟩
  have hval : (w.params (w.opts o).parameters) = ⟨.floatArray, [p]⟩ := by rw [h.par, h.val]
  have hp : Prep w o [[1, 2]] [[0, 1]] [0, 7 / 2 * p] [0, 7 / 2 * p - 1] := by
    refine ⟨hdata.1, hdata.2, by rw [hval]; exact hev p, rfl, ?_⟩
    simp only [npSub, List.flatten]; norm_num
  have hi : initCurveFit o w = (.ok (w.opts o).parameters, prepared w o [[1, 2]] [[0, 1]] [0, 7 / 2 * p - 1]) := by
    rcases init_cases w o with ⟨e, f, x', y', errs, -, h⟩ | ⟨x', y', f0', d'', hp', hi'⟩
    · exact absurd ⟨_, _, _, _, hp⟩ h
    · cases hp'.hx.symm.trans hp.hx
      cases hp'.hy.symm.trans hp.hy
      cases hp'.hf.symm.trans hp.hf
      cases hp'.hd.symm.trans hp.hd
      exact hi'
  have hsol : halfSolver (objective w o [[1, 2]]) [[1, 2]].flatten [[0, 1]].flatten
      (w.params (w.opts o).parameters).vals = .ok ([p / 2], [[some 0]]) := by rw [hval]; rfl
  have hobj : (w.params (w.opts o).parameters).setAll [p / 2] = .ok ⟨.floatArray, [p / 2]⟩ := by rw [hval]; rfl
  rcases fit_cases hp hi halfSolver halfSolver_wellFormed with
    ⟨e, -, h'⟩ | ⟨popt, pcov, fopt, obj', d', h1, h2, h3, h4, h5⟩
  · exfalso
    rcases h' with h' | ⟨popt, pcov, h1, h2⟩
    · cases hsol.symm.trans h'
    · cases hsol.symm.trans h1
      rcases h2 with h2 | ⟨-, h2⟩
      · cases (hev _).symm.trans h2
      · cases hobj.symm.trans h2
  · cases hsol.symm.trans h1
    cases hobj.symm.trans h3
    refine ⟨_, by rw [h5, h.par], ?_⟩
    rw [← h.par, fitted_params, if_pos rfl]

/-- Two optimizers with their own parameters, which use the same simulation. -/
noncomputable def sharing : World Unit where
  params q := ⟨.floatArray, if q = 7 then [1] else [3]⟩
  sims _ := ⟨⟨uniaxial none, [1, 2], ["C10"], todDeformation⟩, 0⟩
  opts o := Optimizer.init [Experiment.init "" [0, 1] [0, 1]] [0] (if o = 0 then 7 else 8)

theorem sharing_one : TwoPoints sharing 0 7 1 := ⟨rfl, rfl, rfl, rfl, rfl, rfl⟩

/-- The hypotheses of `C63_fit` are met. -/
theorem sharing_drawable (p : ℝ) : Drawable sharing (sharing.opts 0) fun _ => [p] := by
  intro e he
  have : e = (0, Experiment.init "" [0, 1] [0, 1]) := by simpa [sharing, Optimizer.init] using he
  subst this
  exact ⟨⟨_, sharing_one.curve p⟩, rfl⟩

example : ∃ w', curveFit 0 halfSolver sharing = (.ok (7, [[some 0]]), w') ∧
    Drawable sharing (sharing.opts 0) fun _ => (w'.params 7).vals := by
  obtain ⟨w', h1, h2⟩ := sharing_one.fit
  exact ⟨w', h1, by rw [h2]; exact sharing_drawable _⟩

/-- The curves need not belong to the listed parameters: after the fit of a second optimizer, with
parameters of its own but on the same simulation, the plot of the first one lists its parameters
(`C10 = 0.5`) beside the curve of the other ones (`C10 = 1.5`). -/
theorem C63_shared_false : ∃ (w w1 w2 : World Unit) (r1 r2 : ℕ) (pcov1 pcov2 : List (List Num)),
    curveFit 0 halfSolver w = (.ok (r1, pcov1), w1) ∧ curveFit 1 halfSolver w1 = (.ok (r2, pcov2), w2) ∧ r1 ≠ r2 ∧
    ∀ c, ∃ lines text t A, optimizePlot 0 none ⟨w2, c⟩ = (.ok t, ⟨w2, ⟨c.figs + 1, c.axes ++ [A]⟩⟩) ∧
      A.lines = lines ∧ A.text = some text ∧ text.rows = [("C10", 1 / 2, some 0)] ∧
      (w2.params r1).vals = [1 / 2] ∧
      ShowsFit w (fun _ => [3 / 2]) ((w.opts 0).simulations.zip (w.opts 0).experiments) 0 lines ∧
      ¬ ShowsFit w (fun _ => [1 / 2]) ((w.opts 0).simulations.zip (w.opts 0).experiments) 0 lines := by
  obtain ⟨w1, h1, hv1⟩ := sharing_one.fit
  obtain ⟨f1, f2, -, f4, f5, f6, f7, f8⟩ := C47_frame sharing 0 halfSolver halfSolver_wellFormed w1 (by rw [h1])
  obtain ⟨popt1, -, -, -, -, -, -, -, -, -, -, ⟨-, -, -, -, -, d1, -, -, -, hres1⟩, herr1⟩ :=
    C47_coherent_partial sharing w1 0 halfSolver halfSolver_wellFormed (Or.inr rfl) 7 _ h1
  have hts : TwoPoints w1 1 8 3 := by
    have e1 : w1.opts 1 = sharing.opts 1 := f4 1 (by decide)
    refine ⟨by rw [f2]; rfl, by rw [e1]; rfl, by rw [e1]; rfl, by rw [e1]; rfl, by rw [e1]; rfl, ?_⟩
    rw [f1 8 (by decide)]; rfl
  obtain ⟨w2, h2, hv2⟩ := hts.fit
  obtain ⟨g1, g2, -, g4, -⟩ := C47_frame w1 1 halfSolver halfSolver_wellFormed w2 (by rw [h2])
  obtain ⟨-, -, -, -, -, -, -, -, -, -, hheld2, -⟩ := C47_coherent_partial w1 w2 1 halfSolver halfSolver_wellFormed
    (by rw [hts.par, hts.val]; exact Or.inr rfl) 8 _ h2
  have hp0 : (w2.sims 0).parameters = 8 := hheld2 0 (by rw [hts.sims]; simp)
  have e0 : w2.opts 0 = w1.opts 0 := g4 0 (by decide)
  have hpar : (w2.opts 0).parameters = 7 := by rw [e0, f7]; rfl
  have hval7 : (w2.params 7).vals = [1 / 2] := by rw [g1 7 (by rw [hts.par]; decide), hv1]
  have hval8 : (w2.params 8).vals = [3 / 2] := hv2
  have hs2 : (w2.sims 0).sim = (sharing.sims 0).sim := by rw [g2, f2]
  have hzip : (w2.opts 0).simulations.zip (w2.opts 0).experiments = [(0, Experiment.init "" [0, 1] [0, 1])] := by
    rw [e0, f6, f5]; rfl
  have hheld : held w2 0 = [3 / 2] := by rw [held, hp0, hval8]
  have hd : Drawable w2 (w2.opts 0) (held w2) := by
    intro e he
    rw [hzip, List.mem_singleton] at he
    subst he
    rw [hs2, hheld]
    exact ⟨⟨_, sharing_one.curve _⟩, rfl⟩
  have herr : (w2.opts 0).errors = some [some 0] := by
    rw [e0, herr1]
    simp [npDiag, npSqrt]
  have hn : normResiduals 0 w2 = (.ok (√((d1.map fun v => v ^ 2).sum)), w2) := by
    unfold normResiduals
    simp only [PyM.bind_run, PyM.attr_run, e0, hres1, PyM.pure_run]
  obtain ⟨mean, hm⟩ := meanStd_returns (w := w2) herr (by rw [hpar, hval7]; rfl)
  refine ⟨sharing, w1, w2, 7, 8, _, _, h1, h2, by decide, fun c => ?_⟩
  obtain ⟨lines, s, e, k1, k2, k3⟩ := plot_run w2 0 hd (by rw [hzip]; simp) _ herr _ hn mean hm none c
  rw [hzip] at k1 k2
  simp only [List.getLast?_singleton, Option.some.injEq, Prod.mk.injEq] at k1
  obtain ⟨rfl, rfl⟩ := k1
  obtain ⟨a, b, rest, rfl, ⟨a1, a2, a3⟩, b1, c1, c2, c3⟩ := k2
  rw [hs2] at a1 a2
  rw [hheld] at a2
  refine ⟨_, _, _, _, k3, rfl, rfl, ?_, hval7, ?_, ?_⟩
  · rw [hs2, hpar, hval7]
    simp [sharing]
  · exact ⟨a, b, rest, rfl, ⟨a1, a2, a3⟩, b1, c1, c2, c3⟩
  · rintro ⟨a', b', rest', h, ⟨-, a2', -⟩, -⟩
    obtain ⟨rfl, h⟩ := List.cons.inj h
    have ax : a.x = [1, 2] := a1
    rw [ax] at a2 a2'
    have q1 := (sharing_one.curve (3 / 2)).symm.trans a2
    have q2 := (sharing_one.curve (1 / 2)).symm.trans a2'
    have q3 : ([0, 7 / 2 * (3 / 2)] : List ℝ) = [0, 7 / 2 * (1 / 2)] :=
      (Except.ok.inj q1).trans (Except.ok.inj q2).symm
    norm_num at q3

end Props
