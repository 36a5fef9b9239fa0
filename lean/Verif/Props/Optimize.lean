import Verif.Proofs.Optimize
import Verif.Props.LabCurves

/-! # Properties C47, C48, C50: optimizers -/

namespace Props
open Spec Hel

variable {Z : Type}

/-! ## C47 -/

theorem setAll_writable {a b : ParamObj} {src : List ℝ} (hk : Writable a.kind) (hl : src.length = a.vals.length)
    (h : a.setAll src = .ok b) : b = { a with vals := src } := by
  obtain ⟨k, v⟩ := a
  rcases hk with hk | hk <;> simp only at hk hl <;> subst hk
  · cases h; rfl
  · simp only [ParamObj.setAll, npFill, hl, if_true] at h
    cases h; rfl

theorem fit_result {w w' : World Z} {o : ℕ} {solver : Solver} (hs : Solver.WellFormed solver) {r : ℕ}
    {pcov : List (List Num)} (h : curveFit o solver w = (.ok (r, pcov), w')) :
    ∃ x y f0 d popt fopt obj d', Prep w o x y f0 d ∧
      solver (objective w o x) x.flatten y.flatten (w.params (w.opts o).parameters).vals = .ok (popt, pcov) ∧
      w.evaluate (w.opts o).simulations x popt = .ok fopt ∧ (w.params (w.opts o).parameters).setAll popt = .ok obj ∧
      npSub fopt y.flatten = .ok d' ∧ r = (w.opts o).parameters ∧
      w' = fitted (prepared w o x y d) o r obj ((npDiag pcov).map npSqrt) d' := by
  rcases init_cases w o with ⟨e, f, x, y, errs, hi, -⟩ | ⟨x, y, f0, d, hp, hi⟩
  · unfold curveFit at h
    rw [PyM.bind_run, hi] at h
    cases h
  · rcases fit_cases hp hi solver hs with ⟨e, he, -⟩ | ⟨popt, pcov', fopt, obj, d', h1, h2, h3, h4, h5⟩
    · rw [he] at h; cases h
    · rw [h5] at h
      cases h
      exact ⟨x, y, f0, d, popt, fopt, obj, d', hp, h1, h2, h3, h4, rfl, rfl⟩

theorem fitted_params (w1 : World Z) (o r : ℕ) (obj : ParamObj) (e : List Num) (d : List ℝ) (q : ℕ) :
    (fitted w1 o r obj e d).params q = if q = r then obj else w1.params q := by
  simp [fitted, World.setParam, Function.update_apply]

theorem fitted_opt (w1 : World Z) (o r : ℕ) (obj : ParamObj) (e : List Num) (d : List ℝ) :
    (fitted w1 o r obj e d).opts o = { w1.opts o with errors := some e, residuals := some d } := by
  simp [fitted]

theorem objective_spec (w : World Z) (o : ℕ) (x : List (List ℝ)) : Objective w (w.opts o) x (objective w o x) :=
  fun _ p v => World.evaluate_iff w _ x p v

/-- After a fit has returned: the solver was called with the selected data and the concatenated
curves and returned the optimum `popt`; the returned object is the optimizer's parameter object,
still the one the user passed, it now contains `popt`, all simulations hold it, and the residuals
are those of `popt`.  (Partial: for parameters passed as a list or a float array.) -/
theorem C47_coherent_partial (w w' : World Z) (o : ℕ) (solver : Solver) (hs : Solver.WellFormed solver)
    (hk : Writable (w.params (w.opts o).parameters).kind) (r : ℕ) (pcov : List (List Num))
    (h : curveFit o solver w = (.ok (r, pcov), w')) :
    ∃ popt xs ys F, FitData (w.opts o) xs ys ∧ Objective w (w.opts o) xs F ∧
      solver F xs.flatten ys.flatten (w.params (w.opts o).parameters).vals = .ok (popt, pcov) ∧
      r = (w.opts o).parameters ∧ (w'.opts o).parameters = r ∧ (w'.params r).vals = popt ∧
      (∀ s ∈ (w.opts o).simulations, (w'.sims s).parameters = r) ∧ Coherent w' o popt ∧
      (w'.opts o).errors = some ((npDiag pcov).map npSqrt) := by
  obtain ⟨x, y, f0, d, popt, fopt, obj, d', hp, h1, h2, h3, h4, rfl, rfl⟩ := fit_result hs h
  have hobj := setAll_writable hk (hs _ _ _ _ _ _ h1).1 h3
  have hfd := (fitData_iff _ _ _).1 ⟨hp.hx, hp.hy⟩
  obtain ⟨vs, -, hvs, rfl⟩ := (World.evaluate_iff ..).1 h2
  have hopt := fitted_opt (prepared w o x y d) o (w.opts o).parameters obj ((npDiag pcov).map npSqrt) d'
  rw [prepared_opt] at hopt
  refine ⟨popt, x, y, _, hfd, objective_spec w o x, h1, rfl, by rw [hopt], ?_, fun s hs => prepared_sims w o x y d s hs,
    ⟨?_, ?_, x, y, vs, d', ?_, ?_, h4, ?_⟩, ?_⟩
  · rw [fitted_params, if_pos rfl, hobj]
  · rw [hopt, fitted_params, if_pos rfl, hobj]
  · rw [hopt]
    exact fun s hs => prepared_sims w o x y d s hs
  · rw [hopt]; exact hfd
  · rw [hopt]
    refine hvs.imp fun e v hev => ?_
    have : ((fitted (prepared w o x y d) o (w.opts o).parameters obj ((npDiag pcov).map npSqrt) d').sims e.1).sim =
      (w.sims e.1).sim := prepared_sim w o x y d e.1
    rw [this]
    exact hev
  · rw [hopt]
  · rw [hopt]

/-- If a fit raises, whatever the reason and the type of the parameter object: no parameter object
has changed. -/
theorem C47_raises (w w' : World Z) (o : ℕ) (solver : Solver) (hs : Solver.WellFormed solver) (e : PyErr)
    (h : curveFit o solver w = (.error e, w')) : w'.params = w.params := by
  rcases init_cases w o with ⟨e, f, x, y, errs, hi, -⟩ | ⟨x, y, f0, d, hp, hi⟩
  · unfold curveFit at h
    rw [PyM.bind_run, hi] at h
    cases h
    rfl
  · rcases fit_cases hp hi solver hs with ⟨e, he, -⟩ | ⟨popt, pcov', fopt, obj, d', h1, h2, h3, h4, h5⟩
    · rw [he] at h; cases h; exact prepared_params w o x y d
    · rw [h5] at h; cases h

/-- A fit, successful or not, touches nothing but the parameter object of the optimizer, the
parameter attributes of its simulations and the results of the optimizer itself. -/
theorem C47_frame (w : World Z) (o : ℕ) (solver : Solver) (hs : Solver.WellFormed solver) (w' : World Z)
    (hw' : w' = (curveFit o solver w).2) :
    (∀ q, q ≠ (w.opts o).parameters → w'.params q = w.params q) ∧
    (∀ s, (w'.sims s).sim = (w.sims s).sim) ∧ (∀ s, s ∉ (w.opts o).simulations → w'.sims s = w.sims s) ∧
    (∀ o', o' ≠ o → w'.opts o' = w.opts o') ∧
    (w'.opts o).experiments = (w.opts o).experiments ∧ (w'.opts o).simulations = (w.opts o).simulations ∧
    (w'.opts o).parameters = (w.opts o).parameters ∧ (w'.opts o).mask = (w.opts o).mask := by
  subst hw'
  have hprep : ∀ x y d, (∀ s, s ∉ (w.opts o).simulations → (prepared w o x y d).sims s = w.sims s) ∧
      ∀ o', o' ≠ o → (prepared w o x y d).opts o' = w.opts o' := fun x y d =>
    ⟨fun s hs => by simp [prepared, World.bindAll_sims, hs], fun o' ho => by
      simp [prepared, World.setOpt_opts_ne _ ho]⟩
  rcases init_cases w o with ⟨e, f, x, y, errs, hi, -⟩ | ⟨x, y, f0, d, hp, hi⟩
  · have : (curveFit o solver w).2 = w.setOpt o fun op => { op with f := f, x := x, y := y, errors := errs } := by
      unfold curveFit
      rw [PyM.bind_run, hi]
    rw [this]
    refine ⟨fun _ _ => rfl, fun _ => rfl, fun _ _ => rfl, fun o' ho => World.setOpt_opts_ne _ ho _, ?_⟩
    rw [World.setOpt_opts]
    exact ⟨rfl, rfl, rfl, rfl⟩
  · rcases fit_cases hp hi solver hs with ⟨e, he, -⟩ | ⟨popt, pcov', fopt, obj, d', h1, h2, h3, h4, h5⟩
    · rw [he]
      refine ⟨fun q _ => by rw [prepared_params], prepared_sim w o x y d, (hprep x y d).1, (hprep x y d).2, ?_⟩
      simp only [prepared_opt, and_self]
    · rw [h5]
      refine ⟨fun q hq => by rw [fitted_params, if_neg hq, prepared_params], prepared_sim w o x y d, (hprep x y d).1,
        fun o' ho => ?_, ?_⟩
      · rw [fitted, World.setOpt_opts_ne _ ho]
        exact (hprep x y d).2 o' ho
      · simp only [fitted_opt, prepared_opt, and_self]

/-- Tuples cannot be fitted: every fit raises. -/
theorem C47_tuple (w : World Z) (o : ℕ) (solver : Solver) (hs : Solver.WellFormed solver)
    (hk : (w.params (w.opts o).parameters).kind = .tuple) : ∃ e, (curveFit o solver w).1 = .error e := by
  rcases hc : curveFit o solver w with ⟨e | ⟨r, pcov⟩, w'⟩
  · exact ⟨e, rfl⟩
  · obtain ⟨x, y, f0, d, popt, fopt, obj, d', hp, h1, h2, h3, h4, rfl, rfl⟩ := fit_result hs hc
    rw [ParamObj.setAll, hk] at h3
    cases h3

theorem curves_congr {w w' : World Z} (h : ∀ s, (w'.sims s).sim = (w.sims s).sim) (op : Optimizer) (xs : List (List ℝ))
    (p : List ℝ) (vs : List (List ℝ)) : Curves w' op xs p vs ↔ Curves w op xs p vs := by
  unfold Curves
  simp only [h]

/-- A coherent optimizer stays coherent with the same parameters when a fit fails. -/
theorem C47_failed_fit (w w' : World Z) (o : ℕ) (solver : Solver) (hs : Solver.WellFormed solver) (e : PyErr)
    (h : curveFit o solver w = (.error e, w')) (p : List ℝ) (hc : Coherent w o p) : Coherent w' o p := by
  obtain ⟨hf1, hf2, hf3, hf4, hf5, hf6, hf7, hf8⟩ := C47_frame w o solver hs w' (by rw [h])
  have hpar := C47_raises w w' o solver hs e h
  obtain ⟨hc1, hc2, xs, ys, vs, d, hc3, hc4, hc5, hc6⟩ := hc
  have hfd : FitData (w'.opts o) xs ys := by
    unfold FitData; rw [hf5, hf8]; exact hc3
  have hcv : Curves w' (w'.opts o) xs p vs := by
    unfold Curves
    rw [hf6]
    simp only [hf2]
    exact hc4
  refine ⟨by rw [hpar, hf7, hc1], ?_, xs, ys, vs, d, hfd, hcv, hc5, ?_⟩
  · rcases init_cases w o with ⟨e, f, x, y, errs, hi, -⟩ | ⟨x, y, f0, d', hp, hi⟩
    · unfold curveFit at h
      rw [PyM.bind_run, hi] at h
      cases h
      rw [World.setOpt_opts]
      exact hc2
    · rcases fit_cases hp hi solver hs with ⟨e, he, -⟩ | ⟨popt, pcov', fopt, obj, d', h1, h2, h3, h4, h5⟩
      · rw [he] at h; cases h
        rw [prepared_opt]
        exact prepared_sims w o x y d'
      · rw [h5] at h; cases h
  · rcases init_cases w o with ⟨e, f, x, y, errs, hi, -⟩ | ⟨x, y, f0, d', hp, hi⟩
    · unfold curveFit at h
      rw [PyM.bind_run, hi] at h
      cases h
      rw [World.setOpt_opts]
      exact hc6
    · rcases fit_cases hp hi solver hs with ⟨e, he, -⟩ | ⟨popt, pcov', fopt, obj, d', h1, h2, h3, h4, h5⟩
      · rw [he] at h; cases h
        rw [prepared_opt]
        obtain ⟨hx, hy⟩ := (fitData_iff _ _ _).2 hc3
        cases hx.symm.trans hp.hx
        cases hy.symm.trans hp.hy
        have := hp.hf
        rw [hc1] at this
        obtain ⟨us, -, hus, rfl⟩ := (World.evaluate_iff ..).1 this
        have : us = vs := by
          have := ((mapM_ok_iff _ _ _).2 hus).symm.trans ((mapM_ok_iff _ _ _).2 hc4)
          exact Except.ok.inj this
        subst this
        exact congrArg some (Except.ok.inj (hp.hd.symm.trans hc5))
      · rw [h5] at h; cases h

/-- After any sequence of fits, successful or failing in any order, a coherent optimizer is
coherent: with the same parameters or with an optimum returned by one of the solvers.
(Partial: for parameters passed as a list or a float array.) -/
theorem C47_history_partial (o : ℕ) (solvers : List Solver) (hs : ∀ solver ∈ solvers, Solver.WellFormed solver)
    (w : World Z) (hk : Writable (w.params (w.opts o).parameters).kind) (p : List ℝ) (hc : Coherent w o p) :
    ∃ q, Coherent (fits o solvers w) o q ∧
      (q = p ∨ ∃ solver ∈ solvers, ∃ F x y p0 pcov, solver F x y p0 = .ok (q, pcov)) := by
  induction solvers generalizing w p with
  | nil => exact ⟨p, hc, Or.inl rfl⟩
  | cons solver solvers ih =>
    have hw := hs solver List.mem_cons_self
    have hs' : ∀ s ∈ solvers, Solver.WellFormed s := fun s h => hs s (List.mem_cons_of_mem _ h)
    change ∃ q, Coherent (fits o solvers (curveFit o solver w).2) o q ∧ _
    have hfr := C47_frame w o solver hw _ rfl
    rcases hcf : curveFit o solver w with ⟨e | ⟨r, pcov⟩, w'⟩
    · rw [hcf] at hfr
      have hp := C47_raises w w' o solver hw e hcf
      obtain ⟨q, h1, h2⟩ := ih hs' w' (by
        have : (w'.opts o).parameters = (w.opts o).parameters := hfr.2.2.2.2.2.2.1
        rw [this, hp]; exact hk) p (C47_failed_fit w w' o solver hw e hcf p hc)
      refine ⟨q, h1, h2.imp_right ?_⟩
      rintro ⟨s, hs, h⟩
      exact ⟨s, List.mem_cons_of_mem _ hs, h⟩
    · obtain ⟨popt, xs, ys, F, -, -, h3, h4, h5, h6, h7, h8, -⟩ := C47_coherent_partial w w' o solver hw hk r pcov hcf
      obtain ⟨x, y, f0, d, popt', fopt, obj, d', hp, g1, g2, g3, g4, rfl, g5⟩ := fit_result hw hcf
      have hobj := setAll_writable hk (hw _ _ _ _ _ _ g1).1 g3
      obtain ⟨q, h1, h2⟩ := ih hs' w' (by
        rw [h5, g5, fitted_params, if_pos rfl, hobj]; exact hk) popt h8
      refine ⟨q, h1, ?_⟩
      rcases h2 with rfl | ⟨s, hs, h⟩
      · exact Or.inr ⟨solver, List.mem_cons_self, _, _, _, _, _, h3⟩
      · exact Or.inr ⟨s, List.mem_cons_of_mem _ hs, h⟩

/-- The fits of another optimizer with its own parameter object and its own simulations do not
disturb a coherent optimizer. -/
theorem C47_other_optimizer (w : World Z) (o o' : ℕ) (solver : Solver) (hs : Solver.WellFormed solver) (ho : o ≠ o')
    (hpar : (w.opts o).parameters ≠ (w.opts o').parameters)
    (hsim : ∀ s ∈ (w.opts o).simulations, s ∉ (w.opts o').simulations) (p : List ℝ) (hc : Coherent w o p) :
    Coherent (curveFit o' solver w).2 o p := by
  obtain ⟨hf1, hf2, hf3, hf4, -⟩ := C47_frame w o' solver hs _ rfl
  obtain ⟨hc1, hc2, xs, ys, vs, d, hc3, hc4, hc5, hc6⟩ := hc
  rw [Coherent, hf4 o ho, hf1 _ hpar]
  refine ⟨hc1, fun s h => by rw [hf3 s (hsim s h)]; exact hc2 s h, xs, ys, vs, d, hc3, ?_, hc5, hc6⟩
  exact (curves_congr hf2 _ _ _ _).2 hc4

theorem picks_all (n : ℕ) : Picks n (.slice none none none) (List.range n) := by
  simp only [Picks, Option.getD_none, zero_lt_one, if_true, fromEnd, Option.map_none]
  refine ⟨List.pairwise_lt_range, fun p => ?_⟩
  rw [List.mem_range]
  simp

theorem selected_all (a l : List ℝ) : Selected (.slice none none none) a l ↔ l = a := by
  have key : List.Forall₂ (fun p v => a[p]? = some v) (List.range a.length) a := by
    refine List.forall₂_iff_get.2 ⟨by simp, fun i h1 h2 => ?_⟩
    simp only [List.get_eq_getElem, List.getElem_range]
    exact List.getElem?_eq_getElem h2
  constructor
  · intro h
    have := ((select_iff _ _ _).2 h).symm.trans ((select_iff _ _ _).2 ⟨_, picks_all _, key⟩)
    exact Except.ok.inj this
  · rintro rfl
    exact ⟨_, picks_all _, key⟩

/-! ### a session: one uniaxial experiment with the stretches 1 and 2 -/

/-- One optimizer, one simulation of a Neo-Hookean solid, one experiment with two data points. -/
noncomputable def session (kind : ParamKind) : World Unit where
  params _ := { kind := kind, vals := [1] }
  sims _ := ⟨⟨uniaxial none, [1, 2], ["C10"], todDeformation⟩, 0⟩
  opts _ := Optimizer.init [Experiment.init "" [0, 1] [0, 1]] [0] 7

/-- A solver which returns half of the initial parameters. -/
noncomputable def halfSolver : Solver := fun _ _ _ p0 =>
  .ok (p0.map (· / 2), List.replicate p0.length (List.replicate p0.length (some 0)))

theorem halfSolver_wellFormed : Solver.WellFormed halfSolver := by
  intro F x y p0 popt pcov h
  cases h
  simp

theorem session_curve (kind : ParamKind) (c : ℝ) (s : ℕ) :
    ((session kind).sims s).sim.stressCurveFit [1, 2] [c] = .ok [0, 7 / 2 * c] := by
  rw [C42_curve (k := .uniaxial) (lab := none) (hk := rfl) (hm := Or.inl rfl) (hn := by simp [session])
    (hx := by simp)]
  simp only [List.map_cons, List.map_nil]
  have h1 := fun l => W1_eq ["C10"] [c] .uniaxial l _ rfl
  have h2 := fun l => W2_eq ["C10"] [c] .uniaxial l _ rfl
  have e : ((session kind).sims s).sim.labels = ["C10"] := rfl
  rw [e]
  simp only [h1, h2, textbook]
  have : coef ["C10"] [c] "C10" = c ∧ coef ["C10"] [c] "C01" = 0 ∧ coef ["C10"] [c] "C11" = 0 ∧
      coef ["C10"] [c] "C20" = 0 ∧ coef ["C10"] [c] "C30" = 0 := by
    simp [coef, assigned]
  rw [this.1, this.2.1, this.2.2.1, this.2.2.2.1, this.2.2.2.2]
  norm_num

theorem session_select (kind : ParamKind) (o : ℕ) :
    selectAll (·.stretch) ((session kind).opts o) = .ok [[1, 2]] ∧
    selectAll (·.stress) ((session kind).opts o) = .ok [[0, 1]] := by
  rw [fitData_iff]
  refine ⟨.cons ((selected_all _ _).2 ?_) .nil, .cons ((selected_all _ _).2 ?_) .nil⟩
  · simp [session, Optimizer.init, Experiment.init]; norm_num
  · simp [session, Optimizer.init, Experiment.init]

theorem session_evaluate (kind : ParamKind) (c : ℝ) :
    (session kind).evaluate [0] [[1, 2]] [c] = .ok [0, 7 / 2 * c] := by
  rw [World.evaluate_iff]
  refine ⟨[[0, 7 / 2 * c]], by simp, ?_, by simp⟩
  exact .cons (session_curve kind c 0) .nil

theorem session_prep (kind : ParamKind) (o : ℕ) : Prep (session kind) o [[1, 2]] [[0, 1]] [0, 7 / 2] [0, 5 / 2] where
  hx := (session_select kind o).1
  hy := (session_select kind o).2
  hf := by
    have := session_evaluate kind 1
    rw [mul_one] at this
    exact this
  hc := rfl
  hd := by simp only [npSub, List.flatten]; norm_num

theorem session_init (kind : ParamKind) (o : ℕ) :
    initCurveFit o (session kind) = (.ok 7, prepared (session kind) o [[1, 2]] [[0, 1]] [0, 5 / 2]) := by
  rcases init_cases (session kind) o with ⟨e, f, x, y, errs, -, h⟩ | ⟨x, y, f0, d, h, hi⟩
  · exact absurd ⟨_, _, _, _, session_prep kind o⟩ h
  · have h' := session_prep kind o
    cases h.hx.symm.trans h'.hx
    cases h.hy.symm.trans h'.hy
    cases h.hf.symm.trans h'.hf
    cases h.hd.symm.trans h'.hd
    exact hi

theorem session_fit (kind : ParamKind) (obj : ParamObj)
    (hobj : ParamObj.setAll { kind := kind, vals := [1] } [1 / 2] = .ok obj) :
    curveFit 0 halfSolver (session kind) = (.ok (7, [[some 0]]),
      fitted (prepared (session kind) 0 [[1, 2]] [[0, 1]] [0, 5 / 2]) 0 7 obj [some 0] [0, 3 / 4]) := by
  have hsol : halfSolver (objective (session kind) 0 [[1, 2]]) [[1, 2]].flatten [[0, 1]].flatten
    ((session kind).params ((session kind).opts 0).parameters).vals = .ok ([1 / 2], [[some 0]]) := rfl
  have hobj' : ((session kind).params ((session kind).opts 0).parameters).setAll [1 / 2] = .ok obj := hobj
  have hev : (session kind).evaluate ((session kind).opts 0).simulations [[1, 2]] [1 / 2] = .ok [0, 7 / 4] := by
    have := session_evaluate kind (1 / 2)
    norm_num at this ⊢
    exact this
  rcases fit_cases (session_prep kind 0) (session_init kind 0) halfSolver halfSolver_wellFormed with
    ⟨e, -, h⟩ | ⟨popt, pcov, fopt, obj', d', h1, h2, h3, h4, h5⟩
  · exfalso
    rcases h with h | ⟨popt, pcov, h1, h2⟩
    · cases hsol.symm.trans h
    · cases hsol.symm.trans h1
      rcases h2 with h2 | ⟨-, h2⟩
      · cases hev.symm.trans h2
      · cases hobj'.symm.trans h2
  · cases hsol.symm.trans h1
    cases hobj'.symm.trans h3
    cases hev.symm.trans h2
    have hd : npSub [0, 7 / 4] [[0, 1]].flatten = .ok [0, 3 / 4] := by
      simp only [npSub, List.flatten]; norm_num
    cases hd.symm.trans h4
    rw [h5]
    have : (npDiag [[some 0]]).map npSqrt = [some 0] := by simp [npDiag, npSqrt]
    rw [this]
    rfl

/-- Fits do return: the hypotheses of `C47_coherent_partial` are met. -/
example : ∃ w', curveFit 0 halfSolver (session .floatArray) = (.ok (7, [[some 0]]), w') ∧ (w'.params 7).vals = [1 / 2] :=
  ⟨_, session_fit .floatArray _ rfl, by rw [fitted_params, if_pos rfl]⟩

/-- With an integer parameter array the optimum is cut off: the stored and returned parameters are
not the optimum found by the solver, and the residuals are not those of the stored parameters. -/
theorem C47_integers_false : ∃ (w w' : World Unit) (o r : ℕ) (solver : Solver) (pcov : List (List Num)) (popt : List ℝ),
    Solver.WellFormed solver ∧ (w.params (w.opts o).parameters).kind = .intArray ∧
    curveFit o solver w = (.ok (r, pcov), w') ∧
    (∀ F x y, solver F x y (w.params (w.opts o).parameters).vals = .ok (popt, pcov)) ∧
    (w'.params r).vals ≠ popt ∧ ∀ p, ¬ Coherent w' o p := by
  have hobj : ParamObj.setAll { kind := .intArray, vals := [1] } [1 / 2] = .ok { kind := .intArray, vals := [0] } := by
    have : truncate (1 / 2) = 0 := by
      unfold truncate
      rw [if_pos (by norm_num)]
      norm_num
    simp only [ParamObj.setAll, npFill, List.length_singleton, if_true]
    change Except.ok _ = _
    rw [List.map_singleton, this]
  have hfit := session_fit .intArray _ hobj
  refine ⟨session .intArray, _, 0, 7, halfSolver, _, [1 / 2], halfSolver_wellFormed, rfl, hfit, fun _ _ _ => rfl, ?_, ?_⟩
  · rw [fitted_params, if_pos rfl]
    norm_num
  · rintro p ⟨h1, -, xs, ys, vs, d, h3, h4, h5, h6⟩
    rw [fitted_opt, prepared_opt] at h1 h3 h4 h6
    rw [fitted_params] at h1
    have h1 : [0] = p := h1
    subst h1
    obtain ⟨hx, hy⟩ := (fitData_iff _ _ _).2 h3
    cases hx.symm.trans (session_select .intArray 0).1
    cases hy.symm.trans (session_select .intArray 0).2
    cases h6
    have h4 : List.Forall₂ (fun (e : ℕ × List ℝ) v => _ = _) [(0, [1, 2])] vs := h4
    cases h4 with
    | cons h7 h8 =>
      cases h8
      have h9 := session_curve .intArray 0 0
      have h7 : ((session .intArray).sims 0).sim.stressCurveFit [1, 2] [0] = .ok _ := h7
      cases h9.symm.trans h7
      simp only [npSub, List.flatten] at h5
      norm_num at h5

end Props

namespace Props
open Spec Hel

variable {Z : Type}

/-! ## C48 -/

/-- The solver is called once, with the concatenation of the simulated curves, the selected
stretches, the selected stresses and the contents of the parameter object: an exception it raises
there is raised by the fit, and solvers which agree on these arguments give the same outcome. -/
theorem C48_arguments (w w1 : World Z) (o r : ℕ) (h : initCurveFit o w = (.ok r, w1)) :
    ∃ xs ys F, FitData (w.opts o) xs ys ∧ Objective w (w.opts o) xs F ∧
      (∀ solver e, Solver.WellFormed solver →
        solver F xs.flatten ys.flatten (w.params (w.opts o).parameters).vals = .error e →
        (curveFit o solver w).1 = .error e) ∧
      ∀ s1 s2, Solver.WellFormed s1 → Solver.WellFormed s2 →
        s1 F xs.flatten ys.flatten (w.params (w.opts o).parameters).vals =
          s2 F xs.flatten ys.flatten (w.params (w.opts o).parameters).vals →
        curveFit o s1 w = curveFit o s2 w := by
  rcases init_cases w o with ⟨e, f, x, y, errs, hi, -⟩ | ⟨x, y, f0, d, hp, hi⟩
  · rw [hi] at h; cases h
  refine ⟨x, y, _, (fitData_iff _ _ _).1 ⟨hp.hx, hp.hy⟩, objective_spec w o x, ?_, ?_⟩
  · intro solver e hs he
    rcases fit_cases hp hi solver hs with ⟨e', he', h | ⟨popt, pcov, h1, -⟩⟩ | ⟨popt, pcov, fopt, obj, d', h1, -⟩
    · cases he.symm.trans h; rw [he']
    · cases he.symm.trans h1
    · cases he.symm.trans h1
  · intro s1 s2 hs1 hs2 heq
    rcases fit_cases hp hi s1 hs1 with ⟨e, he, h | ⟨popt, pcov, h1, h2⟩⟩ | ⟨popt, pcov, fopt, obj, d', h1, h2, h3, h4, h5⟩ <;>
    rcases fit_cases hp hi s2 hs2 with ⟨e', he', g | ⟨popt', pcov', g1, g2⟩⟩ | ⟨popt', pcov', fopt', obj', d'', g1, g2, g3, g4, g5⟩
    · cases h.symm.trans (heq.trans g); rw [he, he']
    · cases h.symm.trans (heq.trans g1)
    · cases h.symm.trans (heq.trans g1)
    · cases h1.symm.trans (heq.trans g)
    · cases h1.symm.trans (heq.trans g1)
      rcases h2 with h2 | ⟨⟨fopt, h3⟩, h2⟩ <;> rcases g2 with g2 | ⟨⟨fopt', g3⟩, g2⟩
      · cases h2.symm.trans g2; rw [he, he']
      · cases h2.symm.trans g3
      · cases h3.symm.trans g2
      · cases h2.symm.trans g2; rw [he, he']
    · cases h1.symm.trans (heq.trans g1)
      rcases h2 with h2 | ⟨-, h2⟩
      · cases h2.symm.trans g2
      · cases h2.symm.trans g3
    · cases h1.symm.trans (heq.trans g)
    · cases h1.symm.trans (heq.trans g1)
      rcases g2 with g2 | ⟨-, g2⟩
      · cases h2.symm.trans g2
      · cases h3.symm.trans g2
    · cases h1.symm.trans (heq.trans g1)
      cases h2.symm.trans g2
      cases h3.symm.trans g3
      cases h4.symm.trans g4
      rw [h5, g5]

theorem sqErr_append {v y v' y' : List ℝ} (h : v.length = y.length) :
    sqErr (v ++ v') (y ++ y') = sqErr v y + sqErr v' y' := by
  unfold sqErr
  rw [List.zipWith_append h, List.map_append, List.sum_append]

theorem sqErr_flatten {vs ys : List (List ℝ)} (h : List.Forall₂ (fun v y => v.length = y.length) vs ys) :
    sqErr vs.flatten ys.flatten = (List.zipWith sqErr vs ys).sum ∧ vs.flatten.length = ys.flatten.length := by
  induction h with
  | nil => simp [sqErr]
  | cons h1 _ ih =>
    rw [List.flatten_cons, List.flatten_cons, sqErr_append h1, ih.1, List.zipWith_cons_cons, List.sum_cons,
      List.length_append, List.length_append, h1, ih.2]
    exact ⟨rfl, rfl⟩

theorem selected_length {m : Mask} {a b x y : List ℝ} (hab : a.length = b.length) (hx : Selected m a x)
    (hy : Selected m b y) : x.length = y.length := by
  obtain ⟨ps, h1, h2⟩ := hx
  obtain ⟨qs, h3, h4⟩ := hy
  rw [← hab] at h3
  cases picks_unique h1 h3
  rw [← h2.length_eq, ← h4.length_eq]

theorem fitData_lengths {op : Optimizer} (hm : Matched op) {xs ys : List (List ℝ)} (hd : FitData op xs ys) :
    List.Forall₂ (fun x y => x.length = y.length) xs ys ∧ xs.length = op.simulations.length := by
  obtain ⟨h1, h2⟩ := hd
  obtain ⟨hm1, hm2, hm3⟩ := hm
  constructor
  · have key : ∀ (l : List (Mask × Experiment)) {xs ys : List (List ℝ)},
        (∀ e ∈ l, e.2.stretch.length = e.2.force.length) →
        List.Forall₂ (fun e x => Selected e.1 e.2.stretch x) l xs →
        List.Forall₂ (fun e y => Selected e.1 (e.2.force.map (· / e.2.area)) y) l ys →
        List.Forall₂ (fun x y => x.length = y.length) xs ys := by
      intro l
      induction l with
      | nil => intro xs ys _ h1 h2; cases h1; cases h2; exact .nil
      | cons e l ih =>
        intro xs ys h h1 h2
        cases h1 with
        | cons h3 h4 =>
          cases h2 with
          | cons h5 h6 =>
            refine .cons (selected_length ?_ h3 h5) (ih (fun e he => h e (List.mem_cons_of_mem _ he)) h4 h6)
            rw [List.length_map]
            exact h e List.mem_cons_self
    exact key _ (fun e he => hm3 _ (List.of_mem_zip he).2) h1 h2
  · rw [← h1.length_eq, List.length_zip, hm1, hm2, min_self]

/-- The objective is the total squared error: the sum over the experiments of the squared errors
of the selected points; there are as many residuals as selected points. -/
theorem C48_total_error (w : World Z) (op : Optimizer) (hm : Matched op) (xs ys : List (List ℝ)) (hd : FitData op xs ys)
    (F : List ℝ → List ℝ → Res (List ℝ)) (hF : Objective w op xs F) (p v : List ℝ)
    (hv : F xs.flatten p = .ok v) :
    ∃ vs, Curves w op xs p vs ∧ vs.length = op.experiments.length ∧ v.length = ys.flatten.length ∧
      v.length = (xs.map List.length).sum ∧ sqErr v ys.flatten = (List.zipWith sqErr vs ys).sum := by
  obtain ⟨vs, -, hc, rfl⟩ := (hF _ _ _).1 hv
  obtain ⟨h1, h2⟩ := fitData_lengths hm hd
  have h3 : List.Forall₂ (fun v (x : List ℝ) => v.length = x.length) vs xs := by
    have : ∀ (l : List ℕ) {xs vs : List (List ℝ)}, xs.length = l.length →
        List.Forall₂ (fun (e : ℕ × List ℝ) v => (w.sims e.1).sim.stressCurveFit e.2 p = .ok v) (l.zip xs) vs →
        List.Forall₂ (fun v (x : List ℝ) => v.length = x.length) vs xs := by
      intro l
      induction l with
      | nil =>
        intro xs vs hl h
        obtain rfl := List.length_eq_zero_iff.1 hl
        cases h; exact .nil
      | cons s l ih =>
        intro xs vs hl h
        cases xs with
        | nil => simp at hl
        | cons x xs =>
          rw [List.zip_cons_cons] at h
          cases h with
          | cons h4 h5 => exact .cons (stressCurveFit_length h4) (ih (by simpa using hl) h5)
    exact this _ h2 hc
  have h4 : List.Forall₂ (fun v (y : List ℝ) => v.length = y.length) vs ys := by
    clear * - h1 h3
    induction h3 generalizing ys with
    | nil => cases h1; exact .nil
    | cons h5 h6 ih => cases h1 with | cons h7 h8 => exact .cons (h5.trans h7) (ih _ h8)
  obtain ⟨h5, h6⟩ := sqErr_flatten h4
  refine ⟨vs, hc, by rw [h3.length_eq, h2, hm.2.1], h6, ?_, h5⟩
  rw [List.length_flatten]
  congr 1
  clear * - h3
  induction h3 with
  | nil => rfl
  | cons h _ ih => rw [List.map_cons, List.map_cons, h, ih]

/-- How many points are selected: one residual per `True`, per listed index, per slice position. -/
theorem C48_selected_count (m : Mask) (a l : List ℝ) (h : Selected m a l) :
    ∃ ps, Picks a.length m ps ∧ l.length = ps.length ∧ ∀ k (hk : k < ps.length), l[k]? = a[ps[k]]? ∧ ps[k] < a.length := by
  obtain ⟨ps, h1, h2⟩ := h
  refine ⟨ps, h1, h2.length_eq.symm, fun k hk => ?_⟩
  have hk' : k < l.length := h2.length_eq ▸ hk
  have := (List.forall₂_iff_get.1 h2).2 k hk hk'
  simp only [List.get_eq_getElem] at this
  exact ⟨by rw [this, List.getElem?_eq_getElem hk'], (List.getElem?_eq_some_iff.1 this).1⟩

theorem selected_agree {m : Mask} {a b : List ℝ} (hl : a.length = b.length)
    (h : ∀ ps, Picks a.length m ps → ∀ p ∈ ps, a[p]? = b[p]?) (l : List ℝ) : Selected m a l ↔ Selected m b l := by
  unfold Selected
  rw [← hl]
  refine exists_congr fun ps => and_congr_right fun hp => ?_
  have h := h ps hp
  clear hp
  induction ps generalizing l with
  | nil => cases l <;> simp
  | cons p ps ih =>
    cases l with
    | nil => simp
    | cons v l =>
      have e : List.Forall₂ (fun p v => a[p]? = some v) ps l ↔ List.Forall₂ (fun p v => b[p]? = some v) ps l :=
        ih l fun q hq => h q (List.mem_cons_of_mem _ hq)
      rw [List.forall₂_cons, List.forall₂_cons, h p List.mem_cons_self, e]

/-- The data of two experiments agree at the positions selected by a mask. -/
def AgreeOn (m : Mask) (e1 e2 : Experiment) : Prop :=
  (e1.stretch.length = e2.stretch.length ∧
    ∀ ps, Picks e1.stretch.length m ps → ∀ p ∈ ps, e1.stretch[p]? = e2.stretch[p]?) ∧
  (e1.stress.length = e2.stress.length ∧ ∀ ps, Picks e1.stress.length m ps → ∀ p ∈ ps, e1.stress[p]? = e2.stress[p]?)

theorem selectAll_agree (data : Experiment → List ℝ) {mask : List Mask} {exps1 exps2 : List Experiment}
    (hl : exps1.length = exps2.length)
    (h : ∀ i (hi : i < exps1.length) (hm : i < mask.length), (data exps1[i]).length = (data (exps2[i]'(hl ▸ hi))).length ∧
      ∀ ps, Picks (data exps1[i]).length mask[i] ps → ∀ p ∈ ps, (data exps1[i])[p]? = (data (exps2[i]'(hl ▸ hi)))[p]?)
    (xs : List (List ℝ)) :
    List.Forall₂ (fun (e : Mask × Experiment) x => Selected e.1 (data e.2) x) (mask.zip exps1) xs ↔
    List.Forall₂ (fun (e : Mask × Experiment) x => Selected e.1 (data e.2) x) (mask.zip exps2) xs := by
  simp only [List.forall₂_iff_get, List.length_zip, List.get_eq_getElem, List.getElem_zip, hl]
  refine and_congr_right fun hlen => forall_congr' fun i => ⟨fun H h1 h2 => ?_, fun H h1 h2 => ?_⟩
  · have h3 : i < exps1.length := by omega
    have h4 : i < mask.length := by omega
    exact (selected_agree (h i h3 h4).1 (h i h3 h4).2 _).1 (H (by omega) h2)
  · have h3 : i < exps1.length := by omega
    have h4 : i < mask.length := by omega
    exact (selected_agree (h i h3 h4).1 (h i h3 h4).2 _).2 (H (by omega) h2)

theorem bindAll_setOpt (w : World Z) (o : ℕ) (f : Optimizer → Optimizer) (l : List ℕ) (r : ℕ) :
    World.bindAll (w.setOpt o f) l r = (World.bindAll w l r).setOpt o f := by
  induction l generalizing w with
  | nil => rfl
  | cons s l ih => exact ih (w.bindSim s r)

theorem setParam_setOpt (w : World Z) (o : ℕ) (f : Optimizer → Optimizer) (r : ℕ) (v : ParamObj) :
    (w.setParam r v).setOpt o f = (w.setOpt o f).setParam r v := rfl

/-- Data outside the masks have no influence: with other experiments which agree at the selected
positions the fit returns the same parameters and covariance, and leaves the same parameters,
simulations, errors and residuals. -/
theorem C48_outside (w w' : World Z) (o : ℕ) (exps : List Experiment) (hl : (w.opts o).experiments.length = exps.length)
    (h : ∀ i (hi : i < (w.opts o).experiments.length) (hm : i < (w.opts o).mask.length),
      AgreeOn (w.opts o).mask[i] (w.opts o).experiments[i] (exps[i]'(hl ▸ hi)))
    (solver : Solver) (hs : Solver.WellFormed solver) (r : ℕ) (pcov : List (List Num))
    (hfit : curveFit o solver w = (.ok (r, pcov), w')) :
    curveFit o solver (w.setOpt o fun op => { op with experiments := exps }) =
      (.ok (r, pcov), w'.setOpt o fun op => { op with experiments := exps }) := by
  obtain ⟨x, y, f0, d, popt, fopt, obj, d', hp, h1, h2, h3, h4, rfl, rfl⟩ := fit_result hs hfit
  set w2 := w.setOpt o fun op => { op with experiments := exps } with hw2
  have hopt : w2.opts o = { w.opts o with experiments := exps } := by rw [hw2, World.setOpt_opts]
  have hp2 : Prep w2 o x y f0 d := by
    refine ⟨?_, ?_, ?_, hp.hc, hp.hd⟩
    · rw [selectAll_iff, hopt]
      exact (selectAll_agree (·.stretch) hl (fun i hi hm => (h i hi hm).1) x).1 ((selectAll_iff _ _ _).1 hp.hx)
    · rw [selectAll_iff, hopt]
      exact (selectAll_agree (·.stress) hl (fun i hi hm => (h i hi hm).2) y).1 ((selectAll_iff _ _ _).1 hp.hy)
    · rw [hopt]
      exact hp.hf
  have hi : initCurveFit o w2 = (.ok (w2.opts o).parameters, prepared w2 o x y d) := by
    rcases init_cases w2 o with ⟨e, f, x', y', errs, -, h⟩ | ⟨x', y', f0', d'', hp', hi'⟩
    · exact absurd ⟨_, _, _, _, hp2⟩ h
    · cases hp'.hx.symm.trans hp2.hx
      cases hp'.hy.symm.trans hp2.hy
      cases hp'.hf.symm.trans hp2.hf
      cases hp'.hd.symm.trans hp2.hd
      exact hi'
  have hob : objective w2 o x = objective w o x := by
    unfold objective
    rw [hopt]
    rfl
  have hpar : (w2.opts o).parameters = (w.opts o).parameters := by rw [hopt]
  have hsims : (w2.opts o).simulations = (w.opts o).simulations := by rw [hopt]
  have hps : w2.params = w.params := rfl
  have hev : w2.evaluate = w.evaluate := rfl
  rcases fit_cases hp2 hi solver hs with ⟨e', he', g | ⟨popt', pcov', g1, g2⟩⟩ | ⟨popt', pcov', fopt', obj', d'', g1, g2, g3, g4, g5⟩
  · rw [hob, hpar, hps, h1] at g; cases g
  · rw [hob, hpar, hps, h1] at g1; cases g1
    rw [hsims, hev, h2, hpar, hps, h3] at g2
    rcases g2 with g2 | ⟨-, g2⟩ <;> cases g2
  · rw [hob, hpar, hps, h1] at g1; cases g1
    rw [hsims, hev, h2] at g2; cases g2
    rw [hpar, hps, h3] at g3; cases g3
    cases h4.symm.trans g4
    rw [g5, hpar]
    congr 1
    have hprep : prepared w2 o x y d = (prepared w o x y d).setOpt o fun op => { op with experiments := exps } := by
      unfold prepared
      rw [← bindAll_setOpt, hw2, World.setOpt_setOpt, World.setOpt_setOpt, World.setOpt_opts]
      rfl
    rw [hprep, fitted, fitted, ← setParam_setOpt, World.setOpt_setOpt, World.setOpt_setOpt]

/-- An omitted mask selects everything. -/
theorem C48_default_mask (exps : List Experiment) (sims : List ℕ) (r : ℕ) (xs ys : List (List ℝ)) :
    FitData (Optimizer.init exps sims r none) xs ys ↔
      xs = exps.map (·.stretch) ∧ ys = exps.map fun e => e.force.map (· / e.area) := by
  have key : ∀ (data : Experiment → List ℝ) (xs : List (List ℝ)),
      List.Forall₂ (fun (e : Mask × Experiment) x => Selected e.1 (data e.2) x)
        ((List.replicate exps.length (.slice none none none)).zip exps) xs ↔ xs = exps.map data := by
    intro data
    induction exps with
    | nil => intro xs; cases xs <;> simp
    | cons e exps ih =>
      intro xs
      rw [List.length_cons, List.replicate_succ, List.zip_cons_cons]
      cases xs with
      | nil => simp
      | cons x xs => rw [List.forall₂_cons, ih, selected_all, List.map_cons, List.cons.injEq]
  exact and_congr (key (·.stretch) xs) (key (fun e => e.force.map (· / e.area)) ys)

end Props

namespace Props
open Spec Hel

variable {Z : Type}

/-! ## C50 -/

/-- After a fit has returned, `norm_residuals()` is the square root of the total squared error of
the returned parameters over the selected data, for experiments matched with simulations. -/
theorem C50_norm (w w' : World Z) (o : ℕ) (solver : Solver) (hs : Solver.WellFormed solver)
    (hk : Writable (w.params (w.opts o).parameters).kind) (hm : Matched (w.opts o)) (r : ℕ) (pcov : List (List Num))
    (h : curveFit o solver w = (.ok (r, pcov), w')) :
    ∃ xs ys vs, FitData (w.opts o) xs ys ∧ Curves w (w.opts o) xs (w'.params r).vals vs ∧
      normResiduals o w' = (.ok (√((List.zipWith sqErr vs ys).sum)), w') := by
  obtain ⟨x, y, f0, d, popt, fopt, obj, d', hp, h1, h2, h3, h4, rfl, rfl⟩ := fit_result hs h
  have hobj := setAll_writable hk (hs _ _ _ _ _ _ h1).1 h3
  have hfd := (fitData_iff _ _ _).1 ⟨hp.hx, hp.hy⟩
  obtain ⟨vs, hc, -, hlen, -, hsq⟩ := C48_total_error w _ hm x y hfd _ (objective_spec w o x) popt fopt h2
  refine ⟨x, y, vs, hfd, ?_, ?_⟩
  · rw [fitted_params, if_pos rfl, hobj]
    exact hc
  · unfold normResiduals
    rw [PyM.bind_run, PyM.attr_run, fitted_opt]
    rw [npSub, if_pos hlen] at h4
    cases h4
    simp only [PyM.pure_run]
    rw [← hsq]
    rfl

/-- After a fit has returned, `mean_relative_std()` is the mean of `σ / |p|` in percent, `σ²` being
the diagonal of the returned covariance and `p` the returned parameters. -/
theorem C50_std (w w' : World Z) (o : ℕ) (solver : Solver) (hs : Solver.WellFormed solver)
    (hk : Writable (w.params (w.opts o).parameters).kind) (r : ℕ) (pcov : List (List Num))
    (h : curveFit o solver w = (.ok (r, pcov), w')) (hne : (w'.params r).vals ≠ [])
    (hp0 : ∀ v ∈ (w'.params r).vals, v ≠ 0) (σ2 : List ℝ) (hσ : npDiag pcov = σ2.map some) (hpos : ∀ v ∈ σ2, 0 ≤ v) :
    meanRelativeStd o w' = (.ok (some ((List.zipWith (fun v p => √v / |p|) σ2 (w'.params r).vals).sum /
      (w'.params r).vals.length * 100)), w') := by
  obtain ⟨popt, xs, ys, F, -, -, g1, g2, g3, g4, -, -, g5⟩ := C47_coherent_partial w w' o solver hs hk r pcov h
  obtain ⟨hl1, hl2, hl3⟩ := hs _ _ _ _ _ _ g1
  have hlen : σ2.length = (w'.params r).vals.length := by
    rw [g4, hl1, ← npDiag_length hl2 hl3, hσ, List.length_map]
  unfold meanRelativeStd
  rw [PyM.bind_run, PyM.attr_run, g5]
  simp only [PyM.bind_run, read_run, g3]
  have hs : (npDiag pcov).map npSqrt = σ2.map fun v => some (√v) := by
    rw [hσ, List.map_map]
    refine List.map_congr_left fun v hv => ?_
    simp [npSqrt, hpos v hv]
  rw [hs, List.length_map, if_pos hlen]
  generalize (w'.params r).vals = ps at hlen hne hp0
  have key : ∀ (a ps : List ℝ), a.length = ps.length → (∀ v ∈ ps, v ≠ 0) →
      List.zipWith (fun (e : Num) p => e.bind fun e => if p = 0 then none else some (e / |p|)) (a.map fun v => some (√v)) ps =
      (List.zipWith (fun v p => √v / |p|) a ps).map some := by
    intro a
    induction a with
    | nil => intro ps _ _; simp
    | cons v a ih =>
      intro ps hl h
      cases ps with
      | nil => simp
      | cons p ps =>
        simp only [List.map_cons, List.zipWith_cons_cons, Option.bind_some, if_neg (h p List.mem_cons_self)]
        rw [ih ps (by simpa using hl) fun v hv => h v (List.mem_cons_of_mem _ hv)]
  have key2 : ∀ l : List ℝ, (l.map some).mapM (id : Option ℝ → Option ℝ) = some l := by
    intro l
    induction l with
    | nil => rfl
    | cons v l ih => rw [List.map_cons, List.mapM_cons, ih]; rfl
  simp only [PyM.pure_run]
  rw [key _ _ hlen hp0, key2, if_neg]
  · simp [hlen]
  · intro h0
    have := congrArg List.length h0
    simp [hlen] at this
    exact hne this

/-- Before the first fit the measures do not exist. -/
theorem C50_before (w : World Z) (o : ℕ) (exps : List Experiment) (sims : List ℕ) (r : ℕ) (mask : Option (List Mask))
    (h : w.opts o = Optimizer.init exps sims r mask) :
    normResiduals o w = (.error .attributeError, w) ∧ meanRelativeStd o w = (.error .attributeError, w) := by
  unfold normResiduals meanRelativeStd
  rw [PyM.bind_run, PyM.bind_run, PyM.attr_run, PyM.attr_run, h]
  exact ⟨rfl, rfl⟩

end Props
