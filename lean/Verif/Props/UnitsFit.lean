import Verif.Spec.UnitsFit
import Verif.Props.Units
import Verif.Props.FitOgden
import Verif.Props.Superposition
import Verif.Props.Work

/-! # Property C89: change of units (experiments and fits) -/

namespace Props
open Spec Hel

variable {Z : Type}

/-- An experiment with the displacement and the length in another unit, and the force and the area in
other units: the stretches are the same, the stresses are those in the derived unit. -/
theorem C89_experiment (label : String) (d f : List ℝ) (area length : ℝ) (k a b : ℝ) (hk : k ≠ 0) :
    (Experiment.init label (timesL k d) (timesL a f) (b * area) (k * length)).stretch =
      (Experiment.init label d f area length).stretch ∧
    (Experiment.init label (timesL k d) (timesL a f) (b * area) (k * length)).stress =
      timesL (a / b) (Experiment.init label d f area length).stress := by
  constructor
  · simp only [Experiment.init, timesL, List.map_map]
    refine List.map_congr_left fun x _ => ?_
    simp only [Function.comp]
    rw [mul_div_mul_left _ _ hk]
  · simp only [Experiment.init, Experiment.stress, timesL, List.map_map]
    refine List.map_congr_left fun x _ => ?_
    simp only [Function.comp]
    rw [mul_div_mul_comm]

theorem combine_zero (c : ℝ) (p : List ℝ) : combine c 0 p p = timesL c p := by
  unfold combine timesL
  rw [List.zipWith_self]
  refine List.map_congr_left fun x _ => by simp

/-- The curves of a material with its parameters in another unit. -/
theorem C89_curves (c : ℝ) (w : World Z) (op : Optimizer) (xs : List (List ℝ)) (ht : LinearTests w op xs)
    (p : List ℝ) (vs : List (List ℝ)) (h : Curves w op xs p vs) :
    Curves w op xs (timesL c p) (vs.map (timesL c)) := by
  unfold Curves at h ⊢
  rw [List.forall₂_map_right_iff]
  refine List.Forall₂.imp (fun e v he => ?_) ((List.forall₂_and_left (p := fun e => e ∈ op.simulations.zip xs) _ _).2
    ⟨fun e he => he, h⟩)
  obtain ⟨u, v', h1, h2, h3⟩ := ht e he.1 p p rfl
  have := h3 c 0
  rw [h1] at h2
  cases h2
  rw [he.2] at h1
  cases h1
  rwa [combine_zero, combine_zero] at this

theorem sqErr_times (c : ℝ) (v y : List ℝ) : sqErr (timesL c v) (timesL c y) = c ^ 2 * sqErr v y := by
  unfold sqErr timesL
  induction v generalizing y with
  | nil => simp
  | cons a v ih =>
    cases y with
    | nil => simp
    | cons b y =>
      have := ih y
      simp only [List.map_cons, List.zipWith_cons_cons, List.sum_cons, this]
      ring

theorem flatten_times (c : ℝ) (vs : List (List ℝ)) : (vs.map (timesL c)).flatten = timesL c vs.flatten := by
  unfold timesL
  rw [List.map_flatten]

theorem timesL_timesL (a b : ℝ) (p : List ℝ) : timesL a (timesL b p) = timesL (a * b) p := by
  unfold timesL
  rw [List.map_map]
  refine List.map_congr_left fun x _ => (mul_assoc ..).symm

theorem timesL_one (p : List ℝ) : timesL 1 p = p := by
  unfold timesL
  simp

theorem timesL_length (c : ℝ) (p : List ℝ) : (timesL c p).length = p.length := by
  unfold timesL; simp

theorem timesLL_one (ys : List (List ℝ)) : ys.map (timesL 1) = ys := by
  conv_rhs => rw [← List.map_id ys]
  exact List.map_congr_left fun y _ => timesL_one y

/-- The total error of the parameters to the measured stresses, both in another unit. -/
theorem C89_error (c : ℝ) (w : World Z) (op : Optimizer) (xs ys : List (List ℝ)) (ht : LinearTests w op xs)
    (p : List ℝ) (E : ℝ) (h : HasError w op xs ys p E) :
    HasError w op xs (ys.map (timesL c)) (timesL c p) (c ^ 2 * E) := by
  obtain ⟨vs, h1, rfl⟩ := h
  exact ⟨_, C89_curves c w op xs ht p vs h1, by rw [flatten_times, flatten_times, sqErr_times]⟩

theorem error_back (c : ℝ) (hc : c ≠ 0) (w : World Z) (op : Optimizer) (xs ys : List (List ℝ))
    (ht : LinearTests w op xs) (p : List ℝ) (E : ℝ) (h : HasError w op xs (ys.map (timesL c)) p E) :
    HasError w op xs ys (timesL c⁻¹ p) (c⁻¹ ^ 2 * E) := by
  have := C89_error c⁻¹ w op xs _ ht p E h
  rwa [List.map_map, show (timesL c⁻¹ ∘ timesL c) = timesL 1 from funext fun y => by
    rw [Function.comp, timesL_timesL, inv_mul_cancel₀ hc], timesLL_one] at this

/-- Best fits to stresses in another unit are the best fits, in the other unit. -/
theorem C89_best_fit (c : ℝ) (hc : c ≠ 0) (w : World Z) (op : Optimizer) (xs ys : List (List ℝ))
    (ht : LinearTests w op xs) (p : List ℝ) :
    BestFit w op xs (ys.map (timesL c)) (timesL c p) ↔ BestFit w op xs ys p := by
  have hpos : 0 < c⁻¹ ^ 2 := by positivity
  constructor
  · rintro ⟨E, hE, h⟩
    have hE' := error_back c hc w op xs ys ht _ E hE
    rw [timesL_timesL, inv_mul_cancel₀ hc, timesL_one] at hE'
    refine ⟨_, hE', fun p' E' hl hp' => ?_⟩
    have := h _ _ (by rw [timesL_length, timesL_length, hl]) (C89_error c w op xs ys ht p' E' hp')
    rw [inv_pow, inv_mul_le_iff₀ (by positivity)]
    exact this
  · rintro ⟨E, hE, h⟩
    refine ⟨_, C89_error c w op xs ys ht p E hE, fun p' E' hl hp' => ?_⟩
    have := h _ _ (by rw [timesL_length, hl, timesL_length]) (error_back c hc w op xs ys ht p' E' hp')
    rw [inv_pow] at this
    rwa [← le_inv_mul_iff₀ (by positivity)]

theorem selected_times (c : ℝ) (m : Mask) (a l : List ℝ) (h : Selected m a l) :
    Selected m (timesL c a) (timesL c l) := by
  obtain ⟨ps, h1, h2⟩ := h
  refine ⟨ps, by rwa [timesL_length], ?_⟩
  unfold timesL
  rw [List.forall₂_map_right_iff]
  refine h2.imp fun p v hp => ?_
  rw [List.getElem?_map, hp]
  rfl

/-- The selected data of an optimizer with measurements in another unit. -/
theorem C89_data (c : ℝ) (op op' : Optimizer) (h : InUnit c op op') (xs ys : List (List ℝ)) (hd : FitData op xs ys) :
    FitData op' xs (ys.map (timesL c)) := by
  obtain ⟨hx, hy⟩ := hd
  have hz : List.Forall₂ (fun e e' : Mask × Experiment => e'.1 = e.1 ∧ e'.2.stretch = e.2.stretch ∧
      e'.2.stress = timesL c e.2.stress) (op.mask.zip op.experiments) (op'.mask.zip op'.experiments) := by
    rw [h.mask]
    have := h.data
    revert this
    generalize op.experiments = es
    generalize op'.experiments = es'
    intro hes
    generalize op.mask = ms
    induction hes generalizing ms with
    | nil => simp
    | cons he _ ih =>
      cases ms with
      | nil => simp
      | cons m ms => exact .cons ⟨rfl, he⟩ (ih ms)
  have comp : ∀ {P Q : Mask × Experiment → List ℝ → Prop} {l l' : List (Mask × Experiment)} {zs : List (List ℝ)},
      List.Forall₂ (fun e e' : Mask × Experiment => e'.1 = e.1 ∧ e'.2.stretch = e.2.stretch ∧
        e'.2.stress = timesL c e.2.stress) l l' →
      (∀ e e' x, e'.1 = e.1 ∧ e'.2.stretch = e.2.stretch ∧ e'.2.stress = timesL c e.2.stress → P e x → Q e' x) →
      List.Forall₂ P l zs → List.Forall₂ Q l' zs := by
    intro P Q l l' zs hz himp hP
    induction hz generalizing zs with
    | nil => cases hP; exact .nil
    | cons he _ ih =>
      cases hP with
      | cons h1 h2 => exact .cons (himp _ _ _ he h1) (ih h2)
  constructor
  · exact comp hz (fun e e' x he hx => by rw [he.1, he.2.1]; exact hx) hx
  · rw [List.forall₂_map_right_iff]
    refine comp hz (fun e e' y he hy => ?_) hy
    have := selected_times c _ _ _ hy
    rw [he.1, show e'.2.force.map (· / e'.2.area) = e'.2.stress from rfl, he.2.2]
    exact this

/-- Fits of third-order-deformation materials (or of others with linear curves) with one best fit: if
the measured stresses are given in another unit, the fitted parameters are those in the other unit,
from any initial guess and with any solver that stops at a local minimum. -/
theorem C89_curve_fit (c : ℝ) (hc : c ≠ 0) (w w1 w2 : World Z) (o o' : ℕ) (hu : InUnit c (w.opts o) (w.opts o'))
    (hlin : ∀ xs ys, FitData (w.opts o) xs ys → LinearTests w (w.opts o) xs)
    (huniq : ∀ xs ys, FitData (w.opts o) xs ys →
      UniqueFit w (w.opts o) xs ys (w.params (w.opts o).parameters).vals.length)
    (hlen : (w.params (w.opts o').parameters).vals.length = (w.params (w.opts o).parameters).vals.length)
    (solver solver' : Solver) (hs : Solver.WellFormed solver) (hs' : Solver.WellFormed solver')
    (hmin : Solver.StopsAtMinimum solver) (hmin' : Solver.StopsAtMinimum solver')
    (hk : Writable (w.params (w.opts o).parameters).kind) (hk' : Writable (w.params (w.opts o').parameters).kind)
    (r r' : ℕ) (pcov pcov' : List (List Num))
    (h : curveFit o solver w = (.ok (r, pcov), w1)) (h' : curveFit o' solver' w = (.ok (r', pcov'), w2)) :
    (w2.params r').vals = timesL c (w1.params r).vals := by
  obtain ⟨xs, ys, hd, hb, hl, -⟩ := C76_curve_fit w w1 o hlin solver hs hmin hk r pcov h
  have hd2 := C89_data c _ _ hu xs ys hd
  have hud : ∀ xs' ys', FitData (w.opts o') xs' ys' → xs' = xs ∧ ys' = ys.map (timesL c) := by
    intro xs' ys' h1
    obtain ⟨a1, a2⟩ := (fitData_iff _ _ _).2 h1
    obtain ⟨b1, b2⟩ := (fitData_iff _ _ _).2 hd2
    exact ⟨Except.ok.inj (a1.symm.trans b1), Except.ok.inj (a2.symm.trans b2)⟩
  have hlin' : ∀ xs' ys', FitData (w.opts o') xs' ys' → LinearTests w (w.opts o') xs' := by
    intro xs' ys' h1
    obtain ⟨rfl, -⟩ := hud xs' ys' h1
    unfold LinearTests
    rw [hu.sims]
    exact hlin _ ys hd
  obtain ⟨xs', ys', hd', hb', hl', -⟩ := C76_curve_fit w w2 o' hlin' solver' hs' hmin' hk' r' pcov' h'
  obtain ⟨rfl, rfl⟩ := hud xs' ys' hd'
  have hb2 : BestFit w (w.opts o) xs' (ys.map (timesL c)) (w2.params r').vals := by
    unfold BestFit HasError Curves at hb' ⊢
    rw [hu.sims] at hb'
    exact hb'
  have hr : r = (w.opts o).parameters := by
    obtain ⟨_, _, _, _, _, _, _, hr, -⟩ := C47_coherent_partial w w1 o solver hs hk r pcov h
    exact hr
  have hr' : r' = (w.opts o').parameters := by
    obtain ⟨_, _, _, _, _, _, _, hr, -⟩ := C47_coherent_partial w w2 o' solver' hs' hk' r' pcov' h'
    exact hr
  have hback : (w2.params r').vals = timesL c (timesL c⁻¹ (w2.params r').vals) := by
    rw [timesL_timesL, mul_inv_cancel₀ hc, timesL_one]
  rw [hback, C89_best_fit c hc w _ _ _ (hlin _ _ hd)] at hb2
  rw [hback]
  congr 1
  refine (huniq _ _ hd).unique ⟨?_, hb2⟩ ⟨by rw [hl, hr], hb⟩
  rw [timesL_length, hl', hr', hlen]

/-- The hypotheses are met: the same test with forces in newtons and in kilonewtons, and an area in
square millimetres. -/
example (sims : List ℕ) (r r' : ℕ) : InUnit (1 / 1000)
    (Optimizer.init [Experiment.init "test" [0, 50, 200] [0, 25, 75] 25 100] sims r)
    (Optimizer.init [Experiment.init "test" [0, 50, 200] (timesL (1 / 1000) [0, 25, 75]) 25 100] sims r') where
  sims := rfl
  mask := rfl
  data := by
    have h := C89_experiment "test" [0, 50, 200] [0, 25, 75] 25 100 1 (1 / 1000) 1 one_ne_zero
    rw [timesL_one, one_mul, one_mul, div_one] at h
    exact .cons h .nil

/-- A Neo-Hookean material in other units, with all of its functions: the condition of
`C89_distortional_hessian` is met at every deformation. -/
example (c : ℝ) (hc : c ≠ 0) (F : Full2 ℝ) (hF : Matrix.det (F : Ten2 ℝ) ≠ 0) (s t) :
    ((Distortional.obj {} (Invariants.material (TOD.init (c * 5) (c * 0) (c * 0) (c * 0) (c * 0) false).mat)).hessian
      F () t).1 =
    ((Distortional.obj {} (Invariants.material (TOD.init 5 0 0 0 0 false).mat)).hessian F () s).1.map
      (Elasticity.times c) := by
  refine C89_distortional_hessian c {} _ _ (C89_invariants c _ _ (C89_third_order c hc 5 0 0 0 0 false)) F () s t ?_
  intro H hH
  rw [tod_hess _ _ (symInv_unimodular hF)] at hH
  have h0 : ∀ i j k l, H i j k l = 0 := by
    intro i j k l
    rw [hH]
    simp [todHessT, TOD.init]
  simp only [h0, mul_zero]

/-- An Ogden material and a generalized-invariants material in other units. -/
example (lapack : Eigh) (g : GenInv) (s t s' t') (F : Full2 ℝ) :
    ((Deformation.obj {} (Stretches.material lapack (Ogden.mat ⟨[1000 * 1, 1000 * 2], [3, -2]⟩))).hessian F () t).1 =
      ((Deformation.obj {} (Stretches.material lapack (Ogden.mat ⟨[1, 2], [3, -2]⟩))).hessian F () s).1.map
        (Elasticity.times 1000) ∧
    ((Dilatational.obj {} (Stretches.material lapack
      (GenInv.mat g (TOD.init (1000 * 1) (1000 * 2) (1000 * 0) (1000 * 3) (1000 * 0) true).mat))).gradient F () t').1 =
      ((Dilatational.obj {} (Stretches.material lapack (GenInv.mat g (TOD.init 1 2 0 3 0 true).mat))).gradient F () s').1.map
        (fun r => (Stress.times 1000 r.1, r.2)) :=
  ⟨C89_deformation_hessian 1000 {} _ _ (C89_stretches 1000 lapack _ _ (C89_ogden 1000 [1, 2] [3, -2])) F () s t,
    C89_dilatational_gradient 1000 {} _ _ (C89_stretches 1000 lapack _ _ (C89_generalized 1000 g _ _
      (C89_third_order 1000 (by norm_num) 1 2 0 3 0 true))) F () s' t'⟩

end Props
