import Verif.Spec.FitNoise
import Verif.Props.Fit
import Mathlib.Analysis.Normed.Module.FiniteDimension

/-! # Property C97: fits do not amplify errors of the measurements without bound -/

namespace Props
open Spec Hel

variable {Z : Type}

section quad

variable {V : Type} [AddCommGroup V] [Module ℝ V]

/-- Half of the slope of the error. -/
noncomputable def slope (L : List (V →ₗ[ℝ] ℝ)) (y : List ℝ) (p h : V) : ℝ :=
  (List.zipWith (fun φ a => (φ p - a) * φ h) L y).sum

theorem quadErr_slope (L : List (V →ₗ[ℝ] ℝ)) (y : List ℝ) (p h : V) (t : ℝ) :
    quadErr L y (p + t • h) = quadErr L y p + t * (2 * slope L y p h) +
      t ^ 2 * (List.zipWith (fun φ _ => φ h ^ 2) L y).sum := by
  induction L generalizing y with
  | nil => simp [quadErr, sqErr, slope]
  | cons φ L ih =>
    cases y with
    | nil => simp [quadErr, sqErr, slope]
    | cons a y =>
      have := ih y
      simp only [quadErr, sqErr, slope, List.map_cons, List.zipWith_cons_cons, List.sum_cons, map_add, map_smul,
        smul_eq_mul] at this ⊢
      rw [this]
      ring

theorem slope_eq_zero {L : List (V →ₗ[ℝ] ℝ)} {y : List ℝ} {p : V} (hp : ∀ q, quadErr L y p ≤ quadErr L y q) (h : V) :
    slope L y p h = 0 := by
  have := slope_zero (B := 2 * slope L y p h) (Q := (List.zipWith (fun φ _ => φ h ^ 2) L y).sum) one_pos fun t _ => by
    have := hp (p + t • h)
    rw [quadErr_slope] at this
    linarith
  linarith

theorem nonexpansive_aux (L : List (V →ₗ[ℝ] ℝ)) (y y' : List ℝ) (h1 : y.length = L.length) (h2 : y'.length = L.length)
    (p p' : V) : sqErr (L.map fun φ => φ p) (L.map fun φ => φ p') ≤
      sqErr y y' + 2 * (slope L y p (p - p') - slope L y' p' (p - p')) := by
  induction L generalizing y y' with
  | nil =>
    rw [List.length_nil, List.length_eq_zero_iff] at h1 h2
    simp [h1, h2, sqErr, slope]
  | cons φ L ih =>
    obtain ⟨a, y, rfl⟩ := List.exists_cons_of_length_eq_add_one h1
    obtain ⟨b, y', rfl⟩ := List.exists_cons_of_length_eq_add_one h2
    have := ih y y' (by simpa using h1) (by simpa using h2)
    simp only [sqErr, slope, List.map_cons, List.zipWith_cons_cons, List.sum_cons, map_sub] at this ⊢
    nlinarith [sq_nonneg (φ p - φ p' - (a - b))]

theorem nonexpansive {L : List (V →ₗ[ℝ] ℝ)} {y y' : List ℝ} (h1 : y.length = L.length) (h2 : y'.length = L.length)
    {p p' : V} (hp : ∀ q, quadErr L y p ≤ quadErr L y q) (hp' : ∀ q, quadErr L y' p' ≤ quadErr L y' q) :
    sqErr (L.map fun φ => φ p) (L.map fun φ => φ p') ≤ sqErr y y' := by
  have := nonexpansive_aux L y y' h1 h2 p p'
  rwa [slope_eq_zero hp, slope_eq_zero hp', sub_zero, mul_zero, add_zero] at this

theorem sqErr_comm (a b : List ℝ) : sqErr a b = sqErr b a := by
  induction a generalizing b with
  | nil => simp [sqErr]
  | cons x a ih =>
    cases b with
    | nil => simp [sqErr]
    | cons z b =>
      have := ih b
      simp only [sqErr, List.zipWith_cons_cons, List.map_cons, List.sum_cons] at this ⊢
      rw [this]
      ring

theorem pythagoras {L : List (V →ₗ[ℝ] ℝ)} {y : List ℝ} (h1 : y.length = L.length) {p : V}
    (hp : ∀ q, quadErr L y p ≤ quadErr L y q) (q : V) :
    sqErr y (L.map fun φ => φ q) = sqErr (L.map fun φ => φ p) y + sqErr (L.map fun φ => φ p) (L.map fun φ => φ q) := by
  have h := quadErr_slope L y p (q - p) 1
  rw [slope_eq_zero hp, one_smul, add_sub_cancel, mul_zero, mul_zero, add_zero, one_pow, one_mul] at h
  rw [sqErr_comm y]
  change quadErr L y q = quadErr L y p + _
  rw [h]
  congr 1
  clear h hp
  induction L generalizing y with
  | nil => simp [sqErr]
  | cons φ L ih =>
    obtain ⟨a, y, rfl⟩ := List.exists_cons_of_length_eq_add_one h1
    have := ih (y := y) (by simpa using h1)
    simp only [sqErr, List.map_cons, List.zipWith_cons_cons, List.sum_cons, map_sub] at this ⊢
    rw [this]
    ring

end quad

theorem sqErr_ofFn {n : ℕ} (p q : Fin n → ℝ) : sqErr (List.ofFn p) (List.ofFn q) = ∑ i, (p i - q i) ^ 2 := by
  rw [sqErr, ← List.sum_ofFn]
  congr 1
  refine List.ext_getElem (by simp) fun i h1 h2 => ?_
  simp

theorem sqErr_map_functionals {n : ℕ} (L : List ((Fin n → ℝ) →ₗ[ℝ] ℝ)) (p q : Fin n → ℝ) :
    sqErr (L.map fun φ => φ p) (L.map fun φ => φ q) = ∑ i : Fin L.length, (L.get i (p - q)) ^ 2 := by
  rw [sqErr, ← List.sum_ofFn]
  congr 1
  refine List.ext_getElem (by simp) fun i h1 h2 => ?_
  simp

/-- Functionals without a common zero control the norm. -/
theorem functionals_bound {n : ℕ} (L : List ((Fin n → ℝ) →ₗ[ℝ] ℝ)) (h : ∀ v, (∀ φ ∈ L, φ v = 0) → v = 0) :
    ∃ K : ℝ, 0 ≤ K ∧ ∀ p q : Fin n → ℝ, ∑ i, (p i - q i) ^ 2 ≤ K * sqErr (L.map fun φ => φ p) (L.map fun φ => φ q) := by
  let A : (Fin n → ℝ) →ₗ[ℝ] (Fin L.length → ℝ) := LinearMap.pi fun i => L.get i
  have hker : LinearMap.ker A = ⊥ := by
    refine LinearMap.ker_eq_bot'.2 fun v hv => h v fun φ hφ => ?_
    obtain ⟨i, hi, rfl⟩ := List.getElem_of_mem hφ
    exact congrFun hv ⟨i, hi⟩
  obtain ⟨K, -, hK⟩ := A.exists_antilipschitzWith hker
  refine ⟨n * (K : ℝ) ^ 2, by positivity, fun p q => ?_⟩
  have h1 : ‖p - q‖ ≤ K * ‖A (p - q)‖ := by
    have := hK.le_mul_dist p q
    rwa [dist_eq_norm, dist_eq_norm, ← map_sub] at this
  have h2 : ‖A (p - q)‖ ^ 2 ≤ ∑ i : Fin L.length, (L.get i (p - q)) ^ 2 := by
    have h0 : 0 ≤ ∑ i : Fin L.length, (L.get i (p - q)) ^ 2 := Finset.sum_nonneg fun _ _ => sq_nonneg _
    have h3 : ‖A (p - q)‖ ≤ Real.sqrt (∑ i : Fin L.length, (L.get i (p - q)) ^ 2) := by
      refine (pi_norm_le_iff_of_nonneg (Real.sqrt_nonneg _)).2 fun i => ?_
      refine Real.abs_le_sqrt ?_
      exact Finset.single_le_sum (f := fun i : Fin L.length => (L.get i (p - q)) ^ 2) (fun _ _ => sq_nonneg _) (Finset.mem_univ i)
    calc ‖A (p - q)‖ ^ 2 ≤ Real.sqrt (∑ i : Fin L.length, (L.get i (p - q)) ^ 2) ^ 2 := pow_le_pow_left₀ (norm_nonneg _) h3 2
      _ = _ := Real.sq_sqrt h0
  rw [sqErr_map_functionals]
  have h4 : ∀ i, (p i - q i) ^ 2 ≤ (K : ℝ) ^ 2 * ∑ i : Fin L.length, (L.get i (p - q)) ^ 2 := fun i => by
    have h5 : |p i - q i| ≤ K * ‖A (p - q)‖ := (norm_le_pi_norm (p - q) i).trans h1
    calc (p i - q i) ^ 2 = |p i - q i| ^ 2 := (sq_abs _).symm
      _ ≤ (K * ‖A (p - q)‖) ^ 2 := pow_le_pow_left₀ (abs_nonneg _) h5 2
      _ = (K : ℝ) ^ 2 * ‖A (p - q)‖ ^ 2 := mul_pow ..
      _ ≤ _ := mul_le_mul_of_nonneg_left h2 (by positivity)
  calc ∑ i, (p i - q i) ^ 2 ≤ ∑ _i : Fin n, (K : ℝ) ^ 2 * ∑ i : Fin L.length, (L.get i (p - q)) ^ 2 := Finset.sum_le_sum fun i _ => h4 i
    _ = _ := by rw [Finset.sum_const, Finset.card_univ, Fintype.card_fin, nsmul_eq_mul, mul_assoc]

/-! ### from lists to vectors -/

theorem evalAll_flatten {n : ℕ} (L : List (List ((Fin n → ℝ) →ₗ[ℝ] ℝ))) (p : Fin n → ℝ) :
    (evalAll L p).flatten = L.flatten.map fun φ => φ p := by
  simp [evalAll, List.map_flatten]

theorem flatten_length_of_forall₂ {α β : Type} {a : List (List α)} {b : List (List β)}
    (h : List.Forall₂ (fun x y => x.length = y.length) a b) : a.flatten.length = b.flatten.length := by
  induction h with
  | nil => rfl
  | cons h _ ih => simp only [List.flatten_cons, List.length_append, h, ih]

theorem measured_length {n : ℕ} {w : World Z} {op : Optimizer} {xs : List (List ℝ)}
    {L : List (List ((Fin n → ℝ) →ₗ[ℝ] ℝ))} (hL : ∀ p vs, Curves w op xs (List.ofFn p) vs ↔ vs = evalAll L p)
    (hs : op.simulations.length = xs.length) {ys : List (List ℝ)} (h : Measured xs ys) :
    ys.flatten.length = L.flatten.length := by
  have hc := (hL 0 _).2 rfl
  rw [← flatten_length_of_forall₂ h]
  have : (evalAll L 0).flatten.length = L.flatten.length := by rw [evalAll_flatten, List.length_map]
  rw [← this]
  refine flatten_length_of_forall₂ (List.forall₂_iff_get.2 ⟨?_, fun i h1 h2 => ?_⟩)
  · have := hc.length_eq
    rw [List.length_zip, hs, min_self] at this
    exact this
  · have h3 : i < (op.simulations.zip xs).length := by rw [List.length_zip, hs, min_self]; exact h1
    have := (List.forall₂_iff_get.1 hc).2 i h3 h2
    simp only [List.get_eq_getElem, List.getElem_zip] at this ⊢
    exact (stressCurveFit_length this).symm

/-! ### the theorems -/

/-- **C97.**  The curves of the best fits to two sets of stresses at the same stretches are not further apart than the
stresses: the squared difference of the fitted curves is at most the squared difference of the measurements. -/
theorem C97_curves (w : World Z) (op : Optimizer) (xs ys ys' : List (List ℝ)) (ht : LinearTests w op xs)
    (hs : op.simulations.length = xs.length) (hy : Measured xs ys) (hy' : Measured xs ys') (p p' : List ℝ) (hpp : p.length = p'.length)
    (hp : BestFit w op xs ys p) (hp' : BestFit w op xs ys' p') (vs vs' : List (List ℝ)) (hv : Curves w op xs p vs)
    (hv' : Curves w op xs p' vs') : sqErr vs.flatten vs'.flatten ≤ sqErr ys.flatten ys'.flatten := by
  obtain ⟨n, hn⟩ : ∃ n, p.length = n := ⟨_, rfl⟩
  obtain ⟨L, hL⟩ := curves_linear n w op xs ht
  obtain ⟨p, rfl⟩ := ofFn_of_length hn
  obtain ⟨p', rfl⟩ := ofFn_of_length (hpp.symm.trans hn)
  rw [hL] at hv hv'
  rw [bestFit_iff hL] at hp hp'
  rw [hv, hv', evalAll_flatten, evalAll_flatten]
  exact nonexpansive (measured_length hL hs hy) (measured_length hL hs hy') hp hp'

/-- The error of the measurements splits: with the curves `us` of any parameters (say, of the true ones), the squared distance of
the measurements to `us` is the squared residual of the fit plus the squared distance of the fitted curves to `us`.  So the fitted
curves are never further from the true ones than the measurements. -/
theorem C97_pythagoras (w : World Z) (op : Optimizer) (xs ys : List (List ℝ)) (ht : LinearTests w op xs)
    (hs : op.simulations.length = xs.length) (hy : Measured xs ys) (p q : List ℝ) (hpq : p.length = q.length)
    (hp : BestFit w op xs ys p) (vs us : List (List ℝ)) (hv : Curves w op xs p vs) (hu : Curves w op xs q us) :
    sqErr ys.flatten us.flatten = sqErr vs.flatten ys.flatten + sqErr vs.flatten us.flatten := by
  obtain ⟨n, hn⟩ : ∃ n, p.length = n := ⟨_, rfl⟩
  obtain ⟨L, hL⟩ := curves_linear n w op xs ht
  obtain ⟨p, rfl⟩ := ofFn_of_length hn
  obtain ⟨q, rfl⟩ := ofFn_of_length (hpq.symm.trans hn)
  rw [hL] at hv hu
  rw [bestFit_iff hL] at hp
  rw [hv, hu, evalAll_flatten, evalAll_flatten]
  exact pythagoras (measured_length hL hs hy) hp q

theorem sqErr_eq_zero {p q : List ℝ} (h : p.length = q.length) (h0 : sqErr p q ≤ 0) : p = q := by
  obtain ⟨n, hn⟩ : ∃ n, p.length = n := ⟨_, rfl⟩
  obtain ⟨p, rfl⟩ := ofFn_of_length hn
  obtain ⟨q, rfl⟩ := ofFn_of_length (h.symm.trans hn)
  rw [sqErr_ofFn] at h0
  congr 1
  funext i
  have := (Finset.sum_eq_zero_iff_of_nonneg fun i _ => sq_nonneg (p i - q i)).1
    (le_antisymm h0 (Finset.sum_nonneg fun _ _ => sq_nonneg _)) i (Finset.mem_univ i)
  have := pow_eq_zero_iff two_ne_zero |>.1 this
  linarith

/-- The best parameters depend continuously on the measurements (even at a bounded rate) if and only if there is only one
best fit; whether this is so does not depend on the measured stresses. -/
theorem C97_continuous (w : World Z) (op : Optimizer) (xs ys : List (List ℝ)) (ht : LinearTests w op xs)
    (hs : op.simulations.length = xs.length) (hy : Measured xs ys) (n : ℕ) :
    (∃ K, Amplifies w op xs n K) ↔ UniqueFit w op xs ys n := by
  constructor
  · rintro ⟨K, hK⟩
    obtain ⟨p, hp, hb⟩ := C76_exists w op xs ys ht n
    refine ⟨p, ⟨hp, hb⟩, fun q ⟨hq, hb'⟩ => ?_⟩
    refine sqErr_eq_zero (hq.trans hp.symm) ?_
    have := hK ys ys q p hy hy hq hp hb' hb
    rwa [sqErr_self, mul_zero] at this
  · rintro ⟨p₀, ⟨hp₀, hb₀⟩, hu⟩
    obtain ⟨L, hL⟩ := curves_linear n w op xs ht
    obtain ⟨p₀, rfl⟩ := ofFn_of_length hp₀
    have hzero : ∀ v : Fin n → ℝ, (∀ φ ∈ L.flatten, φ v = 0) → v = 0 := by
      intro v hv
      have h1 : BestFit w op xs ys (List.ofFn (p₀ + v)) := by
        rw [bestFit_iff hL] at hb₀ ⊢
        have : quadErr L.flatten ys.flatten (p₀ + v) = quadErr L.flatten ys.flatten p₀ := by
          unfold quadErr
          congr 1
          exact List.map_congr_left fun φ hφ => by rw [map_add, hv φ hφ, add_zero]
        rw [this]
        exact hb₀
      have := List.ofFn_injective (hu _ ⟨by simp, h1⟩)
      exact add_eq_left.1 this
    obtain ⟨K, K0, hK⟩ := functionals_bound L.flatten hzero
    refine ⟨K, fun ys ys' p p' h1 h2 h3 h4 h5 h6 => ?_⟩
    obtain ⟨p, rfl⟩ := ofFn_of_length h3
    obtain ⟨p', rfl⟩ := ofFn_of_length h4
    rw [sqErr_ofFn]
    refine (hK p p').trans (mul_le_mul_of_nonneg_left ?_ K0)
    have := C97_curves w op xs ys ys' ht hs h1 h2 _ _ (h3.trans h4.symm) h5 h6 _ _ ((hL _ _).2 rfl) ((hL _ _).2 rfl)
    rwa [evalAll_flatten, evalAll_flatten] at this

theorem sq_le_sqErr_map {x : List ℝ} (f g : ℝ → ℝ) {l : ℝ} (hl : l ∈ x) : (f l - g l) ^ 2 ≤ sqErr (x.map f) (x.map g) := by
  rw [sqErr, List.zipWith_map_left, List.zipWith_map_right, List.zipWith_self, List.map_map]
  refine List.single_le_sum (fun e he => ?_) _ (List.mem_map.2 ⟨l, hl, rfl⟩)
  obtain ⟨e, -, rfl⟩ := List.mem_map.1 he
  exact sq_nonneg _

/-- The difference of two curves at one data point is at most the difference of all curves. -/
theorem sq_le_curves {w : World Z} {op : Optimizer} {xs : List (List ℝ)} (hx : PositiveData xs)
    {p q : List ℝ} {vs us : List (List ℝ)} (hp : Curves w op xs p vs) (hq : Curves w op xs q us) {s : ℕ} {x : List ℝ}
    (hs : (s, x) ∈ op.simulations.zip xs) {k : LoadKind} (ht : TodTest (w.sims s).sim k) {l : ℝ} (hl : l ∈ x) :
    (stressAt (w.sims s).sim.labels k l p - stressAt (w.sims s).sim.labels k l q) ^ 2 ≤ sqErr vs.flatten us.flatten := by
  have hpos := hx x (List.of_mem_zip (a := s) (b := x) hs).2
  unfold Curves at hp hq
  generalize op.simulations.zip xs = L at hp hq hs
  induction hp generalizing us with
  | nil => cases hs
  | cons h1 h2 ih =>
    obtain ⟨u, us, h3, h4, rfl⟩ := List.forall₂_cons_left_iff.1 hq
    rw [List.flatten_cons, List.flatten_cons, sqErr_append ((stressCurveFit_length h1).trans (stressCurveFit_length h3).symm)]
    rcases List.mem_cons.1 hs with rfl | hs
    · dsimp only at h1 h3
      rw [tod_curve ht _ _ hpos] at h1 h3
      cases Except.ok.inj h1
      cases Except.ok.inj h3
      exact (sq_le_sqErr_map (fun l => stressAt (w.sims s).sim.labels k l p) (fun l => stressAt (w.sims s).sim.labels k l q) hl).trans (le_add_of_nonneg_right (sqErr_nonneg _ _))
    · exact (ih h4 hs).trans (le_add_of_nonneg_left (sqErr_nonneg _ _))

theorem factor_force (k : LoadKind) (l : ℝ) : factor k l = k.force l := by cases k <;> rfl

/-- Mooney-Rivlin: two data points away from stretch one, which weigh the two parameters differently, bound the amplification by an
explicit number; it grows without bound as the weights approach each other or the stretches approach one. -/
theorem C97_mooney_rivlin (w : World Z) (op : Optimizer) (ht : TodTests w op)
    (hl : ∀ s ∈ op.simulations, (w.sims s).sim.labels = ["C10", "C01"]) (xs : List (List ℝ)) (hs : op.simulations.length = xs.length)
    (hx : PositiveData xs) (k k' : LoadKind) (l l' : ℝ) (hp : DataPoint w op xs k l) (hp' : DataPoint w op xs k' l')
    (h1 : l ≠ 1) (h1' : l' ≠ 1) (hne : k.weight l ≠ k'.weight l') :
    Amplifies w op xs 2 (2 * ((1 + k'.weight l' ^ 2) / k.force l ^ 2 + (1 + k.weight l ^ 2) / k'.force l' ^ 2) /
      (k.weight l - k'.weight l') ^ 2) := by
  intro ys ys' p q hy hy' hpl hql hb hb'
  obtain ⟨a, b, rfl⟩ := List.length_eq_two.1 hpl
  obtain ⟨a', b', rfl⟩ := List.length_eq_two.1 hql
  obtain ⟨E, ⟨vs, hv, -⟩, -⟩ := id hb
  obtain ⟨E', ⟨us, hu, -⟩, -⟩ := id hb'
  have hE := C97_curves w op xs ys ys' (tod_linear ht hx) hs hy hy' _ _ (by rfl) hb hb' vs us hv hu
  have key : ∀ {k l}, DataPoint w op xs k l → l ≠ 1 → 0 < k.force l ^ 2 ∧
      ((a - a') + k.weight l * (b - b')) ^ 2 ≤ sqErr ys.flatten ys'.flatten / k.force l ^ 2 := by
    intro k l hp h1
    have hpos := dataPoint_pos hx hp
    obtain ⟨s, x, hs, hk, hlx⟩ := hp
    have := (sq_le_curves hx hv hu hs hk hlx).trans hE
    rw [hl s (List.of_mem_zip (a := s) (b := x) hs).1, mooney_stress, mooney_stress, factor_force] at this
    have h0 : 0 < k.force l ^ 2 := by
      have := factor_ne (k := k) hpos h1
      rw [factor_force] at this
      positivity
    refine ⟨h0, (le_div_iff₀ h0).2 (le_trans (le_of_eq (by ring)) this)⟩
  obtain ⟨f0, e1⟩ := key hp h1
  obtain ⟨f0', e2⟩ := key hp' h1'
  have hm : 0 < (k.weight l - k'.weight l') ^ 2 := by
    have := sub_ne_zero.2 hne
    positivity
  generalize sqErr ys.flatten ys'.flatten = S at *
  generalize k.weight l = m at *
  generalize k'.weight l' = m' at *
  have hsq : sqErr [a, b] [a', b'] = (a - a') ^ 2 + (b - b') ^ 2 := by simp [sqErr]
  rw [hsq, div_mul_eq_mul_div, le_div_iff₀ hm]
  generalize k.force l ^ 2 = f at *
  generalize k'.force l' ^ 2 = f' at *
  have t : 2 * ((1 + m' ^ 2) / f + (1 + m ^ 2) / f') * S = 2 * ((1 + m' ^ 2) * (S / f) + (1 + m ^ 2) * (S / f')) := by ring
  rw [t]
  have g1 := mul_le_mul_of_nonneg_left e1 (by positivity : 0 ≤ 1 + m' ^ 2)
  have g2 := mul_le_mul_of_nonneg_left e2 (by positivity : 0 ≤ 1 + m ^ 2)
  have q1 : (b - b') ^ 2 * (m - m') ^ 2 ≤ 2 * (a - a' + m * (b - b')) ^ 2 + 2 * (a - a' + m' * (b - b')) ^ 2 := by
    nlinarith [sq_nonneg ((a - a' + m * (b - b')) + (a - a' + m' * (b - b')))]
  have q2 : (a - a') ^ 2 * (m - m') ^ 2 ≤ 2 * m' ^ 2 * (a - a' + m * (b - b')) ^ 2 + 2 * m ^ 2 * (a - a' + m' * (b - b')) ^ 2 := by
    nlinarith [sq_nonneg (m' * (a - a' + m * (b - b')) + m * (a - a' + m' * (b - b')))]
  nlinarith

/-- End to end: after a fit has returned, for the curves `us` of any parameters `q` (say, of the true ones) the fitted curves are not
further from `us` than the measurements, and the fitted parameters are as close to `q` as any amplification allows. -/
theorem C97_curve_fit (w w' : World Z) (o : ℕ) (hm : Matched (w.opts o))
    (hlin : ∀ xs ys, FitData (w.opts o) xs ys → LinearTests w (w.opts o) xs) (solver : Solver) (hs : Solver.WellFormed solver)
    (hmin : Solver.StopsAtMinimum solver) (hk : Writable (w.params (w.opts o).parameters).kind) (r : ℕ)
    (pcov : List (List Num)) (h : curveFit o solver w = (.ok (r, pcov), w')) :
    ∃ xs ys vs, FitData (w.opts o) xs ys ∧ Curves w (w.opts o) xs (w'.params r).vals vs ∧
      ∀ q us, q.length = (w'.params r).vals.length → Curves w (w.opts o) xs q us →
        sqErr vs.flatten us.flatten ≤ sqErr ys.flatten us.flatten ∧
        ∀ K, Amplifies w (w.opts o) xs q.length K → sqErr (w'.params r).vals q ≤ K * sqErr ys.flatten us.flatten := by
  obtain ⟨xs, ys, hd, hb, -, -⟩ := C76_curve_fit w w' o hlin solver hs hmin hk r pcov h
  obtain ⟨h1, h2⟩ := fitData_lengths hm hd
  obtain ⟨E, ⟨vs, hv, -⟩, -⟩ := id hb
  have hsx : (w.opts o).simulations.length = xs.length := h2.symm
  have hy : Measured xs ys := h1
  refine ⟨xs, ys, vs, hd, hv, fun q us hq hu => ⟨?_, fun K hK => ?_⟩⟩
  · have := C97_pythagoras w _ xs ys (hlin xs ys hd) hsx hy _ q hq.symm hb vs us hv hu
    linarith [sqErr_nonneg vs.flatten ys.flatten]
  · refine hK ys us _ q hy ?_ hq.symm rfl hb (C76_exact w _ xs us q hu)
    refine List.forall₂_iff_get.2 ⟨?_, fun i g1 g2 => ?_⟩
    · have := hu.length_eq
      rw [List.length_zip, hsx, min_self] at this
      exact this
    · have h3 : i < ((w.opts o).simulations.zip xs).length := by rw [List.length_zip, hsx, min_self]; exact g1
      have := (List.forall₂_iff_get.1 hu).2 i h3 g2
      simp only [List.get_eq_getElem, List.getElem_zip] at this ⊢
      exact (stressCurveFit_length this).symm

/-! ### a concrete fit -/

/-- Three measurements of a uniaxial test, two Mooney-Rivlin parameters. -/
noncomputable def mooneySession : World Unit where
  params _ := { kind := .floatArray, vals := [1, 1] }
  sims _ := ⟨⟨uniaxial none, [], ["C10", "C01"], todDeformation⟩, 0⟩
  opts _ := Optimizer.init [Experiment.init "" [1, 2, 3] [1, 3, 2]] [0] 1

example : Matched (mooneySession.opts 0) ∧ TodTests mooneySession (mooneySession.opts 0) ∧
    Writable (mooneySession.params (mooneySession.opts 0).parameters).kind ∧
    (∀ xs ys, FitData (mooneySession.opts 0) xs ys → LinearTests mooneySession (mooneySession.opts 0) xs) ∧
    Measured [[2, 3, 4]] [[1, 3, 2]] ∧ (mooneySession.opts 0).simulations.length = [[(2 : ℝ), 3, 4]].length ∧
    FitData (mooneySession.opts 0) [[2, 3, 4]] [[1, 3, 2]] ∧ PositiveData [[2, 3, 4]] ∧
    DataPoint mooneySession (mooneySession.opts 0) [[2, 3, 4]] .uniaxial 2 ∧
    DataPoint mooneySession (mooneySession.opts 0) [[2, 3, 4]] .uniaxial 3 ∧ LoadKind.uniaxial.weight 2 ≠ LoadKind.uniaxial.weight 3 ∧
    UniqueFit mooneySession (mooneySession.opts 0) [[2, 3, 4]] [[1, 3, 2]] 2 ∧
    ∃ solver : Solver, Solver.WellFormed solver ∧ Solver.StopsAtMinimum solver ∧
      ∃ r pcov w', curveFit 0 solver mooneySession = (.ok (r, pcov), w') := by
  have hm : Matched (mooneySession.opts 0) := by
    refine ⟨rfl, rfl, fun e he => ?_⟩
    simp only [mooneySession, Optimizer.init, List.mem_cons, List.not_mem_nil, or_false] at he
    rcases he with rfl
    rfl
  have htest : TodTest (mooneySession.sims 0).sim .uniaxial := ⟨⟨none, rfl⟩, Or.inl rfl, fun n h => by
    simp only [mooneySession, List.mem_cons, List.not_mem_nil, or_false] at h
    rcases h with rfl | rfl <;> simp⟩
  have ht : TodTests mooneySession (mooneySession.opts 0) := by
    intro s hs
    simp only [mooneySession, Optimizer.init, List.mem_cons, List.not_mem_nil, or_false] at hs
    rcases hs with rfl
    exact ⟨.uniaxial, htest⟩
  have hd : FitData (mooneySession.opts 0) [[2, 3, 4]] [[1, 3, 2]] := by
    refine ⟨.cons ((selected_all _ _).2 ?_) .nil, .cons ((selected_all _ _).2 ?_) .nil⟩ <;>
    · simp [Experiment.init]
      try norm_num
  have hx : PositiveData [[2, 3, 4]] := by
    intro x hx l hl
    simp only [List.mem_cons, List.not_mem_nil, or_false] at hx
    rcases hx with rfl
    simp only [List.mem_cons, List.not_mem_nil, or_false] at hl
    rcases hl with rfl | rfl | rfl <;> norm_num
  have hxd : ∀ xs ys, FitData (mooneySession.opts 0) xs ys → LinearTests mooneySession (mooneySession.opts 0) xs := by
    intro xs ys h
    have e1 := (fitData_iff _ _ _).2 h
    have e2 := (fitData_iff _ _ _).2 hd
    cases e1.1.symm.trans e2.1
    exact tod_linear ht hx
  have p2 : DataPoint mooneySession (mooneySession.opts 0) [[2, 3, 4]] .uniaxial 2 :=
    ⟨0, [2, 3, 4], List.mem_cons_self .., htest, by simp⟩
  have p3 : DataPoint mooneySession (mooneySession.opts 0) [[2, 3, 4]] .uniaxial 3 :=
    ⟨0, [2, 3, 4], List.mem_cons_self .., htest, by simp⟩
  have hne : LoadKind.uniaxial.weight 2 ≠ LoadKind.uniaxial.weight 3 := by norm_num [LoadKind.weight]
  obtain ⟨solver, h1, h2, h3⟩ := C76_returns (Z := Unit)
  obtain ⟨pcov, w', h4⟩ := h3 mooneySession 0 _ _ hm (by simp [mooneySession, Optimizer.init]) (tod_linear ht hx) hd (Or.inr rfl)
  exact ⟨hm, ht, Or.inr rfl, hxd, .cons rfl .nil, rfl, hd, hx, p2, p3, hne,
    (C76_mooney_rivlin _ _ hm ht (fun s _ => rfl) _ _ hd hx).2 ⟨_, _, _, _, p2, p3, by norm_num, by norm_num, hne⟩,
    solver, h1, h2, _, pcov, w', h4⟩

end Props
