import Verif.Proofs.RoundingLab
import Verif.Props.LabCurves

/-!
# Floating-point rounding: the simulated curves (C79)

The normal forces of third-order-deformation materials, as computed by the lab in floating-point arithmetic, against
the curves of exact arithmetic (which are the textbook curves by C42).
-/

namespace Props
open Spec Hel Rnd

variable {Z : Type}

theorem recip_accuracy (R : Rounding) {d d' e : ℝ} (hd : 0 < d) (he : e < 1) (h : |d' - d| ≤ e * d) :
    |R.div 1 d' - 1 / d| ≤ ((1 + R.u) / (1 - e) - 1) * |1 / d| := by
  have hu := R.u_nonneg
  have he0 : 0 ≤ e := by
    have := (abs_nonneg _).trans h
    exact nonneg_of_mul_nonneg_left this hd
  let T : Ctx := ⟨R, 1 / (1 - e), by rw [le_div_iff₀] <;> linarith⟩
  have hq : (1 - 1 / T.q) * |d| = e * d := by
    simp only [T, one_div_one_div, abs_of_pos hd]; ring
  have := (Cert.divBy (T := T) d d' hd.ne' (by rw [hq]; exact h) (Cert.ofReal 1)).err
  simp only [Cert.divBy, Cert.ofReal, Ctx.E, T, abs_one, zero_add, pow_one] at this
  rw [abs_of_pos (by positivity : 0 < 1 / d)]
  rw [abs_of_pos hd] at this
  refine this.trans (le_of_eq ?_)
  ring

theorem accuracy_one_le {u : ℝ} (hu : 0 ≤ u) (hu2 : (1 + u) ^ 2 < 2) (k : LoadKind) : 1 ≤ k.accuracy u := by
  cases k
  · rw [LoadKind.accuracy, le_div_iff₀] <;> nlinarith
  · rw [LoadKind.accuracy]; linarith
  · rw [LoadKind.accuracy, le_div_iff₀] <;> nlinarith

/-! ### C79 -/

/-- The computed deformation gradients of the load cases: small relative errors in all components, and the first
component is the given stretch. -/
theorem C79_defgrad (R : RoundingSqrt) (hu : (1 + R.u) ^ 2 < 2) (k : LoadKind) {l : ℝ} (hl : 0 < l) (i j : Fin 3) :
    |k.computedF R l i j - k.F l i j| ≤ (k.accuracy R.u - 1) * |k.F l i j| ∧ k.computedF R l 0 0 = l := by
  have hu0 := R.u_nonneg
  have h1 := accuracy_one_le hu0 hu k
  have triv : ∀ x : ℝ, |x - x| ≤ (k.accuracy R.u - 1) * |x| := by
    intro x
    rw [sub_self, abs_zero]
    exact mul_nonneg (by linarith) (abs_nonneg _)
  cases k
  · have hs := recip_accuracy R.toRounding (Real.sqrt_pos.2 hl) (by nlinarith) (R.sqrt_error l hl)
    refine ⟨?_, rfl⟩
    fin_cases i <;> fin_cases j <;> first | exact triv _ | exact hs
  · have hs : |R.div 1 l - 1 / l| ≤ (1 + R.u - 1) * |1 / l| := by
      have := R.div_error 1 l hl.ne'
      linarith
    refine ⟨?_, rfl⟩
    fin_cases i <;> fin_cases j <;> first | exact triv _ | exact hs
  · have hs := recip_accuracy R.toRounding (d := l ^ 2) (by positivity) (by linarith) (R.sq_error l)
    rw [show 1 - ((1 + R.u) ^ 2 - 1) = 2 - (1 + R.u) ^ 2 by ring] at hs
    refine ⟨?_, rfl⟩
    fin_cases i <;> fin_cases j <;> first | exact triv _ | exact hs

theorem abs2_load (k : LoadKind) {l : ℝ} (hl : 0 < l) : abs2 (k.F l) = k.F l := by
  ext i j
  have := Real.sqrt_pos.2 hl
  cases k <;> fin_cases i <;> fin_cases j <;> simp [abs2, LoadKind.F, hl.le]

/-- One computed value in the deformation space. -/
theorem curve_deformation (R : RoundingSqrt) (hu : (1 + R.u) ^ 2 < 2) (k : LoadKind) {l : ℝ} (hl : 0 < l)
    (p : TOD ℝ) (z : Z) {P : Ten2 ℝ}
    (hP : SpaceObj.Grad (Deformation.obj {} (Invariants.material p.mat)) z (k.F l) P) :
    |R.deformationCurve (k.computedF R) p l - normalForce (k.F l) P| ≤
      (k.accuracy R.u ^ 6 * (1 + R.u) ^ 39 - 1) * normalForceP (k.F l) ((Maj.par p).stressP (k.F l)) ∧
    0 ≤ normalForceP (k.F l) ((Maj.par p).stressP (k.F l)) := by
  have hd : (k.F l).det ≠ 0 := by rw [loadF_det k hl]; exact one_ne_zero
  obtain ⟨G, hG, rfl⟩ := (Deformation.grad_iff ..).1 hP
  rw [(tod_grad p z (symInv_cauchyGreen hd)).1 hG]
  let T : Ctx := ⟨R.toRounding, k.accuracy R.u, accuracy_one_le R.u_nonneg hu k⟩
  have e0 : k.F l 0 0 = l := by cases k <;> rfl
  have := rounded_deformation_force T p (F := k.F l) (F' := k.computedF R l)
    (fun i j => (C79_defgrad R hu k hl i j).1) (by rw [e0]; exact (C79_defgrad R hu k hl 0 0).2) (by rw [e0]; exact hl.ne')
  rw [abs2_load k hl] at this
  exact this

/-- One computed value in the distortional space. -/
theorem curve_distortional (R : RoundingSqrt) (hu : (1 + R.u) ^ 2 < 2) (k : LoadKind)
    (ha : k.accuracy R.u ^ 6 * (1 + R.u) ^ 22 < 2) {l : ℝ} (hl : 0 < l)
    (p : TOD ℝ) (z : Z) {P : Ten2 ℝ}
    (hP : SpaceObj.Grad (Distortional.obj {} (Invariants.material p.mat)) z (k.F l) P) :
    |R.distortionalCurve (k.computedF R) p l - normalForce (k.F l) P| ≤
      (k.powAccuracy R.u ^ 16 * (1 + R.u) ^ 72 - 1) * normalForceP (k.F l) ((Maj.par p).distortionalP (k.F l)) ∧
    0 ≤ normalForceP (k.F l) ((Maj.par p).distortionalP (k.F l)) := by
  have hd : (k.F l).det ≠ 0 := by rw [loadF_det k hl]; exact one_ne_zero
  obtain ⟨G, hG, rfl⟩ := (Distortional.grad_iff _ _ hd).1 hP
  rw [(tod_grad p z (symInv_unimodular hd)).1 hG]
  have hu0 := R.u_nonneg
  have h1 := accuracy_one_le hu0 hu k
  set a := k.accuracy R.u with hadef
  set e := a ^ 6 * (1 + R.u) ^ 22 - 1 with he
  have h22 : 1 ≤ (1 + R.u) ^ 22 := one_le_pow₀ (by linarith)
  have ha6 : a ≤ a ^ 6 := le_self_pow₀ h1 (by norm_num)
  have ha1 : a ≤ 1 + e := by
    rw [he]
    have : a ^ 6 * 1 ≤ a ^ 6 * (1 + R.u) ^ 22 := by gcongr
    linarith
  have he0 : 0 ≤ e := by linarith
  have he1 : e < 1 := by rw [he]; linarith
  have hq : k.powAccuracy R.u = powQ R.u e 1 := by
    rw [powQ, LoadKind.powAccuracy, Real.log_one, abs_zero, mul_zero, Real.exp_zero, mul_one, ← hadef,
      show 1 - e = 2 - a ^ 6 * (1 + R.u) ^ 22 by rw [he]; ring]
  have hle := le_powQ (d := 1) hu0 he0 he1
  have hinv : 1 + e ≤ 1 / (1 - e) := by rw [le_div_iff₀ (by linarith)]; nlinarith
  let T₁ : Ctx := ⟨R.toRounding, a, h1⟩
  let T : Ctx := ⟨R.toRounding, k.powAccuracy R.u, by rw [hq]; linarith⟩
  have e0 : k.F l 0 0 = l := by cases k <;> rfl
  have hdetC := det_cauchyGreen_load k hl
  have hdP : detP (Spec.cauchyGreen (abs2 (k.F l))) = 1 := by
    rw [abs2_load k hl, ← hdetC, Matrix.det_fin_three]
    have hoff : ∀ i j, i ≠ j → Spec.cauchyGreen (k.F l) i j = 0 := by
      intro i j hij
      cases k <;> simp [Spec.cauchyGreen, LoadKind.F, Matrix.diagonal_mul_diagonal, Matrix.diagonal_apply_ne _ hij]
    simp [detP, hoff 0 1 (by decide), hoff 0 2 (by decide), hoff 1 2 (by decide), hoff 1 0 (by decide),
      hoff 2 0 (by decide), hoff 2 1 (by decide)]
  have hF : ∀ i j, |k.computedF R l i j - k.F l i j| ≤ (a - 1) * |k.F l i j| :=
    fun i j => (C79_defgrad R hu k hl i j).1
  have hdet := rounded_det_of T₁ (F := k.F l) (F' := k.computedF R l) hF
  rw [hdP, hdetC, mul_one] at hdet
  have hdet' : |(Rnd.det (Rnd.cauchyGreen (R.arr33 (k.computedF R l)))).val - 1| ≤ e := hdet
  have := rounded_distortional_force T p (F := k.F l) (F' := k.computedF R l)
    (fun i j => (hF i j).trans (by
      refine mul_le_mul_of_nonneg_right ?_ (abs_nonneg _)
      change a - 1 ≤ k.powAccuracy R.u - 1
      rw [hq]; linarith))
    (by rw [e0]; exact (C79_defgrad R hu k hl 0 0).2) (by rw [e0]; exact hl.ne')
    (by rw [hdetC]; exact one_ne_zero) (by rw [hdetC]; exact one_pos)
    (by
      rw [hdetC, abs_one, mul_one]
      refine hdet'.trans ?_
      change e ≤ 1 - 1 / k.powAccuracy R.u
      rw [hq]
      have h2 : (0 : ℝ) < 1 / (1 - e) := by apply one_div_pos.2; linarith
      have h3 : 1 / powQ R.u e 1 ≤ 1 - e := (one_div_le (lt_of_lt_of_le h2 hle) (by linarith)).2 hle
      linarith)
    (by
      rw [hdetC]
      have := pow_accuracy R.toRounding (d := 1) (d' := (Rnd.det (Rnd.cauchyGreen (R.arr33 (k.computedF R l)))).val)
        (e := e) (y := -1 / 3) (y' := R.div (-1) 3) one_pos (by rw [mul_one]; exact hdet') he0 he1 (by norm_num [abs_div])
        (R.div_error _ _ (by norm_num))
      rw [← hq] at this
      exact this)
  rw [abs2_load k hl] at this
  exact this

/-- The material of a simulation, for the parameters which are assigned to the labels. -/
noncomputable abbrev tod (labels : List String) (p : List ℝ) : TOD ℝ :=
  TOD.init (coef labels p "C10") (coef labels p "C01") (coef labels p "C11") (coef labels p "C20") (coef labels p "C30") false

/-- The parameters of the material of a simulation. -/
noncomputable abbrev todPar (labels : List String) (p : List ℝ) : TodPar :=
  ⟨coef labels p "C10", coef labels p "C01", coef labels p "C11", coef labels p "C20", coef labels p "C30", 3⟩

theorem par_tod (labels : List String) (p : List ℝ) : Maj.par (tod labels p) = todPar labels p := rfl

theorem textbook_deformation (labels : List String) (p : List ℝ) (k : LoadKind) {l : ℝ} (hl : 0 < l) : ∃ P,
    SpaceObj.Grad (Deformation.obj {} (Invariants.material (tod labels p).mat)) () (k.F l) P ∧
    normalForce (k.F l) P = textbook k (W1 labels p k l) (W2 labels p k l) l := by
  obtain ⟨P, h1, h2⟩ := tod_point (Z := Unit) k hl (coef labels p "C10") (coef labels p "C01") (coef labels p "C11")
    (coef labels p "C20") (coef labels p "C30") () { material := { material := () } }
  exact ⟨P, ⟨_, _, h1⟩, by rw [h2, W1_eq _ _ _ _ _ rfl, W2_eq _ _ _ _ _ rfl]⟩

theorem textbook_distortional (labels : List String) (p : List ℝ) (k : LoadKind) {l : ℝ} (hl : 0 < l) : ∃ P,
    SpaceObj.Grad (Distortional.obj {} (Invariants.material (tod labels p).mat)) () (k.F l) P ∧
    normalForce (k.F l) P = textbook k (W1 labels p k l) (W2 labels p k l) l := by
  obtain ⟨P, h1, h2⟩ := tod_point (Z := Unit) k hl (coef labels p "C10") (coef labels p "C01") (coef labels p "C11")
    (coef labels p "C20") (coef labels p "C30") () { material := { material := () } }
  rw [← W1_eq _ _ _ _ _ rfl, ← W2_eq _ _ _ _ _ rfl] at h2
  obtain ⟨P', h1', h2'⟩ := (same_point k hl _ () () _ { material := { material := () } } rfl _).1 ⟨P, h1, h2.symm⟩
  exact ⟨P', ⟨_, _, h1'⟩, h2'.symm⟩

/-- The curve which is simulated in floating-point arithmetic with a third-order-deformation material on the deformation
space: the error is at most that of about 57 roundings, relative to the normal force which is obtained with plus signs.
Every data point may be computed with another order of the operations. -/
theorem C79_deformation (sim : Simulation Z) (k : LoadKind) (lab : Option String) (hk : sim.loadcase = k.case lab)
    (hm : sim.material = todDeformation) (p : List ℝ)
    (hn : ∀ name ∈ (sim.labels.zip p).map (·.1), name ∈ ["C10", "C01", "C11", "C20", "C30"])
    (x : List ℝ) (hx : ∀ l ∈ x, 0 < l) : ∃ y, sim.stressCurveFit x p = .ok y ∧
    List.Forall₂ (fun l f => ∀ R : RoundingSqrt, (1 + R.u) ^ 2 < 2 →
      |R.deformationCurve (k.computedF R) (tod sim.labels p) l - f| ≤
      (k.accuracy R.u ^ 6 * (1 + R.u) ^ 39 - 1) * normalForceP (k.F l) ((todPar sim.labels p).stressP (k.F l))) x y := by
  refine ⟨_, C42_curve sim k lab hk (.inl hm) p hn x hx, ?_⟩
  rw [List.forall₂_map_right_iff, List.forall₂_same]
  intro l hl R hu
  obtain ⟨P, h1, h2⟩ := textbook_deformation sim.labels p k (hx l hl)
  rw [← h2]
  exact (curve_deformation R hu k (hx l hl) _ _ h1).1

/-- The same on the distortional space: the determinant and its power are computed as well. -/
theorem C79_distortional (sim : Simulation Z) (k : LoadKind) (lab : Option String) (hk : sim.loadcase = k.case lab)
    (hm : sim.material = todDistortional) (p : List ℝ)
    (hn : ∀ name ∈ (sim.labels.zip p).map (·.1), name ∈ ["C10", "C01", "C11", "C20", "C30"])
    (x : List ℝ) (hx : ∀ l ∈ x, 0 < l) : ∃ y, sim.stressCurveFit x p = .ok y ∧
    List.Forall₂ (fun l f => ∀ R : RoundingSqrt, (1 + R.u) ^ 2 < 2 → k.accuracy R.u ^ 6 * (1 + R.u) ^ 22 < 2 →
      |R.distortionalCurve (k.computedF R) (tod sim.labels p) l - f| ≤
      (k.powAccuracy R.u ^ 16 * (1 + R.u) ^ 72 - 1) *
        normalForceP (k.F l) ((todPar sim.labels p).distortionalP (k.F l))) x y := by
  refine ⟨_, C42_curve sim k lab hk (.inr hm) p hn x hx, ?_⟩
  rw [List.forall₂_map_right_iff, List.forall₂_same]
  intro l hl R hu ha
  obtain ⟨P, h1, h2⟩ := textbook_distortional sim.labels p k (hx l hl)
  rw [← h2]
  exact (curve_distortional R hu k ha (hx l hl) _ _ h1).1

/-- The factors in double precision. -/
theorem accuracy_double {u : ℝ} (hu0 : 0 ≤ u) (hu : u ≤ 2 ^ (-53 : ℤ)) (k : LoadKind) :
    (1 + u) ^ 2 < 2 ∧ k.accuracy u ≤ 1 + 3.01 * 2 ^ (-53 : ℤ) ∧ k.accuracy u ^ 6 * (1 + u) ^ 22 < 2 ∧
    k.accuracy u ^ 6 * (1 + u) ^ 39 - 1 ≤ 58 * 2 ^ (-53 : ℤ) ∧
    k.powAccuracy u ^ 16 * (1 + u) ^ 72 - 1 ≤ 750 * 2 ^ (-53 : ℤ) := by
  have h2 : (1 + u) ^ 2 ≤ 1 + 2.001 * 2 ^ (-53 : ℤ) := by
    calc (1 + u) ^ 2 ≤ (1 + (2 : ℝ) ^ (-53 : ℤ)) ^ 2 := by gcongr
      _ ≤ _ := by norm_num
  have h2' : (1 + u) ^ 2 < 2 := h2.trans_lt (by norm_num)
  have ha : k.accuracy u ≤ 1 + 3.01 * 2 ^ (-53 : ℤ) := by
    norm_num at hu h2 ⊢
    cases k
    · rw [LoadKind.accuracy, div_le_iff₀] <;> nlinarith
    · rw [LoadKind.accuracy]; linarith
    · rw [LoadKind.accuracy, div_le_iff₀] <;> nlinarith
  have h1 := accuracy_one_le hu0 h2' k
  have key : ∀ n : ℕ, k.accuracy u ^ 6 * (1 + u) ^ n ≤ (1 + 3.01 * 2 ^ (-53 : ℤ)) ^ 6 * (1 + (2 : ℝ) ^ (-53 : ℤ)) ^ n := by
    intro n
    gcongr
  have h22 : k.accuracy u ^ 6 * (1 + u) ^ 22 ≤ 1 + 40.1 * 2 ^ (-53 : ℤ) := (key 22).trans (by norm_num)
  have h22' : k.accuracy u ^ 6 * (1 + u) ^ 22 < 2 := h22.trans_lt (by norm_num)
  refine ⟨h2', ha, h22', ?_, ?_⟩
  · have := key 39
    have h3 : (1 + 3.01 * 2 ^ (-53 : ℤ)) ^ 6 * (1 + (2 : ℝ) ^ (-53 : ℤ)) ^ 39 - 1 ≤ 58 * 2 ^ (-53 : ℤ) := by norm_num
    exact (sub_le_sub_right this 1).trans h3
  · set e := k.accuracy u ^ 6 * (1 + u) ^ 22 - 1 with he
    have he1 : e ≤ 40.1 * 2 ^ (-53 : ℤ) := by linarith
    have he0 : 0 ≤ e := by
      have h3 : 1 ≤ k.accuracy u ^ 6 := one_le_pow₀ h1
      have h4 : 1 ≤ (1 + u) ^ 22 := one_le_pow₀ (by linarith)
      nlinarith
    have h5 : 1 / (1 - e) ≤ 1 + 40.2 * 2 ^ (-53 : ℤ) := by
      rw [div_le_iff₀ (by norm_num at he1 ⊢; linarith)]
      norm_num at he1 ⊢
      nlinarith
    have h6 : 0 < 1 / (1 - e) := by apply one_div_pos.2; norm_num at he1; linarith
    have h7 : (1 / (1 - e)) ^ (1 + u) ≤ (1 + 40.2 * 2 ^ (-53 : ℤ)) * (1 + 0.001 * 2 ^ (-53 : ℤ)) := by
      have h8 : (1 / (1 - e)) ^ u ≤ 1 + 0.001 * 2 ^ (-53 : ℤ) := by
        calc _ ≤ (1 + (40.2 * 2 ^ (-53 : ℤ) : ℝ)) ^ u := Real.rpow_le_rpow h6.le h5 hu0
          _ ≤ 1 + u * (40.2 * 2 ^ (-53 : ℤ)) :=
            rpow_one_add_le_one_add_mul_self (by norm_num) hu0 (hu.trans (by norm_num))
          _ ≤ _ := by norm_num at hu ⊢; linarith
      rw [Real.rpow_add h6, Real.rpow_one]
      gcongr
    have h9 : k.powAccuracy u ≤ 1 + 42.21 * 2 ^ (-53 : ℤ) := by
      rw [LoadKind.powAccuracy, show 2 - k.accuracy u ^ 6 * (1 + u) ^ 22 = 1 - e by rw [he]; ring]
      calc _ ≤ (1 + 2.001 * 2 ^ (-53 : ℤ)) * ((1 + 40.2 * 2 ^ (-53 : ℤ)) * (1 + 0.001 * 2 ^ (-53 : ℤ)) : ℝ) := by gcongr
        _ ≤ _ := by norm_num
    have h10 : 0 ≤ k.powAccuracy u := by
      rw [LoadKind.powAccuracy, show 2 - k.accuracy u ^ 6 * (1 + u) ^ 22 = 1 - e by rw [he]; ring]
      positivity
    have h11 : k.powAccuracy u ^ 16 * (1 + u) ^ 72 ≤ (1 + 42.21 * 2 ^ (-53 : ℤ)) ^ 16 * (1 + (2 : ℝ) ^ (-53 : ℤ)) ^ 72 := by
      gcongr
    have h12 : (1 + 42.21 * 2 ^ (-53 : ℤ)) ^ 16 * (1 + (2 : ℝ) ^ (-53 : ℤ)) ^ 72 - 1 ≤ 750 * 2 ^ (-53 : ℤ) := by norm_num
    exact (sub_le_sub_right h11 1).trans h12

/-- In double precision, the errors of the curves are at most `58 · 2⁻⁵³` and `750 · 2⁻⁵³` times the majorants, and no
condition on the stretches is needed. -/
theorem C79_double (sim sim' : Simulation Z) (k : LoadKind) (lab lab' : Option String) (hk : sim.loadcase = k.case lab)
    (hk' : sim'.loadcase = k.case lab') (hm : sim.material = todDeformation) (hm' : sim'.material = todDistortional)
    (p : List ℝ) (hl : sim'.labels = sim.labels)
    (hn : ∀ name ∈ (sim.labels.zip p).map (·.1), name ∈ ["C10", "C01", "C11", "C20", "C30"])
    (x : List ℝ) (hx : ∀ l ∈ x, 0 < l) : ∃ y, sim.stressCurveFit x p = .ok y ∧ sim'.stressCurveFit x p = .ok y ∧
    List.Forall₂ (fun l f => ∀ R : RoundingSqrt, R.u ≤ 2 ^ (-53 : ℤ) →
      |R.deformationCurve (k.computedF R) (tod sim.labels p) l - f| ≤
        58 * 2 ^ (-53 : ℤ) * normalForceP (k.F l) ((todPar sim.labels p).stressP (k.F l)) ∧
      |R.distortionalCurve (k.computedF R) (tod sim.labels p) l - f| ≤
        750 * 2 ^ (-53 : ℤ) * normalForceP (k.F l) ((todPar sim.labels p).distortionalP (k.F l))) x y := by
  refine ⟨_, C42_curve sim k lab hk (.inl hm) p hn x hx, ?_, ?_⟩
  · rw [C42_curve sim' k lab' hk' (.inr hm') p (by rw [hl]; exact hn) x hx, hl]
  rw [List.forall₂_map_right_iff, List.forall₂_same]
  intro l hl R hu
  obtain ⟨h1, -, h2, h3, h4⟩ := accuracy_double R.u_nonneg hu k
  constructor
  · obtain ⟨P, hP, e⟩ := textbook_deformation sim.labels p k (hx l hl)
    obtain ⟨h5, h6⟩ := curve_deformation R h1 k (hx l hl) _ _ hP
    rw [← e]
    exact h5.trans (mul_le_mul_of_nonneg_right h3 h6)
  · obtain ⟨P, hP, e⟩ := textbook_distortional sim.labels p k (hx l hl)
    obtain ⟨h5, h6⟩ := curve_distortional R h1 k h2 (hx l hl) _ _ hP
    rw [← e]
    exact h5.trans (mul_le_mul_of_nonneg_right h4 h6)

/-- The curves which are computed with increasing precision converge to the exact curve. -/
theorem C79_converges (R : ℕ → RoundingSqrt) (hR : Filter.Tendsto (fun n => (R n).u) .atTop (nhds 0))
    (labels : List String) (p : List ℝ) (k : LoadKind) {l : ℝ} (hl : 0 < l) :
    Filter.Tendsto (fun n => (R n).deformationCurve (k.computedF (R n)) (tod labels p) l) .atTop
      (nhds (textbook k (W1 labels p k l) (W2 labels p k l) l)) ∧
    Filter.Tendsto (fun n => (R n).distortionalCurve (k.computedF (R n)) (tod labels p) l) .atTop
      (nhds (textbook k (W1 labels p k l) (W2 labels p k l) l)) := by
  have ha : Filter.Tendsto (fun n => k.accuracy (R n).u) .atTop (nhds 1) := by
    have h1 : Filter.Tendsto (fun n => 1 + (R n).u) .atTop (nhds (1 + 0)) := hR.const_add 1
    cases k
    · have := h1.div (hR.const_sub 1) (by norm_num)
      have e : (1 + 0 : ℝ) / (1 - 0) = 1 := by norm_num
      rwa [e] at this
    · have e : (1 + 0 : ℝ) = 1 := by norm_num
      rwa [e] at h1
    · have := h1.div ((h1.pow 2).const_sub 2) (by norm_num)
      have e : (1 + 0 : ℝ) / (2 - (1 + 0) ^ 2) = 1 := by norm_num
      rwa [e] at this
  have hu : ∀ᶠ n in .atTop, (1 + (R n).u) ^ 2 < 2 := by
    have h1 : Filter.Tendsto (fun n => (1 + (R n).u) ^ 2) .atTop (nhds ((1 + 0) ^ 2)) := (hR.const_add 1).pow 2
    exact h1.eventually_lt_const (by norm_num)
  have he : Filter.Tendsto (fun n => k.accuracy (R n).u ^ 6 * (1 + (R n).u) ^ 22) .atTop (nhds (1 ^ 6 * (1 + 0) ^ 22)) :=
    (ha.pow 6).mul ((hR.const_add 1).pow 22)
  have hq : Filter.Tendsto (fun n => k.powAccuracy (R n).u) .atTop (nhds 1) := by
    have h2 := he.const_sub 2
    have h3 := (h2.inv₀ (by norm_num)).rpow (hR.const_add 1) (Or.inl (by norm_num))
    have h4 := ((hR.const_add 1).pow 2).mul h3
    simp only [← one_div] at h4
    have e : (1 + 0 : ℝ) ^ 2 * (1 / (2 - 1 ^ 6 * (1 + 0) ^ 22)) ^ (1 + 0 : ℝ) = 1 := by norm_num
    rwa [e] at h4
  constructor
  · obtain ⟨P, hP, e⟩ := textbook_deformation labels p k hl
    rw [← e, tendsto_iff_dist_tendsto_zero]
    have h0 := (((ha.pow 6).mul ((hR.const_add 1).pow 39)).sub_const 1).mul_const
      (normalForceP (k.F l) ((todPar labels p).stressP (k.F l)))
    simp only [one_pow, add_zero, mul_one, sub_self, zero_mul] at h0
    exact squeeze_zero' (.of_forall fun _ => dist_nonneg)
      (hu.mono fun n h => (curve_deformation (R n) h k hl _ _ hP).1) h0
  · obtain ⟨P, hP, e⟩ := textbook_distortional labels p k hl
    rw [← e, tendsto_iff_dist_tendsto_zero]
    have h0 := (((hq.pow 16).mul ((hR.const_add 1).pow 72)).sub_const 1).mul_const
      (normalForceP (k.F l) ((todPar labels p).distortionalP (k.F l)))
    simp only [one_pow, add_zero, mul_one, sub_self, zero_mul] at h0
    refine squeeze_zero' (.of_forall fun _ => dist_nonneg) ?_ h0
    filter_upwards [hu, he.eventually_lt_const (by norm_num : (1 : ℝ) ^ 6 * (1 + 0) ^ 22 < 2)] with n h1 h2
    exact (curve_distortional (R n) h1 k h2 hl _ _ hP).1

/-- The Neo-Hookean curves, written out: the computed value against `2 C10 (λ - λₜ² / λ)`. -/
theorem C79_neo_hooke (R : RoundingSqrt) (hu : (1 + R.u) ^ 2 < 2) (k : LoadKind) {l : ℝ} (hl : 0 < l) (C10 : ℝ) :
    |R.deformationCurve (k.computedF R) (TOD.init C10 0 0 0 0 false) l -
      2 * C10 * (l - k.F l 2 2 ^ 2 / l)| ≤
      (k.accuracy R.u ^ 6 * (1 + R.u) ^ 39 - 1) * (2 * |C10| * (l + k.F l 2 2 ^ 2 / l)) := by
  have hd : (k.F l).det ≠ 0 := by rw [loadF_det k hl]; exact one_ne_zero
  obtain ⟨P, hP⟩ := tod_space_total .deformation (TOD.init C10 0 0 0 0 false) (k.F l) ()
    ({ material := { material := () } } : DefSt (InvSt ℝ Unit))
  have hG : SpaceObj.Grad (Deformation.obj {} (Invariants.material (TOD.init C10 0 0 0 0 false).mat)) () (k.F l) P :=
    ⟨_, _, hP⟩
  have h := (curve_deformation R hu k hl _ _ hG).1
  obtain ⟨G, hG, eP⟩ := (Deformation.grad_iff ..).1 hG
  have hG := (tod_grad _ () (symInv_cauchyGreen hd)).1 hG
  have e1 : G = C10 • (1 : Ten2 ℝ) := by rw [hG]; simp [todGradT, TOD.init]
  have e0 : k.F l 0 0 = l := by cases k <;> rfl
  have e2 : normalForce (k.F l) P = 2 * C10 * (l - k.F l 2 2 ^ 2 / l) := by
    rw [eP, e1]
    simp [normalForce, e0]
    ring
  have e3 : normalForceP (k.F l) ((Maj.par (TOD.init C10 0 0 0 0 false)).stressP (k.F l)) =
      2 * |C10| * (l + k.F l 2 2 ^ 2 / l) := by
    simp [normalForceP, TodPar.stressP, TodPar.gradP, TodPar.w1, TodPar.w2, Maj.par, TOD.init, abs2_load k hl, e0]
    ring
  rwa [e2, e3] at h

/-- The computed data of an experiment: one rounding of the stress, at most two of the stretch. -/
theorem C79_experiment (R : RoundingSqrt) (label : String) (displacement force : List ℝ) {area length : ℝ}
    (ha : area ≠ 0) (hl : length ≠ 0) :
    List.Forall₂ (fun d x => Within R.u 2 (R.experimentStretch length d) x (1 + |d| / |length|)) displacement
      (Experiment.init label displacement force area length).stretch ∧
    List.Forall₂ (fun f s => Within R.u 1 (R.experimentStress area f) s |s|) force
      (Experiment.init label displacement force area length).stress := by
  constructor
  · change List.Forall₂ _ displacement (displacement.map fun d => 1 + d / length)
    rw [List.forall₂_map_right_iff, List.forall₂_same]
    intro d _
    have := (Cert.add (T := ctx R.toRounding) (Cert.ofReal 1) (Cert.divData length hl (Cert.ofReal d))).err
    simpa [Within, RoundingSqrt.experimentStretch, Cert.add, Cert.divData, Cert.ofReal, Ctx.E, ctx] using this
  · change List.Forall₂ _ force (force.map fun f => f / area)
    rw [List.forall₂_map_right_iff, List.forall₂_same]
    intro f _
    have := R.div_error f area ha
    simpa [Within, RoundingSqrt.experimentStress] using this

/-- Double precision with a correctly rounded square root. -/
noncomputable def binary64Sqrt : RoundingSqrt where
  toRounding := Binary64.rounding
  sqrt x := Binary64.rn (√x)
  sqrt_error x hx := by
    have := Binary64.rn_error (√x)
    rwa [abs_of_pos (Real.sqrt_pos.2 hx)] at this

/-- The hypotheses are met: double precision, a simulation of a third-order material with the documentation's factories,
at a compressed and at a stretched state. -/
example : binary64Sqrt.u ≤ 2 ^ (-53 : ℤ) ∧ 0 < binary64Sqrt.u ∧
    ∃ sim sim' : Simulation Unit, sim.loadcase = LoadKind.uniaxial.case none ∧ sim'.loadcase = LoadKind.uniaxial.case none ∧
      sim.material = todDeformation ∧ sim'.material = todDistortional ∧ sim'.labels = sim.labels ∧
      (∀ name ∈ (sim.labels.zip [0.4, 0.1, 0.02, -0.04, (0.01 : ℝ)]).map (·.1), name ∈ ["C10", "C01", "C11", "C20", "C30"]) ∧
      ∀ l ∈ [0.7, (2.5 : ℝ)], 0 < l :=
  ⟨le_rfl, by change (0 : ℝ) < 2 ^ (-53 : ℤ); positivity,
    ⟨LoadKind.uniaxial.case none, [0.7, 2.5], ["C10", "C01", "C11", "C20", "C30"], todDeformation⟩,
    ⟨LoadKind.uniaxial.case none, [0.7, 2.5], ["C10", "C01", "C11", "C20", "C30"], todDistortional⟩,
    rfl, rfl, rfl, rfl, rfl, by simp, by norm_num⟩

end Props
