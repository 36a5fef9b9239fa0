import Verif.Proofs.RoundingTangentHess
import Verif.Props.RoundingStretches

/-!
# Floating-point rounding: tangents of Ogden materials (C91)

The hessian and the elasticity tensor of an Ogden material, as computed in floating-point arithmetic with a backward
stable eigenvalue solver, against the exact values.  For nearly equal principal stretches the code computes a quotient
of two small differences: the rounding errors are multiplied by the reciprocal of the tolerance `1e-8`.
-/

namespace Props
open Spec Hel Rnd

variable {Z : Type}

/-! ### constants -/

/-- A bound of the second derivative of Ogden's energy for squared stretches between `a` and `b`. -/
noncomputable def ogdenD (mu alpha : List ℝ) (a b : ℝ) : ℝ :=
  ((mu.zip alpha).map fun p => |p.1 / p.2| * ((|p.2 - 1| + 1) / 2) * max (a ^ ((p.2 - 4) / 2)) (b ^ ((p.2 - 4) / 2))).sum

/-- A Lipschitz constant of the second derivative. -/
noncomputable def ogdenL2 (mu alpha : List ℝ) (a b : ℝ) : ℝ :=
  ((mu.zip alpha).map fun p => |p.1 / p.2 * ((p.2 - 2) / 2)| *
    (|(p.2 - 4) / 2| * max (a ^ ((p.2 - 4) / 2 - 1)) (b ^ ((p.2 - 4) / 2 - 1)))).sum

/-- One plus a bound of the relative errors of powers, reciprocals and eigenvectors. -/
noncomputable def ogdenQ2 (u ε A Λ : ℝ) : ℝ := max (ogdenQ u ε A Λ) (1 / (2 - (1 + u) ^ 5))

theorem ogdenL2_nonneg (mu alpha : List ℝ) {a b : ℝ} (ha : 0 < a) : 0 ≤ ogdenL2 mu alpha a b := by
  refine List.sum_nonneg fun t ht => ?_
  obtain ⟨p, -, rfl⟩ := List.mem_map.1 ht
  have : 0 < a ^ ((p.2 - 4) / 2 - 1) := Real.rpow_pos_of_pos ha _
  have := this.le.trans (le_max_left _ (b ^ ((p.2 - 4) / 2 - 1)))
  positivity

/-- The explicit constants. -/
theorem C91_constants {u ε A Λ a b : ℝ} (mu alpha : List ℝ) (hu : 0 ≤ u) (hsmall : (1 + u) ^ 5 < 2) (ha : 0 < a)
    (hA : ∀ α ∈ alpha, |α - 1| ≤ A ∧ |α - 2| ≤ A) (hΛ : ∀ x ∈ Set.Icc a b, |Real.log x| ≤ Λ) :
    OgdenTangentBounds u ε mu alpha a b (ogdenL mu alpha a b) (ogdenG mu alpha a b) (ogdenQ2 u ε A Λ)
      (ogdenD mu alpha a b) (ogdenL2 mu alpha a b) := by
  have hsmall2 : (1 + u) ^ 2 < 2 := (pow_le_pow_right₀ (by linarith) (by norm_num : 2 ≤ 5)).trans_lt hsmall
  have h0 := C80_constants (ε := ε) mu alpha hu hsmall2 ha (fun α h => (hA α h).1) hΛ
  exact
  { pos := ha
    small := hsmall2
    nonneg := h0.nonneg
    lipschitz := h0.lipschitz
    bound := h0.bound
    power := fun α hα x hx => (h0.power α hα x hx).trans (le_max_left _ _)
    reciprocal := h0.reciprocal.trans (le_max_left _ _)
    vectors := h0.vectors.trans (le_max_left _ _)
    small2 := hsmall
    reciprocal2 := le_max_right _ _
    power2 := fun α hα x hx => by
      refine le_max_of_le_left (le_max_of_le_left ?_)
      have h1 := (hA α hα).2
      have h2 := hΛ x hx
      have h0 : 0 ≤ A := (abs_nonneg _).trans h1
      have hu1 : u < 1 := by nlinarith
      have h3 : 1 ≤ 1 / (1 - u) := by rw [le_div_iff₀] <;> linarith
      unfold ogdenFactor2
      gcongr
    bound2 := fun x hx => by
      unfold ogdenRate2P ogdenD
      induction mu.zip alpha with
      | nil => simp
      | cons p l ih =>
        simp only [List.map_cons, List.sum_cons]
        refine add_le_add (mul_le_mul_of_nonneg_left (rpow_le_max ha hx _) ?_) ih
        positivity
    nonneg2 := ogdenL2_nonneg mu alpha ha
    lipschitz2 := fun x hx y hy => by
      unfold ogdenRate2 ogdenL2
      induction mu.zip alpha with
      | nil => simp
      | cons p l ih =>
        simp only [List.map_cons, List.sum_cons]
        rw [add_sub_add_comm, ← mul_sub, add_mul]
        refine (abs_add_le _ _).trans (add_le_add ?_ ih)
        rw [abs_mul, mul_assoc]
        exact mul_le_mul_of_nonneg_left (rpow_lipschitz_Icc ha hx hy _) (abs_nonneg _) }

theorem OgdenTangentBounds.mono {u ε a b a' b' L G q D L₂ : ℝ} {mu alpha : List ℝ}
    (h : OgdenTangentBounds u ε mu alpha a b L G q D L₂) (ha : a ≤ a') (hb : b' ≤ b) :
    OgdenTangentBounds u ε mu alpha a' b' L G q D L₂ :=
  { OgdenBounds.mono h.toOgdenBounds ha hb with
    small2 := h.small2
    reciprocal2 := h.reciprocal2
    power2 := fun α hα x hx => h.power2 α hα x (Set.Icc_subset_Icc ha hb hx)
    bound2 := fun x hx => h.bound2 x (Set.Icc_subset_Icc ha hb hx)
    nonneg2 := h.nonneg2
    lipschitz2 := fun x hx y hy => h.lipschitz2 x (Set.Icc_subset_Icc ha hb hx) y (Set.Icc_subset_Icc ha hb hy) }

/-! ### C91 -/

/-- The computed hessian: rounding errors, amplified by the reciprocal of the tolerance `τ` of the comparison, the error
of the eigenvalue solver, and the tolerance itself. -/
theorem C91_hessian (R : RoundingSqrt) (lapack solver : Eigh) (hl : EighValid lapack) {ε a b L G q D L₂ τ : ℝ} (hε : 0 ≤ ε)
    (hτ : 0 < τ) {mu alpha : List ℝ} (hα : ∀ p ∈ alpha, p ≠ 0) (z : Z) {c : Vec6 ℝ} {C : Ten2 ℝ} {H : Ten4 ℝ} (hc : Stores c C)
    (hC : SpectrumIn C a b) (hB : OgdenTangentBounds R.u ε mu alpha (a - ε * frob C) (b + ε * frob C) L G q D L₂)
    (hs : EighAccurate ε C (solver C).1 (solver C).2)
    (hH : Material.Hess (Stretches.material lapack (Ogden.mat ⟨mu, alpha⟩)) z C H) (i j k l : Fin 3) :
    |astensor4 (R.stretchesHessian solver τ ⟨mu, alpha⟩ c) i j k l - H i j k l| ≤
      tangentError (q ^ 4 * (1 + R.u) ^ 18)
          (crossError R.u (coefError R.u q (mu.zip alpha).length) τ (b + ε * frob C) G D L₂) D +
        (4 * L₂ * (ε * frob C) + L₂ * (1 / 10 ^ 8)) := by
  have hq : 1 ≤ q := le_trans (by linarith) hB.vectors
  refine (rounded_hessian lapack solver hl hα hB hq hτ z (mul_nonneg hε (frob_nonneg _)) hC ?_ hH i j k l).2
  obtain ⟨B, V, h1, h2, h3⟩ := hs
  rw [T2_eq hc]
  exact ⟨B, V, h1, h2, h3⟩

/-- The computed elasticity tensor in the deformation space, from the computed right Cauchy-Green tensor. -/
theorem C91_elasticity (R : RoundingSqrt) (lapack solver : Eigh) (hl : EighValid lapack) {ε a b L G q D L₂ τ η δ δ' : ℝ} (hε : 0 ≤ ε)
    (hτ : 0 < τ) {mu alpha : List ℝ} (hα : ∀ p ∈ alpha, p ≠ 0) (z : Z) {F : Ten2 ℝ} {A : Ten4 ℝ}
    (hC : SpectrumIn (Spec.cauchyGreen F) a b) (hη : η = ((1 + ε) * (1 + R.u) ^ 5 - 1) * frob F ^ 2)
    (hB : OgdenTangentBounds R.u ε mu alpha (a - η) (b + η) L G q D L₂)
    (hδ : δ = (q ^ 4 * (1 + R.u) ^ ((mu.zip alpha).length + 12) - 1) * (3 * G) + L * η)
    (hδ' : δ' = tangentError (q ^ 4 * (1 + R.u) ^ 18)
      (crossError R.u (coefError R.u q (mu.zip alpha).length) τ (b + η) G D L₂) D + (4 * L₂ * η + L₂ * (1 / 10 ^ 8)))
    (hs : ∀ C : Ten2 ℝ, C.IsSymm → EighAccurate ε C (solver C).1 (solver C).2)
    (hA : SpaceObj.Hess (Deformation.obj {} (Stretches.material lapack (Ogden.mat ⟨mu, alpha⟩))) z F A) (i J k K : Fin 3) :
    |R.ogdenDeformationHessian solver τ ⟨mu, alpha⟩ F i J k K - A i J k K| ≤
      4 * (∑ I, |F i I|) * (∑ I, |F k I|) *
          ((1 + R.u) ^ 14 * (D + L₂ * (1 / 10 ^ 8) + δ') - (D + L₂ * (1 / 10 ^ 8))) +
        (if i = k then 2 * ((1 + R.u) ^ 14 * (3 * G + δ) - 3 * G) else 0) := by
  obtain ⟨E, H, hE, hH, rfl⟩ := Deformation.hess_elim hA
  have hu := R.u_nonneg
  have hq : 1 ≤ q := le_trans (by linarith) hB.vectors
  have h5 : 1 ≤ (1 + R.u) ^ 5 := one_le_pow₀ (by linarith)
  have hf := sq_nonneg (frob F)
  set c : Vec6 ℝ := fun a => (Rnd.cauchyGreen (R.arr33 F) a).val with hc
  have hs' := hs (T2 c) (T2_stores c).symm
  have hη0 : 0 ≤ η := by
    rw [hη]
    exact mul_nonneg (sub_nonneg.2 (one_le_mul_of_one_le_of_one_le (by linarith) h5)) hf
  obtain ⟨hsym, hM, hg⟩ := rounded_gradient_at R lapack solver hl hε hα (η := η)
    (η1 := ((1 + R.u) ^ 5 - 1) * frob F ^ 2) (η2 := ε * ((1 + R.u) ^ 5 * frob F ^ 2)) (by rw [hη]; ring)
    (mul_nonneg (by linarith) hf) (by positivity) hB.toOgdenBounds z hC (frob_rounded R.toRounding F)
    (mul_le_mul_of_nonneg_left (frob_computed R.toRounding F) hε) hs' hE
  rw [← hδ] at hg
  obtain ⟨B, V, h1, h2, h3⟩ := hs'
  have hd : frob (B - Spec.cauchyGreen F) ≤ η := by
    have := frob_add_le (B - T2 c) (T2 c - Spec.cauchyGreen F)
    rw [sub_add_sub_cancel] at this
    have e1 := mul_le_mul_of_nonneg_left (frob_computed R.toRounding F) hε
    have e2 := frob_rounded R.toRounding F
    rw [hη]
    refine this.trans ((add_le_add (h2.trans e1) e2).trans_eq ?_)
    ring
  have hh := fun i j k l => rounded_hessian lapack solver hl hα hB hq hτ z hη0 hC ⟨B, V, h1, hd, h3⟩ hH i j k l
  exact rounded_defElasticity R.toRounding F hsym hg hM (fun i j k l => by rw [hδ']; exact (hh i j k l).2)
    (fun i j k l => (hh i j k l).1) i J k K

theorem ogdenQ2_tendsto {A Λ : ℝ} {u ε : ℕ → ℝ} (hu : Filter.Tendsto u .atTop (nhds 0)) (hε : Filter.Tendsto ε .atTop (nhds 0)) :
    Filter.Tendsto (fun n => ogdenQ2 (u n) (ε n) A Λ) .atTop (nhds 1) := by
  have h1 : Filter.Tendsto (fun n => (1 + u n) ^ 5) .atTop (nhds 1) := by
    simpa using (hu.const_add 1).pow 5
  have h2 : Filter.Tendsto (fun n => 1 / (2 - (1 + u n) ^ 5)) .atTop (nhds 1) := by
    have := (h1.const_sub 2).inv₀ (by norm_num)
    rw [show ((2 : ℝ) - 1)⁻¹ = 1 by norm_num] at this
    simpa using this
  have := (ogdenQ_tendsto (A := A) (Λ := Λ) hu hε).max h2
  simpa [ogdenQ2] using this

/-- If the precision of the arithmetic and of the solver is increased, what remains of the error of the hessian is at
most the sum of the tolerances of the two comparisons, times the Lipschitz constant of the second derivative of the energy.
The Lipschitz constant is that on a neighbourhood `[a', b']` of the spectrum. -/
theorem C91_converges (R : ℕ → RoundingSqrt) (lapack : Eigh) (hl : EighValid lapack) (solver : ℕ → Eigh) (ε : ℕ → ℝ)
    (hR : Filter.Tendsto (fun n => (R n).u) .atTop (nhds 0)) (hε : Filter.Tendsto ε .atTop (nhds 0)) (hε0 : ∀ n, 0 ≤ ε n)
    (hs : ∀ n, ∀ C : Ten2 ℝ, C.IsSymm → EighAccurate (ε n) C (solver n C).1 (solver n C).2)
    {mu alpha : List ℝ} (hα : ∀ p ∈ alpha, p ≠ 0) (z : Z) {τ a b a' b' : ℝ} (hτ : 0 < τ) {c : Vec6 ℝ} {C : Ten2 ℝ} {H : Ten4 ℝ}
    (hc : Stores c C) (hC : SpectrumIn C a b) (ha' : 0 < a') (haa : a' < a) (hbb : b < b')
    (hH : Material.Hess (Stretches.material lapack (Ogden.mat ⟨mu, alpha⟩)) z C H) (i j k l : Fin 3) (δ : ℝ) (hδ : 0 < δ) :
    ∀ᶠ n in .atTop, |astensor4 ((R n).stretchesHessian (solver n) τ ⟨mu, alpha⟩ c) i j k l - H i j k l| ≤
      ogdenL2 mu alpha a' b' * (τ + 1 / 10 ^ 8) + δ := by
  obtain ⟨A, hA⟩ : ∃ A, ∀ α ∈ alpha, |α - 1| ≤ A ∧ |α - 2| ≤ A := by
    refine ⟨(alpha.map fun α => |α - 1| + |α - 2|).sum, fun α h => ?_⟩
    have : |α - 1| + |α - 2| ≤ (alpha.map fun α => |α - 1| + |α - 2|).sum := List.single_le_sum (by
      intro x hx
      obtain ⟨y, -, rfl⟩ := List.mem_map.1 hx
      positivity) _ (List.mem_map.2 ⟨α, h, rfl⟩)
    exact ⟨by linarith [abs_nonneg (α - 2)], by linarith [abs_nonneg (α - 1)]⟩
  obtain ⟨Λ, hΛ⟩ : ∃ Λ, ∀ x ∈ Set.Icc a' b', |Real.log x| ≤ Λ := by
    refine ⟨max |Real.log a'| |Real.log b'|, fun x hx => ?_⟩
    have h1 := Real.log_le_log ha' hx.1
    have h2 := Real.log_le_log (ha'.trans_le hx.1) hx.2
    exact abs_le_max_abs_abs h1 h2
  set L := ogdenL mu alpha a' b'
  set G := ogdenG mu alpha a' b'
  set D := ogdenD mu alpha a' b'
  set L₂ := ogdenL2 mu alpha a' b'
  set q : ℕ → ℝ := fun n => ogdenQ2 (R n).u (ε n) A Λ
  set n0 := (mu.zip alpha).length
  set η : ℕ → ℝ := fun n => ε n * frob C with hη
  have hηt : Filter.Tendsto η .atTop (nhds 0) := by simpa using hε.mul_const (frob C)
  have hq : Filter.Tendsto q .atTop (nhds 1) := ogdenQ2_tendsto hR hε
  have h1u : Filter.Tendsto (fun n => 1 + (R n).u) .atTop (nhds 1) := by simpa using hR.const_add 1
  have he : Filter.Tendsto (fun n => coefError (R n).u (q n) n0) .atTop (nhds 0) := by
    have := ((hq.pow 3).mul (h1u.pow (n0 + 7))).sub_const 1
    simpa [coefError] using this
  have hQ : Filter.Tendsto (fun n => q n ^ 4 * (1 + (R n).u) ^ 18) .atTop (nhds 1) := by
    simpa using (hq.pow 4).mul (h1u.pow 18)
  have hb : Filter.Tendsto (fun n => b + η n) .atTop (nhds b) := by simpa using hηt.const_add b
  have hx : Filter.Tendsto (fun n => crossError (R n).u (coefError (R n).u (q n) n0) τ (b + η n) G D L₂) .atTop
      (nhds (L₂ * τ)) := by
    have t1 := (((he.const_mul 2).mul ((hb.mul_const D).const_add G)).div_const τ).add (he.mul_const D)
    have t2 := ((h1u.mul t1).add (hR.mul_const D)).add ((((he.const_mul 2).mul hb).const_add τ).const_mul L₂)
    simpa [crossError] using t2
  have hlim : Filter.Tendsto (fun n => tangentError (q n ^ 4 * (1 + (R n).u) ^ 18)
      (crossError (R n).u (coefError (R n).u (q n) n0) τ (b + η n) G D L₂) D + (4 * L₂ * η n + L₂ * (1 / 10 ^ 8))) .atTop
      (nhds (L₂ * (τ + 1 / 10 ^ 8))) := by
    have t1 := ((hQ.sub_const 1).mul ((hx.const_add D).const_mul 9)).add hx
    have t2 := t1.add ((hηt.const_mul (4 * L₂)).add_const (L₂ * (1 / 10 ^ 8)))
    have e : (1 - 1) * (9 * (D + L₂ * τ)) + L₂ * τ + (4 * L₂ * 0 + L₂ * (1 / 10 ^ 8)) = L₂ * (τ + 1 / 10 ^ 8) := by ring
    rw [e] at t2
    exact t2
  have hu5 : Filter.Tendsto (fun n => (1 + (R n).u) ^ 5) .atTop (nhds 1) := by simpa using h1u.pow 5
  have hmin : 0 < min (a - a') (b' - b) := lt_min (by linarith) (by linarith)
  filter_upwards [hηt.eventually (gt_mem_nhds hmin), hu5.eventually (gt_mem_nhds one_lt_two),
    hlim.eventually (gt_mem_nhds (lt_add_of_pos_right _ hδ))] with n h1 h2 h3
  have hB : OgdenTangentBounds (R n).u (ε n) mu alpha (a - η n) (b + η n) L G (q n) D L₂ :=
    OgdenTangentBounds.mono (C91_constants mu alpha (R n).u_nonneg h2 ha' hA hΛ) (by linarith [min_le_left (a - a') (b' - b)])
      (by linarith [min_le_right (a - a') (b' - b)])
  exact (C91_hessian (R n) lapack (solver n) hl (hε0 n) hτ hα z hc hC hB (hs n C hc.symm) hH i j k l).trans h3.le

/-- Double precision: at most six terms with exponents between `-14` and `17`, squared stretches whose logarithms are
at most 8: half of the digits of the tangent may be lost for nearly equal stretches. -/
theorem C91_double (R : RoundingSqrt) (hR : R.u ≤ 2 ^ (-53 : ℤ)) (lapack solver : Eigh) (hl : EighValid lapack) {ε a b τ : ℝ}
    (hε : 0 ≤ ε) (hε' : ε ≤ 2 ^ (-48 : ℤ)) (hτ : |τ - 1 / 10 ^ 8| ≤ 2 ^ (-53 : ℤ) * (1 / 10 ^ 8)) {mu alpha : List ℝ}
    (hlen : alpha.length ≤ 6) (hα : ∀ p ∈ alpha, p ≠ 0 ∧ |p - 1| ≤ 16 ∧ |p - 2| ≤ 16) (z : Z) {c : Vec6 ℝ} {C : Ten2 ℝ} {H : Ten4 ℝ}
    (hc : Stores c C) (ha : 0 < a) (hC : SpectrumIn C a b) (hlog : ∀ x ∈ Set.Icc (a / 2) (b + a / 2), |Real.log x| ≤ 8)
    (hcond : 2 ^ (-47 : ℤ) * frob C ≤ a)
    (hs : EighAccurate ε C (solver C).1 (solver C).2)
    (hH : Material.Hess (Stretches.material lapack (Ogden.mat ⟨mu, alpha⟩)) z C H) (i j k l : Fin 3) :
    |astensor4 (R.stretchesHessian solver τ ⟨mu, alpha⟩ c) i j k l - H i j k l| ≤
      2 ^ (-16 : ℤ) * (ogdenG mu alpha (a / 2) (b + a / 2) + (b + a / 2) * ogdenD mu alpha (a / 2) (b + a / 2)) +
        2 ^ (-38 : ℤ) * ogdenD mu alpha (a / 2) (b + a / 2) +
        ogdenL2 mu alpha (a / 2) (b + a / 2) * (2 ^ (-25 : ℤ) + 2 ^ (-42 : ℤ) * (b + a / 2) + 2 ^ (-46 : ℤ) * frob C) := by
  have hu := R.u_nonneg
  have h53 : (2 : ℝ) ^ (-53 : ℤ) = 1 / 9007199254740992 := by norm_num
  have h48 : (2 : ℝ) ^ (-48 : ℤ) = 1 / 281474976710656 := by norm_num
  have h47 : (2 : ℝ) ^ (-47 : ℤ) = 1 / 140737488355328 := by norm_num
  have h46 : (2 : ℝ) ^ (-46 : ℤ) = 1 / 70368744177664 := by norm_num
  have h42 : (2 : ℝ) ^ (-42 : ℤ) = 1 / 4398046511104 := by norm_num
  have h38 : (2 : ℝ) ^ (-38 : ℤ) = 1 / 274877906944 := by norm_num
  have h25 : (2 : ℝ) ^ (-25 : ℤ) = 1 / 33554432 := by norm_num
  have h16 : (2 : ℝ) ^ (-16 : ℤ) = 1 / 65536 := by norm_num
  have hq0 := ogdenQ_double hu hR hε'
  have hu53 := hR
  rw [h53] at hu53
  have hε48 := hε'
  rw [h48] at hε48
  rw [h47] at hcond
  have ha2 : 0 < a / 2 := by linarith
  have hf := frob_nonneg C
  have h5 : (1 + R.u) ^ 5 ≤ (1 + 1 / 9007199254740992) ^ 5 := by gcongr
  have hsmall : (1 + R.u) ^ 5 < 2 := h5.trans_lt (by norm_num)
  have hq : ogdenQ2 R.u ε 16 8 ≤ 1 + 1 / 70368744177664 := by
    refine max_le (by rw [← h46]; exact hq0) ?_
    have h4 : 1 / (2 - (1 + R.u) ^ 5) ≤ 1 / (2 - (1 + 1 / 9007199254740992) ^ 5) := by
      apply one_div_le_one_div_of_le
      · norm_num
      · linarith
    exact h4.trans (by norm_num)
  have hη2 : ε * frob C ≤ a / 2 := by
    have := mul_le_mul_of_nonneg_right hε48 hf
    linarith
  set L := ogdenL mu alpha (a / 2) (b + a / 2)
  set G := ogdenG mu alpha (a / 2) (b + a / 2)
  set D := ogdenD mu alpha (a / 2) (b + a / 2)
  set L₂ := ogdenL2 mu alpha (a / 2) (b + a / 2)
  have hB : OgdenTangentBounds R.u ε mu alpha (a - ε * frob C) (b + ε * frob C) L G (ogdenQ2 R.u ε 16 8) D L₂ :=
    OgdenTangentBounds.mono (C91_constants mu alpha hu hsmall ha2 (fun α h => (hα α h).2) hlog) (by linarith) (by linarith)
  obtain ⟨t1, t2⟩ := abs_le.1 hτ
  rw [h53] at t1 t2
  have hτ0 : 0 < τ := by norm_num at t1 ⊢; linarith
  have hmem : ∀ d, (solver C).1 d ∈ Set.Icc (a - ε * frob C) (b + ε * frob C) := by
    obtain ⟨B, V, hBV, hd, -⟩ := hs
    exact Spectral.mem hBV (SpectrumIn.perturb hC hd)
  have hD : 0 ≤ D := (abs_nonneg _).trans (ogdenDD_le hB (hmem 0) (hmem 0))
  have hG : 0 ≤ G := (abs_nonneg _).trans (abs_rate_le hB.toOgdenBounds (hmem 0))
  have hb : 0 ≤ b + ε * frob C := (hB.pos.trans_le (hmem 0).1).le.trans (hmem 0).2
  have hL := hB.nonneg2
  refine (C91_hessian R lapack solver hl hε hτ0 (fun p hp => (hα p hp).1) z hc hC hB hs hH i j k l).trans ?_
  have hn : (mu.zip alpha).length ≤ 6 := by rw [List.length_zip]; omega
  have hq1 : 1 ≤ ogdenQ2 R.u ε 16 8 := le_trans (by linarith) hB.vectors
  set e := coefError R.u (ogdenQ2 R.u ε 16 8) (mu.zip alpha).length with he
  have he0 : 0 ≤ e := coefError_nonneg R hq1 _
  have he1 : e ≤ 1 / 17592186044416 := by
    have e1 : (1 + R.u) ^ ((mu.zip alpha).length + 7) ≤ (1 + 1 / 9007199254740992) ^ 13 :=
      (pow_le_pow_right₀ (by linarith) (by omega : (mu.zip alpha).length + 7 ≤ 13)).trans (by gcongr)
    have e2 : ogdenQ2 R.u ε 16 8 ^ 3 ≤ (1 + 1 / 70368744177664) ^ 3 := by gcongr
    have e3 := mul_le_mul e2 e1 (by positivity) (by positivity)
    rw [he]
    unfold coefError
    refine (sub_le_sub_right e3 1).trans (by norm_num)
  have hQ : ogdenQ2 R.u ε 16 8 ^ 4 * (1 + R.u) ^ 18 - 1 ≤ 1 / 8796093022208 := by
    have e1 : (1 + R.u) ^ 18 ≤ (1 + 1 / 9007199254740992) ^ 18 := by gcongr
    have e2 : ogdenQ2 R.u ε 16 8 ^ 4 ≤ (1 + 1 / 70368744177664) ^ 4 := by gcongr
    have e3 := mul_le_mul e2 e1 (by positivity) (by positivity)
    refine (sub_le_sub_right e3 1).trans (by norm_num)
  have hQ0 : 0 ≤ ogdenQ2 R.u ε 16 8 ^ 4 * (1 + R.u) ^ 18 - 1 := by
    refine sub_nonneg.2 (one_le_mul_of_one_le_of_one_le (one_le_pow₀ hq1) (one_le_pow₀ (by linarith)))
  have hbb : b + ε * frob C ≤ b + a / 2 := add_le_add le_rfl hη2
  generalize b + a / 2 = b' at *
  have hb' : 0 ≤ b' := hb.trans hbb
  set Y := G + b' * D with hY
  have hY0 : 0 ≤ Y := by positivity
  -- the coefficients
  have hinv : 1 / τ ≤ 100000001 := by
    rw [div_le_iff₀ hτ0]
    norm_num at t1 ⊢
    linarith
  have hx : crossError R.u e τ (b + ε * frob C) G D L₂ ≤
      1 / 80000 * Y + 1 / 8796093022208 * D + L₂ * (11 / 10 ^ 9 + 1 / 8796093022208 * b') := by
    unfold crossError
    have c1 : 2 * e * (G + (b + ε * frob C) * D) / τ ≤ 1 / 85000 * Y := by
      have e1 : 2 * e * (G + (b + ε * frob C) * D) ≤ 2 * (1 / 17592186044416) * Y := by
        have : G + (b + ε * frob C) * D ≤ Y := by
          have := mul_le_mul_of_nonneg_right hbb hD
          linarith
        exact mul_le_mul (by linarith) this (by positivity) (by norm_num)
      rw [div_eq_mul_one_div]
      calc 2 * e * (G + (b + ε * frob C) * D) * (1 / τ) ≤ 2 * (1 / 17592186044416) * Y * 100000001 :=
            mul_le_mul e1 hinv (by positivity) (by positivity)
        _ ≤ _ := by nlinarith
    have c2 : e * D ≤ 1 / 17592186044416 * D := mul_le_mul_of_nonneg_right he1 hD
    have c3 : R.u * D ≤ 1 / 9007199254740992 * D := mul_le_mul_of_nonneg_right hu53 hD
    have c4 : (1 + R.u) * (2 * e * (G + (b + ε * frob C) * D) / τ + e * D) ≤
        (1 + 1 / 9007199254740992) * (1 / 85000 * Y + 1 / 17592186044416 * D) :=
      mul_le_mul (by linarith) (add_le_add c1 c2) (by positivity) (by norm_num)
    have c5 : L₂ * (τ + 2 * e * (b + ε * frob C)) ≤ L₂ * (11 / 10 ^ 9 + 1 / 8796093022208 * b') := by
      refine mul_le_mul_of_nonneg_left (add_le_add ?_ ?_) hL
      · norm_num at t2 ⊢; linarith
      · calc 2 * e * (b + ε * frob C) ≤ 2 * (1 / 17592186044416) * b' := mul_le_mul (by linarith) hbb hb (by norm_num)
          _ = _ := by ring
    linarith
  have hx0 : 0 ≤ crossError R.u e τ (b + ε * frob C) G D L₂ :=
    (mul_nonneg he0 hD).trans (crossError_ge hB he0 hτ0 hG hD hb)
  have hT : tangentError (ogdenQ2 R.u ε 16 8 ^ 4 * (1 + R.u) ^ 18) (crossError R.u e τ (b + ε * frob C) G D L₂) D ≤
      1 / 8796093022208 * (9 * (D + crossError R.u e τ (b + ε * frob C) G D L₂)) + crossError R.u e τ (b + ε * frob C) G D L₂ := by
    unfold tangentError
    exact add_le_add (mul_le_mul_of_nonneg_right hQ (by positivity)) le_rfl
  have hη : 4 * L₂ * (ε * frob C) ≤ L₂ * (1 / 70368744177664 * frob C) := by
    have := mul_le_mul_of_nonneg_left (mul_le_mul_of_nonneg_right hε48 hf) hL
    linarith
  rw [h16, h38, h25, h42, h46]
  have hLb : 0 ≤ L₂ * b' := mul_nonneg hL hb'
  generalize crossError R.u e τ (b + ε * frob C) G D L₂ = x at hT hx hx0 ⊢
  refine (add_le_add_left hT _).trans ?_
  clear_value Y L₂ D
  linarith

/-- An Ogden material on the deformation space returns an elasticity tensor. -/
theorem ogden_elasticity_total (lapack : Eigh) {mu alpha : List ℝ} (hα : ∀ p ∈ mu.zip alpha, p.2 ≠ 0) (F : Ten2 ℝ) :
    ∃ A, SpaceObj.Hess (Deformation.obj {} (Stretches.material lapack (Ogden.mat ⟨mu, alpha⟩))) () F A := by
  set c : Vec6 ℝ := rightCauchyGreen F with hc
  obtain ⟨g, ⟨⟩, z', hg⟩ := (C11_returns mu alpha () (eighSqrt lapack c).1).1.2 hα
  obtain ⟨-, ⟨⟩, k, hk, -⟩ := (C11_returns mu alpha () (eighSqrt lapack c).1).2.2 hα
  have hr : (Ogden.mat ⟨mu, alpha⟩).gradient (eighSqrt lapack c).1 () () = (.ok (g, z'), ()) := Prod.ext hg rfl
  have h1 : Stretches.gradient lapack (Ogden.mat ⟨mu, alpha⟩) c () { material := () } =
      (.ok (Stretches.gradPure (eighSqrt lapack c).1 (eighSqrt lapack c).2 g, ()), Stretches.post (eighSqrt lapack c) g ()) := by
    rw [Stretches.gradient_run, hr]
  exact ⟨_, { material := { material := () } }, (Deformation.returns_hessian ..).2 ⟨_, (), _, _, h1,
    (Stretches.returns_hessian ..).2 ⟨g, z', (), k, hr, hk, rfl⟩, (piolaElasticity_default ..).symm⟩⟩

/-- The hypotheses are met: an Ogden material with two terms, a simple shear with unequal stretches, double precision and
an inexact solver. -/
example : ∃ (R : RoundingSqrt) (solver lapack : Eigh) (H A : Ten4 ℝ), R.u ≤ 2 ^ (-53 : ℤ) ∧ 0 < R.u ∧ EighValid lapack ∧
    (∀ C : Ten2 ℝ, C.IsSymm → EighAccurate (2 ^ (-50 : ℤ)) C (solver C).1 (solver C).2) ∧
    (∀ p ∈ [3, (-2 : ℝ)], p ≠ 0 ∧ |p - 1| ≤ 16 ∧ |p - 2| ≤ 16) ∧
    SpectrumIn (Spec.cauchyGreen !![1, 1 / 2, 0; 0, 1, 0; 0, 0, (1 : ℝ)]) (1 / 2) 2 ∧
    (∀ x ∈ Set.Icc ((1 / 2 : ℝ) / 2) (2 + 1 / 2 / 2), |Real.log x| ≤ 8) ∧
    2 ^ (-47 : ℤ) * frob (Spec.cauchyGreen !![1, 1 / 2, 0; 0, 1, 0; 0, 0, (1 : ℝ)]) ≤ 1 / 2 ∧
    Material.Hess (Stretches.material lapack (Ogden.mat ⟨[1, 2], [3, -2]⟩)) ()
      (Spec.cauchyGreen !![1, 1 / 2, 0; 0, 1, 0; 0, 0, 1]) H ∧
    SpaceObj.Hess (Deformation.obj {} (Stretches.material lapack (Ogden.mat ⟨[1, 2], [3, -2]⟩))) ()
      !![1, 1 / 2, 0; 0, 1, 0; 0, 0, 1] A := by
  obtain ⟨solver, hs⟩ := inexact_solver
  obtain ⟨lapack, hl⟩ := exists_eigh
  have hd : (!![1, 1 / 2, 0; 0, 1, 0; 0, 0, (1 : ℝ)]).det ≠ 0 := by simp [Matrix.det_fin_three]
  obtain ⟨-, H, hH⟩ := C20_ogden_returns lapack [1, 2] [3, -2] () (by simp) (posDef_cauchyGreen hd)
  obtain ⟨A, hA⟩ := ogden_elasticity_total lapack (mu := [1, 2]) (alpha := [3, -2]) (by simp) !![1, 1 / 2, 0; 0, 1, 0; 0, 0, (1 : ℝ)]
  refine ⟨binary64Sqrt, solver, lapack, H, A, le_rfl, ?_, hl, fun C hC => (hs C hC).1, ?_, fun x => ?_, fun x hx => ?_, ?_, hH, hA⟩
  · change 0 < Binary64.rounding.u
    rw [Binary64.rounding_u]; positivity
  · intro p hp
    simp only [List.mem_cons, List.not_mem_nil, or_false] at hp
    rcases hp with rfl | rfl <;> norm_num [abs_le]
  · simp only [Spec.cauchyGreen, Matrix.mul_apply, Matrix.transpose_apply, Fin.sum_univ_three]
    simp
    constructor <;> nlinarith [sq_nonneg (x 0 + x 1), sq_nonneg (x 0 - x 1), sq_nonneg (x 0), sq_nonneg (x 1), sq_nonneg (x 2)]
  · have h0 : 0 < x := by linarith [hx.1]
    have h1 := Real.log_le_sub_one_of_pos h0
    have h2 := Real.log_le_sub_one_of_pos (inv_pos.2 h0)
    rw [Real.log_inv] at h2
    have h3 : x⁻¹ ≤ 4 := by
      rw [inv_le_comm₀ h0 (by norm_num)]
      linarith [hx.1]
    exact abs_le.2 ⟨by linarith, by linarith [hx.2]⟩
  · have h1 : frob (Spec.cauchyGreen !![1, 1 / 2, 0; 0, 1, 0; 0, 0, (1 : ℝ)]) ≤ frob !![1, 1 / 2, 0; 0, 1, 0; 0, 0, (1 : ℝ)] ^ 2 := by
      have h2 := frob_mul_le (!![1, 1 / 2, 0; 0, 1, 0; 0, 0, (1 : ℝ)]).transpose !![1, 1 / 2, 0; 0, 1, 0; 0, 0, (1 : ℝ)]
      rwa [frob_transpose, ← pow_two] at h2
    have h3 : frob !![1, 1 / 2, 0; 0, 1, 0; 0, 0, (1 : ℝ)] ^ 2 ≤ 4 := by
      rw [frob_sq]
      simp [Fin.sum_univ_three]
      norm_num
    have h4 := h1.trans h3
    norm_num
    linarith

end Props
