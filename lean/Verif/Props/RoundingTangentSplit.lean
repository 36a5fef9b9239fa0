import Verif.Proofs.RoundingTangentSplit2
import Verif.Props.RoundingOgdenSplit
import Verif.Props.RoundingTangent

/-!
# Floating-point rounding: tangents of Ogden materials on the distortional and on the dilatational space (C93)

The elasticity tensors as computed in floating-point arithmetic with a backward stable eigenvalue solver, against the
exact ones: the errors of the two derivatives of the energy, those of the operations of the space, and on the distortional
space the tolerance of `np.allclose`.
-/

namespace Props
open Spec Hel Rnd

variable {Z : Type}

/-- The computed derivatives of the energy at the computed multiple `t C` of the right Cauchy-Green tensor. -/
theorem split_derivatives (R : RoundingSqrt) (lapack solver : Eigh) (hl : EighValid lapack)
    {ε a b L G q D L₂ τ η δ δ' y y' : ℝ} (hε : 0 ≤ ε) (hτ : 0 < τ) {mu alpha : List ℝ} (hα : ∀ p ∈ alpha, p ≠ 0) (z : Z)
    {F E : Ten2 ℝ} {H : Ten4 ℝ} (hF : F.det ≠ 0) (he : detError R.u F < 1) (hy : |y| = 1 / 3) (hy' : |y' - y| ≤ R.u * |y|)
    (hC : SpectrumIn ((Spec.cauchyGreen F).det ^ y • Spec.cauchyGreen F) a b)
    (hη : η = ((1 + ε) * (powFactor R.u F * (1 + R.u) ^ 6) - 1) * ((Spec.cauchyGreen F).det ^ y * frob F ^ 2))
    (hB : OgdenTangentBounds R.u ε mu alpha (a - η) (b + η) L G q D L₂)
    (hδ : δ = (q ^ 4 * (1 + R.u) ^ ((mu.zip alpha).length + 12) - 1) * (3 * G) + L * η)
    (hδ' : δ' = tangentError (q ^ 4 * (1 + R.u) ^ 18)
      (crossError R.u (coefError R.u q (mu.zip alpha).length) τ (b + η) G D L₂) D + (4 * L₂ * η + L₂ * (1 / 10 ^ 8)))
    (hs : ∀ C : Ten2 ℝ, C.IsSymm → EighAccurate ε C (solver C).1 (solver C).2)
    (hE : Material.Grad (Stretches.material lapack (Ogden.mat ⟨mu, alpha⟩)) z
      ((Spec.cauchyGreen F).det ^ y • Spec.cauchyGreen F) E)
    (hH : Material.Hess (Stretches.material lapack (Ogden.mat ⟨mu, alpha⟩)) z
      ((Spec.cauchyGreen F).det ^ y • Spec.cauchyGreen F) H) :
    let c : Vec6 ℝ := fun a => ((⟨R.pow (Rnd.det (Rnd.cauchyGreen (R.arr33 F))).val y'⟩ : Fl R.toRounding) *
      Rnd.cauchyGreen (R.arr33 F) a).val
    E.IsSymm ∧ (∀ i j, |E i j| ≤ 3 * G) ∧ (∀ k, |R.stretchesGradient solver ⟨mu, alpha⟩ c k - asvoigt E k| ≤ δ) ∧
      (∀ i j k l, |H i j k l| ≤ D + L₂ * (1 / 10 ^ 8)) ∧
      (∀ i j k l, |astensor4 (R.stretchesHessian solver τ ⟨mu, alpha⟩ c) i j k l - H i j k l| ≤ δ') ∧
      ∃ hh, astensor4 hh = H := by
  intro c
  have hQ := powFactor_one_le R.toRounding hF he
  have hd := det_cauchyGreen_pos hF
  have hsp := Real.rpow_pos_of_pos hd y
  have hA := dataFor_lit (ctxQ R hQ) F
  have hpow := det_pow_accuracy R.toRounding hF he hy hy'
  have h1 := (ctxQ R hQ).one_le_E 1 6
  have hE1 : (ctxQ R hQ).E (2 * 0 + 1) 6 = powFactor R.u F * (1 + R.u) ^ 6 := by
    change powFactor R.u F ^ (2 * 0 + 1) * _ = _
    rw [mul_zero, zero_add, pow_one]
  have hf := sq_nonneg (frob F)
  have hq : 1 ≤ q := le_trans (by linarith) hB.vectors
  set s := (Spec.cauchyGreen F).det ^ y with hsdef
  have f1 : frob (T2 c - s • Spec.cauchyGreen F) ≤ ((ctxQ R hQ).E (2 * 0 + 1) 6 - 1) * (s * frob F ^ 2) :=
    hA.scaled_frob hsp hpow
  have f2 : ε * frob (T2 c) ≤ ε * ((ctxQ R hQ).E (2 * 0 + 1) 6 * (s * frob F ^ 2)) :=
    mul_le_mul_of_nonneg_left (hA.scaled_le hsp hpow) hε
  have e12 : η = ((ctxQ R hQ).E (2 * 0 + 1) 6 - 1) * (s * frob F ^ 2) +
      ε * ((ctxQ R hQ).E (2 * 0 + 1) 6 * (s * frob F ^ 2)) := by rw [hη, ← hE1]; ring
  have g1 : 0 ≤ ((ctxQ R hQ).E (2 * 0 + 1) 6 - 1) * (s * frob F ^ 2) :=
    mul_nonneg (by simpa using h1) (by positivity)
  have h1' : 0 ≤ (ctxQ R hQ).E (2 * 0 + 1) 6 := le_trans zero_le_one (by simpa using h1)
  have g2 : 0 ≤ ε * ((ctxQ R hQ).E (2 * 0 + 1) 6 * (s * frob F ^ 2)) := by positivity
  have hs' := hs (T2 c) (T2_stores c).symm
  obtain ⟨hsym, hM, hg⟩ := rounded_gradient_at R lapack solver hl hε hα e12 g1 g2 hB.toOgdenBounds z hC f1 f2 hs' hE
  obtain ⟨B, V, k1, k2, k3⟩ := hs'
  have hd' : frob (B - s • Spec.cauchyGreen F) ≤ η := by
    have := frob_add_le (B - T2 c) (T2 c - s • Spec.cauchyGreen F)
    rw [sub_add_sub_cancel] at this
    rw [e12]
    linarith [k2.trans f2]
  have hh := fun i j k l => rounded_hessian lapack solver hl hα hB hq hτ z (e12 ▸ add_nonneg g1 g2) hC ⟨B, V, k1, hd', k3⟩ hH
    i j k l
  refine ⟨hsym, hM, fun k => by rw [hδ]; exact hg k, fun i j k l => (hh i j k l).1, fun i j k l => by
    rw [hδ']; exact (hh i j k l).2, ?_⟩
  obtain ⟨_, _, m, -, h, -⟩ := hH
  exact ⟨m, T4_eq h⟩

theorem distLin_congr {c c' : Prop} [Decidable c] [Decidable c'] (h : c ↔ c') (F X : Ten2 ℝ) (Y : Ten4 ℝ) :
    distLin c F X Y = distLin c' F X Y := by
  unfold distLin
  by_cases hc : c
  · simp only [if_pos hc, if_pos (h.1 hc)]
  · simp only [if_neg hc, if_neg (fun hc' => hc (h.2 hc'))]

theorem distLin_true (F X : Ten2 ℝ) (Y : Ten4 ℝ) (i J k L : Fin 3) :
    distLin True F X Y i J k L = distLin False F X Y i J k L +
      projected F (Distortional.c4bT (Spec.cauchyGreen F) Y) i J k L := by
  simp only [distLin, projected, piolaT, if_true, if_false, mul_add, Finset.sum_add_distrib]
  ring

/-- The computed fictitious elasticity for a computed second derivative. -/
theorem rounded_splitC4bOf (R : RoundingSqrt) {F : Ten2 ℝ} {H : Ten4 ℝ} (hF : F.det ≠ 0) (he : detError R.u F < 1)
    {h : Mat6 ℝ} {N' δ' : ℝ} (hN' : ∀ i j k l, |H i j k l| ≤ N') (hg' : ∀ i j k l, |astensor4 h i j k l - H i j k l| ≤ δ') :
    ∀ I J K L, |(splitC4bOf (⟨R.pow (Rnd.det (Rnd.cauchyGreen (R.arr33 F))).val (R.div (-2) 3)⟩ : Fl R.toRounding)
      (R.arr66 h) (tab I J) (tab K L)).val - 4 * (Spec.cauchyGreen F).det ^ (-2 / 3 : ℝ) * H I J K L| ≤
      (powFactor R.u F ^ 2 * (1 + R.u) ^ 2 * (N' + δ') - N') * (4 * (Spec.cauchyGreen F).det ^ (-2 / 3 : ℝ)) := by
  have hsp := Real.rpow_pos_of_pos (det_cauchyGreen_pos hF) (-2 / 3)
  set s := (Spec.cauchyGreen F).det ^ (-2 / 3 : ℝ) with hs
  have h4 : ∀ (M : Mat6 ℝ) (a b : Fin 6), astensor4 M (pos a).1 (pos a).2 (pos b).1 (pos b).2 = M a b := fun M a b => by
    have ht : ∀ a : Fin 6, tab (pos a).1 (pos a).2 = a := by decide
    simp only [astensor4, ht]
  have hEK2 : (powCtx R.toRounding hF he).E 2 2 = powFactor R.u F ^ 2 * (1 + R.u) ^ 2 := rfl
  intro I J K L
  have hb : ∀ a b, |h a b| ≤ N' + δ' := fun a b => by
    have h5 := hg' (pos a).1 (pos a).2 (pos b).1 (pos b).2
    have h6 := hN' (pos a).1 (pos a).2 (pos b).1 (pos b).2
    rw [h4] at h5
    have := abs_sub_abs_le_abs_sub (h a b) (H (pos a).1 (pos a).2 (pos b).1 (pos b).2)
    linarith
  obtain ⟨x, k1, k2, k3, k4⟩ := cert_splitC4b (T := powCtx R.toRounding hF he) hsp
    (pow_two_thirds R.toRounding hF he (n := -2) (by norm_num)) h hb (tab I J) (tab K L)
  have k5 := x.err_mono k4.1 k4.2
  rw [k1, k2, k3, hEK2] at k5
  have k6 : |4 * s * h (tab I J) (tab K L) - 4 * s * H I J K L| ≤ 4 * s * δ' := by
    rw [← mul_sub, abs_mul, abs_of_pos (by positivity : 0 < 4 * s)]
    exact mul_le_mul_of_nonneg_left (hg' I J K L) (by positivity)
  refine (abs_sub_le _ _ _).trans ((add_le_add k5 k6).trans_eq ?_)
  ring

/-- The decisions in floating point and in exact arithmetic may differ near the tolerance only. -/
theorem decision_bound {F E : Ten2 ℝ} {H : Ten4 ℝ} (fl dr : Prop) [Decidable fl] [Decidable dr] {i J k L : Fin 3} {v B c t : ℝ}
    (hmain : |v - distLin (¬ fl) F E H i J k L| ≤ B + c * keptUnit (¬ fl) F i J k L)
    (hc : 0 ≤ c * distortionalProjectedUnit F i J k L) (ht : 0 ≤ t)
    (h1 : fl → |projected F (Distortional.c4bT (Spec.cauchyGreen F) H) i J k L| ≤ t + c * distortionalProjectedUnit F i J k L)
    (h2 : dr → |projected F (Distortional.c4bT (Spec.cauchyGreen F) H) i J k L| ≤ t) :
    |v - distLin (¬ dr) F E H i J k L| ≤ B + c * distortionalProjectedUnit F i J k L + t := by
  by_cases hf : fl <;> by_cases hd : dr
  · have e : keptUnit (¬ fl) F i J k L = 0 := by simp [keptUnit, hf]
    rw [e, distLin_congr (c' := ¬ dr) (by simp [hf, hd])] at hmain
    linarith
  · have e : keptUnit (¬ fl) F i J k L = 0 := by simp [keptUnit, hf]
    rw [e, distLin_congr (c' := False) (by simp [hf])] at hmain
    rw [distLin_congr (c := ¬ dr) (c' := True) (by simp [hd]), distLin_true]
    have := abs_sub (v - distLin False F E H i J k L) (projected F (Distortional.c4bT (Spec.cauchyGreen F) H) i J k L)
    rw [sub_sub] at this
    linarith [h1 hf]
  · have e : keptUnit (¬ fl) F i J k L = distortionalProjectedUnit F i J k L := by simp [keptUnit, hf]
    rw [e, distLin_congr (c' := True) (by simp [hf]), distLin_true] at hmain
    rw [distLin_congr (c := ¬ dr) (c' := False) (by simp [hd])]
    have := abs_add_le (v - (distLin False F E H i J k L + projected F (Distortional.c4bT (Spec.cauchyGreen F) H) i J k L))
      (projected F (Distortional.c4bT (Spec.cauchyGreen F) H) i J k L)
    rw [sub_add_eq_sub_sub, sub_add_cancel] at this
    rw [sub_add_eq_sub_sub] at hmain
    linarith [h2 hd]
  · have e : keptUnit (¬ fl) F i J k L = distortionalProjectedUnit F i J k L := by simp [keptUnit, hf]
    rw [e, distLin_congr (c' := ¬ dr) (by simp [hf, hd])] at hmain
    linarith

/-- The computed elasticity tensor of the distortional space for computed derivatives of the energy, whatever the decision. -/
theorem rounded_distLin (R : RoundingSqrt) {F E : Ten2 ℝ} {H : Ten4 ℝ} (hF : F.det ≠ 0) (he : detError R.u F < 1)
    {g : Vec6 ℝ} {h hh : Mat6 ℝ} {N N' δ δ' : ℝ} (hE : E.IsSymm) (hH : astensor4 hh = H)
    (hN : ∀ i j, |E i j| ≤ N) (hg : ∀ i, |g i - asvoigt E i| ≤ δ)
    (hN' : ∀ i j k l, |H i j k l| ≤ N') (hg' : ∀ i j k l, |astensor4 h i j k l - H i j k l| ≤ δ')
    (fl dr : Prop) [Decidable fl] [Decidable dr]
    (hfl : fl ↔ R.allclose0 (splitC4bOf (⟨R.pow (Rnd.det (Rnd.cauchyGreen (R.arr33 F))).val (R.div (-2) 3)⟩ : Fl R.toRounding)
      (R.arr66 h))) (hdr : dr ↔ Distortional.Dropped F H) (i J k L : Fin 3) :
    |(piolaElasticity (R.arr33 F) (distStress ⟨R.pow (Rnd.det (Rnd.cauchyGreen (R.arr33 F))).val (R.div (-1) 3)⟩
        (R.divBy (Rnd.det (Rnd.cauchyGreen (R.arr33 F)))) (R.arr6 g) (Rnd.cauchyGreen (R.arr33 F)))
      (distC4Of (¬ fl) ⟨R.pow (Rnd.det (Rnd.cauchyGreen (R.arr33 F))).val (R.div (-1) 3)⟩
        ⟨R.pow (Rnd.det (Rnd.cauchyGreen (R.arr33 F))).val (R.div (-2) 3)⟩
        (R.divBy (Rnd.det (Rnd.cauchyGreen (R.arr33 F)))) (R.arr6 g) (R.arr66 h) (Rnd.cauchyGreen (R.arr33 F))) i J k L).val -
      distLin (¬ dr) F E H i J k L| ≤
      (powFactor R.u F ^ 4 * (1 + R.u) ^ 76 * (N + δ) - N) * distortionalTangentUnit F i J k L +
        (powFactor R.u F ^ 4 * (1 + R.u) ^ 76 * (N' + δ') - N') * distortionalProjectedUnit F i J k L +
        (1 + R.u) / 10 ^ 8 * pushP F (projectP F fun _ _ _ _ => 1) i J k L := by
  have hd := det_cauchyGreen_pos hF
  have hu := R.u_nonneg
  have hsp := Real.rpow_pos_of_pos hd (-2 / 3)
  set s := (Spec.cauchyGreen F).det ^ (-2 / 3 : ℝ) with hs
  have key := fun (keep : Prop) [Decidable keep] => Cert.perturbed2 (T := powCtx R.toRounding hF he)
    (f := fun X Y => distLin keep F X Y i J k L) (U := distortionalTangentUnit F i J k L) (U' := keptUnit keep F i J k L)
    (a := 4) (b := 76) (fun A B H K => distLin_sub keep F A B H K i J k L) hE hH
    (fun X Y N N' hX hY => cert_distortional (T := powCtx R.toRounding hF he) keep hd (det_accuracy R.toRounding hF he)
      (pow_third R.toRounding hF he (n := -1) (by norm_num)) (pow_two_thirds R.toRounding hF he (n := -2) (by norm_num))
      X Y hX hY i J k L) hN hg hN' hg'
  have hEr := error_nonneg R.toRounding hF he (a := 2) (b := 2) (a' := 4) (b' := 76) (by norm_num) (by norm_num)
  have hN0 : 0 ≤ N' := (abs_nonneg _).trans (hN' 0 0 0 0)
  have hδ0 : 0 ≤ δ' := (abs_nonneg _).trans (hg' 0 0 0 0)
  have hone : 0 ≤ pushP F (projectP F fun _ _ _ _ => 1) i J k L :=
    (abs_nonneg _).trans (projected_le R.toRounding hF he (X := fun _ _ _ _ => 0) (fun i j k l => by simp) i J k L)
  have hU : distortionalProjectedUnit F i J k L = 4 * s * pushP F (projectP F fun _ _ _ _ => 1) i J k L := by
    have := projectP_add F 0 (4 * s) (fun _ _ _ _ => 1) i J k L
    simp only [zero_add, mul_one, zero_mul] at this
    exact this
  have hU0 : 0 ≤ distortionalProjectedUnit F i J k L := by rw [hU]; positivity
  have hc2 : 0 ≤ powFactor R.u F ^ 4 * (1 + R.u) ^ 76 * (N' + δ') - N' := by
    have := mul_nonneg (hEr.1.trans hEr.2) (add_nonneg hN0 hδ0)
    linarith
  have htol : 0 ≤ (1 + R.u) / 10 ^ 8 * pushP F (projectP F fun _ _ _ _ => 1) i J k L := by positivity
  have hsplit := rounded_splitC4bOf R hF he hN' hg'
  rw [← hs] at hsplit
  have hc32 : powFactor R.u F ^ 2 * (1 + R.u) ^ 2 * (N' + δ') - N' ≤ powFactor R.u F ^ 4 * (1 + R.u) ^ 76 * (N' + δ') - N' := by
    have := mul_le_mul_of_nonneg_right (sub_le_sub_iff_right 1 |>.1 hEr.2) (add_nonneg hN0 hδ0)
    exact sub_le_sub_right this _
  refine decision_bound fl dr (key (¬ fl)) (mul_nonneg hc2 hU0) htol (fun h1 => ?_) (fun h2 => ?_)
  · refine (projected_le R.toRounding hF he (X := Distortional.c4bT (Spec.cauchyGreen F) H)
      (Y := fun _ _ _ _ => (1 + R.u) / 10 ^ 8 + (powFactor R.u F ^ 2 * (1 + R.u) ^ 2 * (N' + δ') - N') * (4 * s) * 1)
      (fun I J K L => ?_) i J k L).trans ?_
    · have k1 := hsplit I J K L
      have k2 := ((hfl.1 h1) (tab I J) (tab K L)).trans (atol_bounds R.toRounding).2
      rw [abs_sub_comm] at k1
      have k3 := k1.trans' (abs_sub_abs_le_abs_sub (4 * s * H I J K L) _)
      rw [mul_one, add_comm]
      exact (sub_le_iff_le_add.1 k3).trans (add_le_add le_rfl k2)
    · rw [projectP_add F _ _ fun _ _ _ _ => 1, mul_assoc, ← hU]
      exact add_le_add le_rfl (mul_le_mul_of_nonneg_right hc32 hU0)
  · refine (projected_le R.toRounding hF he (X := Distortional.c4bT (Spec.cauchyGreen F) H)
      (Y := fun _ _ _ _ => 1 / 10 ^ 8 + 0 * 1) (fun I J K L => ?_) i J k L).trans ?_
    · rw [zero_mul, add_zero]; exact hdr.1 h2 I J K L
    · rw [projectP_add F _ _ fun _ _ _ _ => 1, zero_mul, add_zero]
      exact mul_le_mul_of_nonneg_right (by gcongr; linarith) hone

/-! ### C93 -/

open Classical in
/-- The computed elasticity tensor in the distortional space. -/
theorem C93_distortional (R : RoundingSqrt) (lapack solver : Eigh) (hl : EighValid lapack)
    {ε a b L G q D L₂ τ η δ δ' : ℝ} (hε : 0 ≤ ε) (hτ : 0 < τ) {mu alpha : List ℝ} (hα : ∀ p ∈ alpha, p ≠ 0) (z : Z)
    {F : Ten2 ℝ} {A : Ten4 ℝ} (hF : F.det ≠ 0) (he : detError R.u F < 1)
    (hC : SpectrumIn (unimodular (Spec.cauchyGreen F)) a b)
    (hη : η = ((1 + ε) * (powFactor R.u F * (1 + R.u) ^ 6) - 1) * ((Spec.cauchyGreen F).det ^ (-1 / 3 : ℝ) * frob F ^ 2))
    (hB : OgdenTangentBounds R.u ε mu alpha (a - η) (b + η) L G q D L₂)
    (hδ : δ = (q ^ 4 * (1 + R.u) ^ ((mu.zip alpha).length + 12) - 1) * (3 * G) + L * η)
    (hδ' : δ' = tangentError (q ^ 4 * (1 + R.u) ^ 18)
      (crossError R.u (coefError R.u q (mu.zip alpha).length) τ (b + η) G D L₂) D + (4 * L₂ * η + L₂ * (1 / 10 ^ 8)))
    (hs : ∀ C : Ten2 ℝ, C.IsSymm → EighAccurate ε C (solver C).1 (solver C).2)
    (hA : SpaceObj.Hess (Distortional.obj {} (Stretches.material lapack (Ogden.mat ⟨mu, alpha⟩))) z F A) (i J k L' : Fin 3) :
    |R.ogdenDistortionalHessian solver τ ⟨mu, alpha⟩ F i J k L' - A i J k L'| ≤
      (powFactor R.u F ^ 4 * (1 + R.u) ^ 76 * (3 * G + δ) - 3 * G) * distortionalTangentUnit F i J k L' +
        (powFactor R.u F ^ 4 * (1 + R.u) ^ 76 * (D + L₂ * (1 / 10 ^ 8) + δ') - (D + L₂ * (1 / 10 ^ 8))) *
          distortionalProjectedUnit F i J k L' +
        (1 + R.u) / 10 ^ 8 * pushP F (projectP F fun _ _ _ _ => 1) i J k L' := by
  obtain ⟨E, H, hE, hH, rfl⟩ := Distortional.hess_elim hF hA
  obtain ⟨h1, h2, h3, h4, h5, hh, h6⟩ := split_derivatives R lapack solver hl hε hτ hα z hF he (y := -1 / 3)
    (y' := R.div (-1) 3) (by norm_num [abs_div]) (R.div_error _ _ (by norm_num)) hC hη hB hδ hδ' hs hE hH
  exact rounded_distLin R hF he h1 h6 h2 h3 h4 h5 _ _ Iff.rfl Iff.rfl i J k L'

/-- The computed elasticity tensor in the dilatational space. -/
theorem C93_dilatational (R : RoundingSqrt) (lapack solver : Eigh) (hl : EighValid lapack)
    {ε a b L G q D L₂ τ η δ δ' : ℝ} (hε : 0 ≤ ε) (hτ : 0 < τ) {mu alpha : List ℝ} (hα : ∀ p ∈ alpha, p ≠ 0) (z : Z)
    {F : Ten2 ℝ} {A : Ten4 ℝ} (hF : F.det ≠ 0) (he : detError R.u F < 1)
    (hC : SpectrumIn ((Spec.cauchyGreen F).det ^ (1 / 3 : ℝ) • Spec.cauchyGreen F) a b)
    (hη : η = ((1 + ε) * (powFactor R.u F * (1 + R.u) ^ 6) - 1) * ((Spec.cauchyGreen F).det ^ (1 / 3 : ℝ) * frob F ^ 2))
    (hB : OgdenTangentBounds R.u ε mu alpha (a - η) (b + η) L G q D L₂)
    (hδ : δ = (q ^ 4 * (1 + R.u) ^ ((mu.zip alpha).length + 12) - 1) * (3 * G) + L * η)
    (hδ' : δ' = tangentError (q ^ 4 * (1 + R.u) ^ 18)
      (crossError R.u (coefError R.u q (mu.zip alpha).length) τ (b + η) G D L₂) D + (4 * L₂ * η + L₂ * (1 / 10 ^ 8)))
    (hs : ∀ C : Ten2 ℝ, C.IsSymm → EighAccurate ε C (solver C).1 (solver C).2)
    (hA : SpaceObj.Hess (Dilatational.obj {} (Stretches.material lapack (Ogden.mat ⟨mu, alpha⟩))) z F A) (i J k L' : Fin 3) :
    |R.ogdenDilatationalHessian solver τ ⟨mu, alpha⟩ F i J k L' - A i J k L'| ≤
      (powFactor R.u F ^ 4 * (1 + R.u) ^ 69 * (3 * G + δ) - 3 * G) * dilatationalTangentUnit F i J k L' +
        (powFactor R.u F ^ 4 * (1 + R.u) ^ 69 * (D + L₂ * (1 / 10 ^ 8) + δ') - (D + L₂ * (1 / 10 ^ 8))) *
          dilatationalProjectedUnit F i J k L' := by
  obtain ⟨E, H, hE, hH, rfl⟩ := Dilatational.hess_elim hF hA
  obtain ⟨h1, h2, h3, h4, h5, hh, h6⟩ := split_derivatives R lapack solver hl hε hτ hα z hF he (y := 1 / 3)
    (y' := R.div 1 3) (by norm_num [abs_div]) (R.div_error _ _ (by norm_num)) hC hη hB hδ hδ' hs hE hH
  exact Cert.perturbed2 (T := powCtx R.toRounding hF he) (f := fun X Y => dilLin F X Y i J k L')
    (U := dilatationalTangentUnit F i J k L') (U' := dilatationalProjectedUnit F i J k L') (a := 4) (b := 69)
    (fun A B H K => dilLin_sub F A B H K i J k L') h1 h6
    (fun X Y N N' hX hY => cert_dilatational (T := powCtx R.toRounding hF he) (det_cauchyGreen_pos hF)
      (det_accuracy R.toRounding hF he) (pow_third R.toRounding hF he (n := 1) (by norm_num))
      (pow_two_thirds R.toRounding hF he (n := 2) (by norm_num)) X Y hX hY i J k L') h2 h3 h4 h5

/-- The limit of the bounds of the errors of the tangents. -/
theorem ogden_tangent_limit (R : ℕ → RoundingSqrt) (ε : ℕ → ℝ)
    (hR : Filter.Tendsto (fun n => (R n).u) .atTop (nhds 0)) (hε : Filter.Tendsto ε .atTop (nhds 0))
    (mu alpha : List ℝ) {F : Ten2 ℝ} (N U U₂ T : ℝ) (K : ℕ) {τ a b a' b' : ℝ} (ha' : 0 < a') (haa : a' < a) (hbb : b < b')
    {x : ℝ} {y : ℕ → ℝ}
    (h : ∀ n L G q D L₂ η δ δ', detError (R n).u F < 1 →
      η = ((1 + ε n) * (powFactor (R n).u F * (1 + (R n).u) ^ 6) - 1) * N →
      OgdenTangentBounds (R n).u (ε n) mu alpha (a - η) (b + η) L G q D L₂ →
      δ = (q ^ 4 * (1 + (R n).u) ^ ((mu.zip alpha).length + 12) - 1) * (3 * G) + L * η →
      δ' = tangentError (q ^ 4 * (1 + (R n).u) ^ 18)
        (crossError (R n).u (coefError (R n).u q (mu.zip alpha).length) τ (b + η) G D L₂) D +
          (4 * L₂ * η + L₂ * (1 / 10 ^ 8)) →
      |y n - x| ≤ (powFactor (R n).u F ^ 4 * (1 + (R n).u) ^ K * (3 * G + δ) - 3 * G) * U +
        (powFactor (R n).u F ^ 4 * (1 + (R n).u) ^ K * (D + L₂ * (1 / 10 ^ 8) + δ') - (D + L₂ * (1 / 10 ^ 8))) * U₂ +
        (1 + (R n).u) * T) {δ : ℝ} (hδ : 0 < δ) :
    ∀ᶠ n in Filter.atTop, |y n - x| ≤ ogdenL2 mu alpha a' b' * (τ + 1 / 10 ^ 8) * U₂ + T + δ := by
  obtain ⟨h1, h2⟩ := tendsto_powFactor F hR
  obtain ⟨A, hA⟩ : ∃ A, ∀ α ∈ alpha, |α - 1| ≤ A ∧ |α - 2| ≤ A := by
    refine ⟨(alpha.map fun α => |α - 1| + |α - 2|).sum, fun α h => ?_⟩
    have : |α - 1| + |α - 2| ≤ (alpha.map fun α => |α - 1| + |α - 2|).sum := List.single_le_sum (by
      intro x hx
      obtain ⟨y, -, rfl⟩ := List.mem_map.1 hx
      positivity) _ (List.mem_map.2 ⟨α, h, rfl⟩)
    exact ⟨by linarith [abs_nonneg (α - 2)], by linarith [abs_nonneg (α - 1)]⟩
  obtain ⟨Λ, hΛ⟩ : ∃ Λ, ∀ x ∈ Set.Icc a' b', |Real.log x| ≤ Λ := by
    refine ⟨max |Real.log a'| |Real.log b'|, fun x hx => ?_⟩
    have h1 := Real.log_le_log ha' hx.1
    have h2 := Real.log_le_log (ha'.trans_le hx.1) hx.2
    exact abs_le_max_abs_abs h1 h2
  set L := ogdenL mu alpha a' b'
  set G := ogdenG mu alpha a' b'
  set D := ogdenD mu alpha a' b'
  set L₂ := ogdenL2 mu alpha a' b'
  set q : ℕ → ℝ := fun n => ogdenQ2 (R n).u (ε n) A Λ
  set n0 := (mu.zip alpha).length
  set η : ℕ → ℝ := fun n => ((1 + ε n) * (powFactor (R n).u F * (1 + (R n).u) ^ 6) - 1) * N with hη
  have h1u : Filter.Tendsto (fun n => 1 + (R n).u) .atTop (nhds 1) := by simpa using hR.const_add 1
  have hηt : Filter.Tendsto η .atTop (nhds 0) := by
    have := ((((hε.const_add 1).mul (h2.mul (h1u.pow 6))).sub_const 1)).mul_const N
    simpa using this
  have hq : Filter.Tendsto q .atTop (nhds 1) := ogdenQ2_tendsto hR hε
  have he : Filter.Tendsto (fun n => coefError (R n).u (q n) n0) .atTop (nhds 0) := by
    have := ((hq.pow 3).mul (h1u.pow (n0 + 7))).sub_const 1
    simpa [coefError] using this
  have hQ : Filter.Tendsto (fun n => q n ^ 4 * (1 + (R n).u) ^ 18) .atTop (nhds 1) := by
    simpa using (hq.pow 4).mul (h1u.pow 18)
  have hb : Filter.Tendsto (fun n => b + η n) .atTop (nhds b) := by simpa using hηt.const_add b
  have hx : Filter.Tendsto (fun n => crossError (R n).u (coefError (R n).u (q n) n0) τ (b + η n) G D L₂) .atTop
      (nhds (L₂ * τ)) := by
    have t1 := (((he.const_mul 2).mul ((hb.mul_const D).const_add G)).div_const τ).add (he.mul_const D)
    have t2 := ((h1u.mul t1).add (hR.mul_const D)).add ((((he.const_mul 2).mul hb).const_add τ).const_mul L₂)
    simpa [crossError] using t2
  set δ₁ : ℕ → ℝ := fun n => (q n ^ 4 * (1 + (R n).u) ^ (n0 + 12) - 1) * (3 * G) + L * η n with hδ₁
  set δ₂ : ℕ → ℝ := fun n => tangentError (q n ^ 4 * (1 + (R n).u) ^ 18)
      (crossError (R n).u (coefError (R n).u (q n) n0) τ (b + η n) G D L₂) D + (4 * L₂ * η n + L₂ * (1 / 10 ^ 8)) with hδ₂
  have hl1 : Filter.Tendsto δ₁ .atTop (nhds 0) := by
    have := ((((hq.pow 4).mul (h1u.pow (n0 + 12))).sub_const 1).mul_const (3 * G)).add (hηt.const_mul L)
    simpa using this
  have hl2 : Filter.Tendsto δ₂ .atTop (nhds (L₂ * (τ + 1 / 10 ^ 8))) := by
    have t1 := ((hQ.sub_const 1).mul ((hx.const_add D).const_mul 9)).add hx
    have t2 := t1.add ((hηt.const_mul (4 * L₂)).add_const (L₂ * (1 / 10 ^ 8)))
    have e : (1 - 1) * (9 * (D + L₂ * τ)) + L₂ * τ + (4 * L₂ * 0 + L₂ * (1 / 10 ^ 8)) = L₂ * (τ + 1 / 10 ^ 8) := by ring
    rw [e] at t2
    exact t2
  have hlim : Filter.Tendsto (fun n => (powFactor (R n).u F ^ 4 * (1 + (R n).u) ^ K * (3 * G + δ₁ n) - 3 * G) * U +
        (powFactor (R n).u F ^ 4 * (1 + (R n).u) ^ K * (D + L₂ * (1 / 10 ^ 8) + δ₂ n) - (D + L₂ * (1 / 10 ^ 8))) * U₂ +
        (1 + (R n).u) * T) .atTop (nhds (L₂ * (τ + 1 / 10 ^ 8) * U₂ + T)) := by
    have t0 : Filter.Tendsto (fun n => powFactor (R n).u F ^ 4 * (1 + (R n).u) ^ K) .atTop (nhds 1) := by
      simpa using (h2.pow 4).mul (h1u.pow K)
    have t1 := ((t0.mul (hl1.const_add (3 * G))).sub_const (3 * G)).mul_const U
    have t2 := ((t0.mul (hl2.const_add (D + L₂ * (1 / 10 ^ 8)))).sub_const (D + L₂ * (1 / 10 ^ 8))).mul_const U₂
    have t3 := (t1.add t2).add (h1u.mul_const T)
    have e : (1 * (3 * G + 0) - 3 * G) * U + (1 * (D + L₂ * (1 / 10 ^ 8) + L₂ * (τ + 1 / 10 ^ 8)) - (D + L₂ * (1 / 10 ^ 8))) * U₂ +
        1 * T = L₂ * (τ + 1 / 10 ^ 8) * U₂ + T := by ring
    rw [e] at t3
    exact t3
  have hu5 : Filter.Tendsto (fun n => (1 + (R n).u) ^ 5) .atTop (nhds 1) := by simpa using h1u.pow 5
  have hmin : 0 < min (a - a') (b' - b) := lt_min (by linarith) (by linarith)
  filter_upwards [hηt.eventually (gt_mem_nhds hmin), hu5.eventually (gt_mem_nhds one_lt_two),
    h1.eventually (gt_mem_nhds one_pos), hlim.eventually (gt_mem_nhds (lt_add_of_pos_right _ hδ))] with n k1 k2 k3 k4
  have hB : OgdenTangentBounds (R n).u (ε n) mu alpha (a - η n) (b + η n) L G (q n) D L₂ :=
    OgdenTangentBounds.mono (C91_constants mu alpha (R n).u_nonneg k2 ha' hA hΛ) (by linarith [min_le_left (a - a') (b' - b)])
      (by linarith [min_le_right (a - a') (b' - b)])
  exact (h n L G (q n) D L₂ (η n) (δ₁ n) (δ₂ n) k3 rfl hB rfl rfl).trans k4.le

/-- If the precision of the arithmetic and of the solver is increased, what remains of the errors of the tangents are the
tolerances of the comparisons: those of the hessian of the stretch-based model, times the Lipschitz constant of the second
derivative of the energy, and on the distortional space that of `np.allclose`. -/
theorem C93_converges (R : ℕ → RoundingSqrt) (lapack : Eigh) (hl : EighValid lapack) (solver : ℕ → Eigh) (ε : ℕ → ℝ)
    (hR : Filter.Tendsto (fun n => (R n).u) .atTop (nhds 0)) (hε : Filter.Tendsto ε .atTop (nhds 0)) (hε0 : ∀ n, 0 ≤ ε n)
    (hs : ∀ n, ∀ C : Ten2 ℝ, C.IsSymm → EighAccurate (ε n) C (solver n C).1 (solver n C).2)
    {mu alpha : List ℝ} (hα : ∀ p ∈ alpha, p ≠ 0) (z : Z) {τ : ℝ} (hτ : 0 < τ) {F : Ten2 ℝ} {A A' : Ten4 ℝ} (hF : F.det ≠ 0)
    (hA : SpaceObj.Hess (Distortional.obj {} (Stretches.material lapack (Ogden.mat ⟨mu, alpha⟩))) z F A)
    (hA' : SpaceObj.Hess (Dilatational.obj {} (Stretches.material lapack (Ogden.mat ⟨mu, alpha⟩))) z F A')
    {a b a' b' : ℝ} (ha' : 0 < a') (haa : a' < a) (hbb : b < b') {δ : ℝ} (hδ : 0 < δ) (i J k L : Fin 3) :
    (SpectrumIn (unimodular (Spec.cauchyGreen F)) a b → ∀ᶠ n in Filter.atTop,
      |(R n).ogdenDistortionalHessian (solver n) τ ⟨mu, alpha⟩ F i J k L - A i J k L| ≤
        ogdenL2 mu alpha a' b' * (τ + 1 / 10 ^ 8) * distortionalProjectedUnit F i J k L +
          1 / 10 ^ 8 * pushP F (projectP F fun _ _ _ _ => 1) i J k L + δ) ∧
    (SpectrumIn ((Spec.cauchyGreen F).det ^ (1 / 3 : ℝ) • Spec.cauchyGreen F) a b → ∀ᶠ n in Filter.atTop,
      |(R n).ogdenDilatationalHessian (solver n) τ ⟨mu, alpha⟩ F i J k L - A' i J k L| ≤
        ogdenL2 mu alpha a' b' * (τ + 1 / 10 ^ 8) * dilatationalProjectedUnit F i J k L + δ) := by
  refine ⟨fun hC => ?_, fun hC => ?_⟩
  · refine ogden_tangent_limit R ε hR hε mu alpha (F := F) ((Spec.cauchyGreen F).det ^ (-1 / 3 : ℝ) * frob F ^ 2)
      (distortionalTangentUnit F i J k L) (distortionalProjectedUnit F i J k L)
      (1 / 10 ^ 8 * pushP F (projectP F fun _ _ _ _ => 1) i J k L) 76 ha' haa hbb (τ := τ)
      (fun n L' G q D L₂ η δ δ' he hη hB hδ hδ' => ?_) hδ
    refine (C93_distortional (R n) lapack (solver n) hl (hε0 n) hτ hα z hF he hC hη hB hδ hδ' (hs n) hA i J k L).trans_eq ?_
    ring
  · have := ogden_tangent_limit R ε hR hε mu alpha (F := F) ((Spec.cauchyGreen F).det ^ (1 / 3 : ℝ) * frob F ^ 2)
      (dilatationalTangentUnit F i J k L) (dilatationalProjectedUnit F i J k L) 0 69 ha' haa hbb (τ := τ)
      (x := A' i J k L) (y := fun n => (R n).ogdenDilatationalHessian (solver n) τ ⟨mu, alpha⟩ F i J k L)
      (fun n L' G q D L₂ η δ δ' he hη hB hδ hδ' => by
        rw [mul_zero, add_zero]
        exact C93_dilatational (R n) lapack (solver n) hl (hε0 n) hτ hα z hF he hC hη hB hδ hδ' (hs n) hA' i J k L) hδ
    simpa only [add_zero] using this

/-- The units of the errors are nonnegative. -/
theorem distortional_units_nonneg (R : Rounding) {F : Ten2 ℝ} (hF : F.det ≠ 0) (he : detError R.u F < 1) (i J k L : Fin 3) :
    0 ≤ distortionalTangentUnit F i J k L ∧ 0 ≤ distortionalProjectedUnit F i J k L := by
  have key := fun N N' (hN : 0 ≤ N) (hN' : 0 ≤ N') => cert_distortional (T := powCtx R hF he) True (det_cauchyGreen_pos hF)
    (det_accuracy R hF he) (pow_third R hF he (n := -1) (by norm_num)) (pow_two_thirds R hF he (n := -2) (by norm_num))
    (fun _ => 0) (fun _ _ => 0) (N := N) (N' := N') (fun _ => by simpa using hN) (fun _ _ => by simpa using hN') i J k L
  obtain ⟨x, -, -, h1, -⟩ := key 1 0 zero_le_one le_rfl
  obtain ⟨y, -, -, h2, -⟩ := key 0 1 le_rfl zero_le_one
  have h3 := (abs_nonneg _).trans x.maj
  have h4 := (abs_nonneg _).trans y.maj
  rw [h1] at h3
  rw [h2] at h4
  simp only [one_mul, zero_mul, add_zero, zero_add] at h3 h4
  exact ⟨h3, by simpa [keptUnit] using h4⟩

theorem dilatational_units_nonneg (R : Rounding) {F : Ten2 ℝ} (hF : F.det ≠ 0) (he : detError R.u F < 1) (i J k L : Fin 3) :
    0 ≤ dilatationalTangentUnit F i J k L ∧ 0 ≤ dilatationalProjectedUnit F i J k L := by
  have key := fun N N' (hN : 0 ≤ N) (hN' : 0 ≤ N') => cert_dilatational (T := powCtx R hF he) (det_cauchyGreen_pos hF)
    (det_accuracy R hF he) (pow_third R hF he (n := 1) (by norm_num)) (pow_two_thirds R hF he (n := 2) (by norm_num))
    (fun _ => 0) (fun _ _ => 0) (N := N) (N' := N') (fun _ => by simpa using hN) (fun _ _ => by simpa using hN') i J k L
  obtain ⟨x, -, -, h1, -⟩ := key 1 0 zero_le_one le_rfl
  obtain ⟨y, -, -, h2, -⟩ := key 0 1 le_rfl zero_le_one
  have h3 := (abs_nonneg _).trans x.maj
  have h4 := (abs_nonneg _).trans y.maj
  rw [h1] at h3
  rw [h2] at h4
  simp only [one_mul, zero_mul, add_zero, zero_add] at h3 h4
  exact ⟨h3, h4⟩

/-- The errors of the derivatives of the energy in double precision, for an error `η` of the tensor. -/
theorem tangent_double (R : RoundingSqrt) (hR : R.u ≤ 2 ^ (-53 : ℤ)) {b b' η τ L G D L₂ q : ℝ}
    (hτ : |τ - 1 / 10 ^ 8| ≤ 2 ^ (-53 : ℤ) * (1 / 10 ^ 8)) {mu alpha : List ℝ} (hlen : (mu.zip alpha).length ≤ 6)
    (hη0 : 0 ≤ η) (hq : q ≤ 1 + 1 / 70368744177664) (hq1 : 1 ≤ q) (hbb : b + η ≤ b') (hb : 0 ≤ b + η) (hD : 0 ≤ D) (hG : 0 ≤ G)
    (hL0 : 0 ≤ L) (hL : 0 ≤ L₂) (hx0 : 0 ≤ crossError R.u (coefError R.u q (mu.zip alpha).length) τ (b + η) G D L₂) :
    (q ^ 4 * (1 + R.u) ^ ((mu.zip alpha).length + 12) - 1) * (3 * G) + L * η ≤ 2 ^ (-41 : ℤ) * G + L * η ∧
    tangentError (q ^ 4 * (1 + R.u) ^ 18) (crossError R.u (coefError R.u q (mu.zip alpha).length) τ (b + η) G D L₂) D +
        (4 * L₂ * η + L₂ * (1 / 10 ^ 8)) ≤
      2 ^ (-16 : ℤ) * (G + b' * D) + 2 ^ (-38 : ℤ) * D + L₂ * (2 ^ (-25 : ℤ) + 2 ^ (-42 : ℤ) * b' + 4 * η) := by
  have hu := R.u_nonneg
  have h53 : (2 : ℝ) ^ (-53 : ℤ) = 1 / 9007199254740992 := by norm_num
  have h42 : (2 : ℝ) ^ (-42 : ℤ) = 1 / 4398046511104 := by norm_num
  have h41 : (2 : ℝ) ^ (-41 : ℤ) = 1 / 2199023255552 := by norm_num
  have h38 : (2 : ℝ) ^ (-38 : ℤ) = 1 / 274877906944 := by norm_num
  have h25 : (2 : ℝ) ^ (-25 : ℤ) = 1 / 33554432 := by norm_num
  have h16 : (2 : ℝ) ^ (-16 : ℤ) = 1 / 65536 := by norm_num
  have hu53 := hR
  rw [h53] at hu53
  obtain ⟨t1, t2⟩ := abs_le.1 hτ
  rw [h53] at t1 t2
  have hτ0 : 0 < τ := by norm_num at t1 ⊢; linarith
  have hQ : ∀ m, m ≤ 18 → q ^ 4 * (1 + R.u) ^ m - 1 ≤ 1 / 8796093022208 := fun m hm => by
    have e1 : (1 + R.u) ^ m ≤ (1 + 1 / 9007199254740992) ^ 18 :=
      (pow_le_pow_right₀ (by linarith) hm).trans (by gcongr)
    have e2 : q ^ 4 ≤ (1 + 1 / 70368744177664) ^ 4 := by gcongr
    have e3 := mul_le_mul e2 e1 (by positivity) (by positivity)
    refine (sub_le_sub_right e3 1).trans (by norm_num)
  constructor
  · have := mul_le_mul_of_nonneg_right (hQ ((mu.zip alpha).length + 12) (by omega)) (by positivity : 0 ≤ 3 * G)
    rw [h41]
    linarith
  set e := coefError R.u q (mu.zip alpha).length with he
  have he0 : 0 ≤ e := coefError_nonneg R hq1 _
  have he1 : e ≤ 1 / 17592186044416 := by
    have e1 : (1 + R.u) ^ ((mu.zip alpha).length + 7) ≤ (1 + 1 / 9007199254740992) ^ 13 :=
      (pow_le_pow_right₀ (by linarith) (by omega : (mu.zip alpha).length + 7 ≤ 13)).trans (by gcongr)
    have e2 : q ^ 3 ≤ (1 + 1 / 70368744177664) ^ 3 := by gcongr
    have e3 := mul_le_mul e2 e1 (by positivity) (by positivity)
    rw [he]
    unfold coefError
    refine (sub_le_sub_right e3 1).trans (by norm_num)
  have hb' : 0 ≤ b' := hb.trans hbb
  set Y := G + b' * D with hY
  have hY0 : 0 ≤ Y := by positivity
  have hinv : 1 / τ ≤ 100000001 := by
    rw [div_le_iff₀ hτ0]
    norm_num at t1 ⊢
    linarith
  have hx : crossError R.u e τ (b + η) G D L₂ ≤
      1 / 80000 * Y + 1 / 8796093022208 * D + L₂ * (11 / 10 ^ 9 + 1 / 8796093022208 * b') := by
    unfold crossError
    have c1 : 2 * e * (G + (b + η) * D) / τ ≤ 1 / 85000 * Y := by
      have e1 : 2 * e * (G + (b + η) * D) ≤ 2 * (1 / 17592186044416) * Y := by
        have : G + (b + η) * D ≤ Y := by
          have := mul_le_mul_of_nonneg_right hbb hD
          linarith
        exact mul_le_mul (by linarith) this (by positivity) (by norm_num)
      rw [div_eq_mul_one_div]
      calc 2 * e * (G + (b + η) * D) * (1 / τ) ≤ 2 * (1 / 17592186044416) * Y * 100000001 :=
            mul_le_mul e1 hinv (by positivity) (by positivity)
        _ ≤ _ := by nlinarith
    have c2 : e * D ≤ 1 / 17592186044416 * D := mul_le_mul_of_nonneg_right he1 hD
    have c3 : R.u * D ≤ 1 / 9007199254740992 * D := mul_le_mul_of_nonneg_right hu53 hD
    have c4 : (1 + R.u) * (2 * e * (G + (b + η) * D) / τ + e * D) ≤
        (1 + 1 / 9007199254740992) * (1 / 85000 * Y + 1 / 17592186044416 * D) :=
      mul_le_mul (by linarith) (add_le_add c1 c2) (by positivity) (by norm_num)
    have c5 : L₂ * (τ + 2 * e * (b + η)) ≤ L₂ * (11 / 10 ^ 9 + 1 / 8796093022208 * b') := by
      refine mul_le_mul_of_nonneg_left (add_le_add ?_ ?_) hL
      · norm_num at t2 ⊢; linarith
      · calc 2 * e * (b + η) ≤ 2 * (1 / 17592186044416) * b' := mul_le_mul (by linarith) hbb hb (by norm_num)
          _ = _ := by ring
    linarith
  have hT : tangentError (q ^ 4 * (1 + R.u) ^ 18) (crossError R.u e τ (b + η) G D L₂) D ≤
      1 / 8796093022208 * (9 * (D + crossError R.u e τ (b + η) G D L₂)) + crossError R.u e τ (b + η) G D L₂ := by
    unfold tangentError
    exact add_le_add (mul_le_mul_of_nonneg_right (hQ 18 le_rfl) (by positivity)) le_rfl
  rw [h16, h38, h25, h42]
  have hLb : 0 ≤ L₂ * b' := mul_nonneg hL hb'
  have hLη : 0 ≤ L₂ * η := mul_nonneg hL hη0
  generalize crossError R.u e τ (b + η) G D L₂ = x at hT hx hx0 ⊢
  refine (add_le_add_left hT _).trans ?_
  clear_value Y
  linarith

/-- The factors of the units in double precision. -/
theorem split_factors_double {u Q : ℝ} (hu : 0 ≤ u) (hu' : u ≤ 2 ^ (-53 : ℤ)) (hQ1 : 1 ≤ Q) (hQ : Q ≤ 1 + 25 * 2 ^ (-43 : ℤ)) {K : ℕ}
    (hK : K ≤ 76) {N L G D L₂ δ δ' b' η : ℝ} (hN : 0 ≤ N) (hη : η ≤ 2 ^ (-38 : ℤ) * N) (hG : 0 ≤ G) (hL : 0 ≤ L) (hD : 0 ≤ D)
    (hL₂ : 0 ≤ L₂) (hb' : 0 ≤ b')
    (hδ : δ ≤ 2 ^ (-41 : ℤ) * G + L * η)
    (hδ' : δ' ≤ 2 ^ (-16 : ℤ) * (G + b' * D) + 2 ^ (-38 : ℤ) * D + L₂ * (2 ^ (-25 : ℤ) + 2 ^ (-42 : ℤ) * b' + 4 * η)) :
    Q ^ 4 * (1 + u) ^ K * (3 * G + δ) - 3 * G ≤ 2 ^ (-34 : ℤ) * G + 2 ^ (-37 : ℤ) * L * N ∧
    Q ^ 4 * (1 + u) ^ K * (D + L₂ * (1 / 10 ^ 8) + δ') - (D + L₂ * (1 / 10 ^ 8)) ≤
      2 ^ (-15 : ℤ) * (G + b' * D) + 2 ^ (-35 : ℤ) * D + L₂ * (2 ^ (-24 : ℤ) + 2 ^ (-41 : ℤ) * b' + 2 ^ (-35 : ℤ) * N) := by
  have h53 : (2 : ℝ) ^ (-53 : ℤ) = 1 / 9007199254740992 := by norm_num
  have h43 : (2 : ℝ) ^ (-43 : ℤ) = 1 / 8796093022208 := by norm_num
  have h42 : (2 : ℝ) ^ (-42 : ℤ) = 1 / 4398046511104 := by norm_num
  have h41 : (2 : ℝ) ^ (-41 : ℤ) = 1 / 2199023255552 := by norm_num
  have h38 : (2 : ℝ) ^ (-38 : ℤ) = 1 / 274877906944 := by norm_num
  have h37 : (2 : ℝ) ^ (-37 : ℤ) = 1 / 137438953472 := by norm_num
  have h35 : (2 : ℝ) ^ (-35 : ℤ) = 1 / 34359738368 := by norm_num
  have h34 : (2 : ℝ) ^ (-34 : ℤ) = 1 / 17179869184 := by norm_num
  have h25 : (2 : ℝ) ^ (-25 : ℤ) = 1 / 33554432 := by norm_num
  have h24 : (2 : ℝ) ^ (-24 : ℤ) = 1 / 16777216 := by norm_num
  have h16 : (2 : ℝ) ^ (-16 : ℤ) = 1 / 65536 := by norm_num
  have h15 : (2 : ℝ) ^ (-15 : ℤ) = 1 / 32768 := by norm_num
  rw [h53] at hu'
  rw [h43] at hQ
  rw [h38] at hη
  rw [h41] at hδ
  rw [h16, h38, h25, h42] at hδ'
  rw [h34, h37, h15, h35, h24, h41]
  have hW : Q ^ 4 * (1 + u) ^ K ≤ 1 + 1 / 68719476736 := by
    have e1 : (1 + u) ^ K ≤ (1 + 1 / 9007199254740992) ^ 76 := (pow_le_pow_right₀ (by linarith) hK).trans (by gcongr)
    have e2 : Q ^ 4 ≤ (1 + 25 * (1 / 8796093022208)) ^ 4 := by gcongr
    have e3 := mul_le_mul e2 e1 (by positivity) (by positivity)
    exact e3.trans (by norm_num)
  have hW0 : 0 ≤ Q ^ 4 * (1 + u) ^ K := by positivity
  generalize Q ^ 4 * (1 + u) ^ K = W at hW hW0 ⊢
  have hLη : L * η ≤ L * (1 / 274877906944 * N) := mul_le_mul_of_nonneg_left hη hL
  have hL2η : L₂ * η ≤ L₂ * (1 / 274877906944 * N) := mul_le_mul_of_nonneg_left hη hL₂
  have hLN : 0 ≤ L * N := mul_nonneg hL hN
  have hL2N : 0 ≤ L₂ * N := mul_nonneg hL₂ hN
  have hbD : 0 ≤ b' * D := mul_nonneg hb' hD
  have hLb : 0 ≤ L₂ * b' := mul_nonneg hL₂ hb'
  constructor
  · have h1 : 3 * G + δ ≤ 3 * G + 1 / 2199023255552 * G + L * (1 / 274877906944 * N) := by linarith
    have h2 := mul_le_mul_of_nonneg_left h1 hW0
    have h3 := mul_le_mul_of_nonneg_right hW (by positivity : 0 ≤ 3 * G + 1 / 2199023255552 * G + L * (1 / 274877906944 * N))
    linarith
  · have h1 : D + L₂ * (1 / 10 ^ 8) + δ' ≤ D + L₂ * (1 / 10 ^ 8) + (1 / 65536 * (G + b' * D) + 1 / 274877906944 * D +
        L₂ * (1 / 33554432 + 1 / 4398046511104 * b' + 4 * (1 / 274877906944 * N))) := by linarith
    have h2 := mul_le_mul_of_nonneg_left h1 hW0
    have h3 := mul_le_mul_of_nonneg_right hW (by positivity : 0 ≤ D + L₂ * (1 / 10 ^ 8) + (1 / 65536 * (G + b' * D) +
        1 / 274877906944 * D + L₂ * (1 / 33554432 + 1 / 4398046511104 * b' + 4 * (1 / 274877906944 * N))))
    linarith

/-- The hypotheses of the bounds in double precision, and their consequences. -/
theorem split_double_core (R : RoundingSqrt) (hR : R.u ≤ 2 ^ (-53 : ℤ)) {ε a b τ : ℝ}
    (hε : 0 ≤ ε) (hε' : ε ≤ 2 ^ (-48 : ℤ)) (hτ : |τ - 1 / 10 ^ 8| ≤ 2 ^ (-53 : ℤ) * (1 / 10 ^ 8)) {mu alpha : List ℝ}
    (hlen : alpha.length ≤ 6) (hα : ∀ p ∈ alpha, p ≠ 0 ∧ |p - 1| ≤ 16 ∧ |p - 2| ≤ 16) {F : Ten2 ℝ} (hF : F.det ≠ 0)
    (hk : detP (Spec.cauchyGreen (abs2 F)) ≤ 2 ^ 10 * (Spec.cauchyGreen F).det)
    (hld : |Real.log (Spec.cauchyGreen F).det| ≤ 2 ^ 5)
    (ha : 0 < a) (hab : a ≤ b) (hlog : ∀ x ∈ Set.Icc (a / 2) (b + a / 2), |Real.log x| ≤ 8) {N : ℝ} (hN : 0 ≤ N)
    (hcond : 2 ^ (-37 : ℤ) * N ≤ a) {η : ℝ} (hη : η = ((1 + ε) * (powFactor R.u F * (1 + R.u) ^ 6) - 1) * N) {K : ℕ} (hK : K ≤ 76) :
    let G := ogdenG mu alpha (a / 2) (b + a / 2)
    let L := ogdenL mu alpha (a / 2) (b + a / 2)
    let D := ogdenD mu alpha (a / 2) (b + a / 2)
    let L₂ := ogdenL2 mu alpha (a / 2) (b + a / 2)
    let q := ogdenQ2 R.u ε 16 8
    let δ := (q ^ 4 * (1 + R.u) ^ ((mu.zip alpha).length + 12) - 1) * (3 * G) + L * η
    let δ' := tangentError (q ^ 4 * (1 + R.u) ^ 18)
      (crossError R.u (coefError R.u q (mu.zip alpha).length) τ (b + η) G D L₂) D + (4 * L₂ * η + L₂ * (1 / 10 ^ 8))
    detError R.u F < 1 ∧ 0 < τ ∧ OgdenTangentBounds R.u ε mu alpha (a - η) (b + η) L G q D L₂ ∧
    powFactor R.u F ^ 4 * (1 + R.u) ^ K * (3 * G + δ) - 3 * G ≤ 2 ^ (-34 : ℤ) * G + 2 ^ (-37 : ℤ) * L * N ∧
    powFactor R.u F ^ 4 * (1 + R.u) ^ K * (D + L₂ * (1 / 10 ^ 8) + δ') - (D + L₂ * (1 / 10 ^ 8)) ≤
      2 ^ (-15 : ℤ) * (G + (b + a / 2) * D) + 2 ^ (-35 : ℤ) * D +
        L₂ * (2 ^ (-24 : ℤ) + 2 ^ (-41 : ℤ) * (b + a / 2) + 2 ^ (-35 : ℤ) * N) := by
  intro G L D L₂ q δ δ'
  have hu := R.u_nonneg
  have h53 : (2 : ℝ) ^ (-53 : ℤ) = 1 / 9007199254740992 := by norm_num
  have h46 : (2 : ℝ) ^ (-46 : ℤ) = 1 / 70368744177664 := by norm_num
  have h37 : (2 : ℝ) ^ (-37 : ℤ) = 2 * 2 ^ (-38 : ℤ) := by norm_num
  obtain ⟨he, -, hQ⟩ := powFactor_le hu hR (detError_nonneg R.toRounding hF) hk (det_cauchyGreen_pos hF) hld
  have hQ1 := powFactor_one_le R.toRounding hF he
  have hq0 := ogdenQ_double hu hR hε'
  have hq01 : 1 ≤ ogdenQ R.u ε 16 8 := by
    have : 1 + ε ≤ ogdenQ R.u ε 16 8 := le_max_of_le_right (le_max_right _ _)
    linarith
  have hu53 := hR
  rw [h53] at hu53
  obtain ⟨t1, t2⟩ := abs_le.1 hτ
  rw [h53] at t1 t2
  have hτ0 : 0 < τ := by norm_num at t1 ⊢; linarith
  have h5 : (1 + R.u) ^ 5 ≤ (1 + 1 / 9007199254740992) ^ 5 := by gcongr
  have hsmall : (1 + R.u) ^ 5 < 2 := h5.trans_lt (by norm_num)
  have hq : q ≤ 1 + 1 / 70368744177664 := by
    refine max_le (by rw [← h46]; exact hq0) ?_
    have h4 : 1 / (2 - (1 + R.u) ^ 5) ≤ 1 / (2 - (1 + 1 / 9007199254740992) ^ 5) := by
      apply one_div_le_one_div_of_le
      · norm_num
      · linarith
    exact h4.trans (by norm_num)
  have hn : (mu.zip alpha).length ≤ 6 := by rw [List.length_zip]; omega
  obtain ⟨k1, k2, -⟩ := ogden_split_double hu hR hε hε' hQ1 hQ hq01 hq0 hn hN
  rw [← hη] at k1 k2
  rw [h37] at hcond
  have hη2 : η ≤ a / 2 := by linarith
  have ha2 : 0 < a / 2 := by linarith
  have hB : OgdenTangentBounds R.u ε mu alpha (a - η) (b + η) L G q D L₂ :=
    OgdenTangentBounds.mono (C91_constants mu alpha hu hsmall ha2 (fun α h => (hα α h).2) hlog) (by linarith) (by linarith)
  have hq1 : 1 ≤ q := le_trans (by linarith) hB.vectors
  have hmem : a ∈ Set.Icc (a - η) (b + η) := ⟨by linarith, by linarith⟩
  have hD : 0 ≤ D := (abs_nonneg _).trans (ogdenDD_le hB hmem hmem)
  have hG : 0 ≤ G := ogdenG_nonneg mu alpha ha2
  have hb : 0 ≤ b + η := by linarith
  have hx0 : 0 ≤ crossError R.u (coefError R.u q (mu.zip alpha).length) τ (b + η) G D L₂ :=
    (mul_nonneg (coefError_nonneg R hq1 _) hD).trans (crossError_ge hB (coefError_nonneg R hq1 _) hτ0 hG hD hb)
  obtain ⟨d1, d2⟩ := tangent_double R hR (b' := b + a / 2) hτ hn k1 hq hq1 (by linarith) hb hD hG hB.nonneg hB.nonneg2 hx0
  exact ⟨he, hτ0, hB, split_factors_double hu hR hQ1 hQ hK hN k2 hG hB.nonneg hD hB.nonneg2 (by linarith) d1 d2⟩

/-- Double precision: at most six terms with exponents between `-14` and `17`, squared stretches of the space whose
logarithms are at most 8, volume ratios of magnitude up to about `exp 16`. -/
theorem C93_double (R : RoundingSqrt) (hR : R.u ≤ 2 ^ (-53 : ℤ)) (lapack solver : Eigh) (hl : EighValid lapack) {ε a b a' b' τ : ℝ}
    (hε : 0 ≤ ε) (hε' : ε ≤ 2 ^ (-48 : ℤ)) (hτ : |τ - 1 / 10 ^ 8| ≤ 2 ^ (-53 : ℤ) * (1 / 10 ^ 8)) {mu alpha : List ℝ}
    (hlen : alpha.length ≤ 6) (hα : ∀ p ∈ alpha, p ≠ 0 ∧ |p - 1| ≤ 16 ∧ |p - 2| ≤ 16) (z : Z) {F : Ten2 ℝ} {A A' : Ten4 ℝ}
    (hF : F.det ≠ 0) (hk : detP (Spec.cauchyGreen (abs2 F)) ≤ 2 ^ 10 * (Spec.cauchyGreen F).det)
    (hld : |Real.log (Spec.cauchyGreen F).det| ≤ 2 ^ 5)
    (ha : 0 < a) (hab : a ≤ b) (hC : SpectrumIn (unimodular (Spec.cauchyGreen F)) a b)
    (hlog : ∀ x ∈ Set.Icc (a / 2) (b + a / 2), |Real.log x| ≤ 8)
    (hcond : 2 ^ (-37 : ℤ) * ((Spec.cauchyGreen F).det ^ (-1 / 3 : ℝ) * frob F ^ 2) ≤ a)
    (ha' : 0 < a') (hab' : a' ≤ b') (hC' : SpectrumIn ((Spec.cauchyGreen F).det ^ (1 / 3 : ℝ) • Spec.cauchyGreen F) a' b')
    (hlog' : ∀ x ∈ Set.Icc (a' / 2) (b' + a' / 2), |Real.log x| ≤ 8)
    (hcond' : 2 ^ (-37 : ℤ) * ((Spec.cauchyGreen F).det ^ (1 / 3 : ℝ) * frob F ^ 2) ≤ a')
    (hs : ∀ C : Ten2 ℝ, C.IsSymm → EighAccurate ε C (solver C).1 (solver C).2)
    (hA : SpaceObj.Hess (Distortional.obj {} (Stretches.material lapack (Ogden.mat ⟨mu, alpha⟩))) z F A)
    (hA' : SpaceObj.Hess (Dilatational.obj {} (Stretches.material lapack (Ogden.mat ⟨mu, alpha⟩))) z F A') (i J k L : Fin 3) :
    |R.ogdenDistortionalHessian solver τ ⟨mu, alpha⟩ F i J k L - A i J k L| ≤
      (2 ^ (-34 : ℤ) * ogdenG mu alpha (a / 2) (b + a / 2) + 2 ^ (-37 : ℤ) * ogdenL mu alpha (a / 2) (b + a / 2) *
        ((Spec.cauchyGreen F).det ^ (-1 / 3 : ℝ) * frob F ^ 2)) * distortionalTangentUnit F i J k L +
      (2 ^ (-15 : ℤ) * (ogdenG mu alpha (a / 2) (b + a / 2) + (b + a / 2) * ogdenD mu alpha (a / 2) (b + a / 2)) +
        2 ^ (-35 : ℤ) * ogdenD mu alpha (a / 2) (b + a / 2) + ogdenL2 mu alpha (a / 2) (b + a / 2) *
          (2 ^ (-24 : ℤ) + 2 ^ (-41 : ℤ) * (b + a / 2) +
            2 ^ (-35 : ℤ) * ((Spec.cauchyGreen F).det ^ (-1 / 3 : ℝ) * frob F ^ 2))) * distortionalProjectedUnit F i J k L +
      2 ^ (-26 : ℤ) * pushP F (projectP F fun _ _ _ _ => 1) i J k L ∧
    |R.ogdenDilatationalHessian solver τ ⟨mu, alpha⟩ F i J k L - A' i J k L| ≤
      (2 ^ (-34 : ℤ) * ogdenG mu alpha (a' / 2) (b' + a' / 2) + 2 ^ (-37 : ℤ) * ogdenL mu alpha (a' / 2) (b' + a' / 2) *
        ((Spec.cauchyGreen F).det ^ (1 / 3 : ℝ) * frob F ^ 2)) * dilatationalTangentUnit F i J k L +
      (2 ^ (-15 : ℤ) * (ogdenG mu alpha (a' / 2) (b' + a' / 2) + (b' + a' / 2) * ogdenD mu alpha (a' / 2) (b' + a' / 2)) +
        2 ^ (-35 : ℤ) * ogdenD mu alpha (a' / 2) (b' + a' / 2) + ogdenL2 mu alpha (a' / 2) (b' + a' / 2) *
          (2 ^ (-24 : ℤ) + 2 ^ (-41 : ℤ) * (b' + a' / 2) +
            2 ^ (-35 : ℤ) * ((Spec.cauchyGreen F).det ^ (1 / 3 : ℝ) * frob F ^ 2))) * dilatationalProjectedUnit F i J k L := by
  have hd := det_cauchyGreen_pos hF
  have hs1 := Real.rpow_pos_of_pos hd (-1 / 3)
  have hs2 := Real.rpow_pos_of_pos hd (1 / 3)
  have hf := sq_nonneg (frob F)
  have hα0 : ∀ p ∈ alpha, p ≠ 0 := fun p hp => (hα p hp).1
  constructor
  · obtain ⟨he, hτ0, hB, f1, f2⟩ := split_double_core R hR hε hε' hτ (mu := mu) hlen hα hF hk hld ha hab hlog
      (mul_nonneg hs1.le hf) hcond rfl (K := 76) le_rfl
    obtain ⟨u1, u2⟩ := distortional_units_nonneg R.toRounding hF he i J k L
    have hone : 0 ≤ pushP F (projectP F fun _ _ _ _ => 1) i J k L :=
      (abs_nonneg _).trans (projected_le R.toRounding hF he (X := fun _ _ _ _ => 0) (fun i j k l => by simp) i J k L)
    refine (C93_distortional R lapack solver hl hε hτ0 hα0 z hF he hC rfl hB rfl rfl hs hA i J k L).trans ?_
    refine add_le_add (add_le_add (mul_le_mul_of_nonneg_right f1 u1) (mul_le_mul_of_nonneg_right f2 u2))
      (mul_le_mul_of_nonneg_right ?_ hone)
    have h53 : (2 : ℝ) ^ (-53 : ℤ) = 1 / 9007199254740992 := by norm_num
    have h26 : (2 : ℝ) ^ (-26 : ℤ) = 1 / 67108864 := by norm_num
    rw [h53] at hR
    rw [h26, div_le_iff₀ (by norm_num)]
    norm_num at hR ⊢
    linarith
  · obtain ⟨he, hτ0, hB, f1, f2⟩ := split_double_core R hR hε hε' hτ (mu := mu) hlen hα hF hk hld ha' hab' hlog'
      (mul_nonneg hs2.le hf) hcond' rfl (K := 69) (by norm_num)
    obtain ⟨u1, u2⟩ := dilatational_units_nonneg R.toRounding hF he i J k L
    refine (C93_dilatational R lapack solver hl hε hτ0 hα0 z hF he hC' rfl hB rfl rfl hs hA' i J k L).trans ?_
    exact add_le_add (mul_le_mul_of_nonneg_right f1 u1) (mul_le_mul_of_nonneg_right f2 u2)

/-- An Ogden material returns elasticity tensors on both spaces. -/
theorem ogden_split_elasticity_total (lapack : Eigh) {mu alpha : List ℝ} (hα : ∀ p ∈ mu.zip alpha, p.2 ≠ 0) (F : Ten2 ℝ) :
    (∃ A, SpaceObj.Hess (Distortional.obj {} (Stretches.material lapack (Ogden.mat ⟨mu, alpha⟩))) () F A) ∧
      ∃ A, SpaceObj.Hess (Dilatational.obj {} (Stretches.material lapack (Ogden.mat ⟨mu, alpha⟩))) () F A := by
  have key : ∀ c : Vec6 ℝ, ∃ g k, Stretches.gradient lapack (Ogden.mat ⟨mu, alpha⟩) c () { material := () } =
      (.ok (Stretches.gradPure (eighSqrt lapack c).1 (eighSqrt lapack c).2 g, ()), Stretches.post (eighSqrt lapack c) g ()) ∧
      Returns (Stretches.hessian lapack (Ogden.mat ⟨mu, alpha⟩) c ()) (Stretches.post (eighSqrt lapack c) g ())
        (Stretches.hessPure (eighSqrt lapack c).1 (eighSqrt lapack c).2 g k) := by
    intro c
    obtain ⟨g, ⟨⟩, z', hg⟩ := (C11_returns mu alpha () (eighSqrt lapack c).1).1.2 hα
    obtain ⟨-, ⟨⟩, k, hk, -⟩ := (C11_returns mu alpha () (eighSqrt lapack c).1).2.2 hα
    have hr : (Ogden.mat ⟨mu, alpha⟩).gradient (eighSqrt lapack c).1 () () = (.ok (g, z'), ()) := Prod.ext hg rfl
    refine ⟨g, k, ?_, (Stretches.returns_hessian ..).2 ⟨g, z', (), k, hr, hk, rfl⟩⟩
    rw [Stretches.gradient_run, hr]
  obtain ⟨g, k, h1, h2⟩ := key (Distortional.cu F)
  obtain ⟨g', k', h1', h2'⟩ := key (Dilatational.co F)
  exact ⟨⟨_, { material := { material := () } }, (Distortional.returns_hessian ..).2 ⟨_, (), _, _, h1, h2, (piolaElasticity_default ..).symm⟩⟩,
    ⟨_, { material := { material := () } }, (Dilatational.returns_hessian ..).2 ⟨_, (), _, _, h1', h2', (piolaElasticity_default ..).symm⟩⟩⟩

/-- The hypotheses are met: an Ogden material with two terms, a simple shear with unequal stretches, double precision
and an inexact solver. -/
example : ∃ (R : RoundingSqrt) (solver lapack : Eigh) (A A' : Ten4 ℝ), R.u ≤ 2 ^ (-53 : ℤ) ∧ 0 < R.u ∧ EighValid lapack ∧
    (∀ C : Ten2 ℝ, C.IsSymm → EighAccurate (2 ^ (-50 : ℤ)) C (solver C).1 (solver C).2) ∧
    (∀ p ∈ [3, (-2 : ℝ)], p ≠ 0 ∧ |p - 1| ≤ 16 ∧ |p - 2| ≤ 16) ∧
    let F : Ten2 ℝ := !![1, 1 / 2, 0; 0, 1, 0; 0, 0, (1 : ℝ)]
    F.det ≠ 0 ∧ detP (Spec.cauchyGreen (abs2 F)) ≤ 2 ^ 10 * (Spec.cauchyGreen F).det ∧
    |Real.log (Spec.cauchyGreen F).det| ≤ 2 ^ 5 ∧
    SpectrumIn (unimodular (Spec.cauchyGreen F)) (1 / 2) 2 ∧
    SpectrumIn ((Spec.cauchyGreen F).det ^ (1 / 3 : ℝ) • Spec.cauchyGreen F) (1 / 2) 2 ∧
    (∀ x ∈ Set.Icc ((1 / 2 : ℝ) / 2) (2 + 1 / 2 / 2), |Real.log x| ≤ 8) ∧
    2 ^ (-37 : ℤ) * ((Spec.cauchyGreen F).det ^ (-1 / 3 : ℝ) * frob F ^ 2) ≤ 1 / 2 ∧
    2 ^ (-37 : ℤ) * ((Spec.cauchyGreen F).det ^ (1 / 3 : ℝ) * frob F ^ 2) ≤ 1 / 2 ∧
    SpaceObj.Hess (Distortional.obj {} (Stretches.material lapack (Ogden.mat ⟨[1, 2], [3, -2]⟩))) () F A ∧
    SpaceObj.Hess (Dilatational.obj {} (Stretches.material lapack (Ogden.mat ⟨[1, 2], [3, -2]⟩))) () F A' := by
  obtain ⟨solver, hs⟩ := inexact_solver
  obtain ⟨lapack, hl⟩ := exists_eigh
  have hd1 : (!![1, 1 / 2, 0; 0, 1, 0; 0, 0, (1 : ℝ)] : Ten2 ℝ).det = 1 := by simp [Matrix.det_fin_three]
  have hd : (!![1, 1 / 2, 0; 0, 1, 0; 0, 0, (1 : ℝ)] : Ten2 ℝ).det ≠ 0 := by rw [hd1]; norm_num
  have hC : (Spec.cauchyGreen !![1, 1 / 2, 0; 0, 1, 0; 0, 0, (1 : ℝ)]).det = 1 := by
    rw [Spec.cauchyGreen, Matrix.det_mul, Matrix.det_transpose, hd1]; norm_num
  have hspec : SpectrumIn (Spec.cauchyGreen !![1, 1 / 2, 0; 0, 1, 0; 0, 0, (1 : ℝ)]) (1 / 2) 2 := fun x => by
    simp only [Spec.cauchyGreen, Matrix.mul_apply, Matrix.transpose_apply, Fin.sum_univ_three]
    simp
    constructor <;> nlinarith [sq_nonneg (x 0 + x 1), sq_nonneg (x 0 - x 1), sq_nonneg (x 0), sq_nonneg (x 1), sq_nonneg (x 2)]
  have hfr : (2 : ℝ) ^ (-37 : ℤ) * frob !![1, 1 / 2, 0; 0, 1, 0; 0, 0, (1 : ℝ)] ^ 2 ≤ 1 / 2 := by
    rw [frob_sq]
    simp [Fin.sum_univ_three]
    norm_num
  obtain ⟨⟨A, hA⟩, A', hA'⟩ := ogden_split_elasticity_total lapack (mu := [1, 2]) (alpha := [3, -2]) (by simp)
    !![1, 1 / 2, 0; 0, 1, 0; 0, 0, (1 : ℝ)]
  refine ⟨binary64Sqrt, solver, lapack, A, A', le_rfl, ?_, hl, fun C hC => (hs C hC).1, ?_, hd, ?_, ?_, ?_, ?_, fun x hx => ?_, ?_,
    ?_, hA, hA'⟩
  · change 0 < Binary64.rounding.u
    rw [Binary64.rounding_u]; positivity
  · intro p hp
    simp only [List.mem_cons, List.not_mem_nil, or_false] at hp
    rcases hp with rfl | rfl <;> norm_num [abs_le]
  · rw [hC]
    simp [detP, Spec.cauchyGreen, abs2, Matrix.mul_apply, Fin.sum_univ_three]
    norm_num
  · rw [hC]; simp
  · rw [unimodular, hC, Real.one_rpow, one_smul]; exact hspec
  · rw [hC, Real.one_rpow, one_smul]; exact hspec
  · have h0 : 0 < x := by linarith [hx.1]
    have h1 := Real.log_le_sub_one_of_pos h0
    have h2 := Real.log_le_sub_one_of_pos (inv_pos.2 h0)
    rw [Real.log_inv] at h2
    have h3 : x⁻¹ ≤ 4 := by
      rw [inv_le_comm₀ h0 (by norm_num)]
      linarith [hx.1]
    exact abs_le.2 ⟨by linarith, by linarith [hx.2]⟩
  · rw [hC, Real.one_rpow, one_mul]; exact hfr
  · rw [hC, Real.one_rpow, one_mul]; exact hfr

end Props
