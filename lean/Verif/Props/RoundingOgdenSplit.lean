import Verif.Proofs.RoundingOgdenSplit
import Verif.Props.RoundingStretches

/-!
# Floating-point rounding: Ogden materials in the distortional and the dilatational space (C80, continued)
-/

namespace Props
open Spec Hel Rnd

variable {Z : Type}

theorem powFactor_one_le (R : Rounding) {F : Ten2 ℝ} (hF : F.det ≠ 0) (he : detError R.u F < 1) : 1 ≤ powFactor R.u F :=
  (powCtx R hF he).one_le

/-- The computed power of the determinant. -/
theorem det_pow_accuracy (R : Rounding) {F : Ten2 ℝ} (hF : F.det ≠ 0) (he : detError R.u F < 1) {y y' : ℝ} (hy : |y| = 1 / 3)
    (hy' : |y' - y| ≤ R.u * |y|) :
    |R.pow (Rnd.det (Rnd.cauchyGreen (R.arr33 F))).val y' - (Spec.cauchyGreen F).det ^ y| ≤
      (powFactor R.u F - 1) * |(Spec.cauchyGreen F).det ^ y| :=
  pow_accuracy R (det_cauchyGreen_pos hF) (rounded_det R hF) (detError_nonneg R hF) he hy hy'

/-- The computed stress in the distortional space: rounding errors relative to the stress with plus signs only, with
the largest derivative of the energy, and the errors of the solver and of the computed unimodular part. -/
theorem C80_distortional (R : RoundingSqrt) (lapack solver : Eigh) (hl : EighValid lapack) {ε a b L G q η : ℝ} (hε : 0 ≤ ε)
    {mu alpha : List ℝ} (hα : ∀ p ∈ alpha, p ≠ 0) (z : Z) {F P : Ten2 ℝ} (hF : F.det ≠ 0) (he : detError R.u F < 1)
    (hC : SpectrumIn (unimodular (Spec.cauchyGreen F)) a b)
    (hη : η = ((1 + ε) * (powFactor R.u F * (1 + R.u) ^ 6) - 1) * ((Spec.cauchyGreen F).det ^ (-1 / 3 : ℝ) * frob F ^ 2))
    (hB : OgdenBounds R.u ε mu alpha (a - η) (b + η) L G q)
    (hs : ∀ C : Ten2 ℝ, C.IsSymm → EighAccurate ε C (solver C).1 (solver C).2)
    (hP : SpaceObj.Grad (Distortional.obj {} (Stretches.material lapack (Ogden.mat ⟨mu, alpha⟩))) z F P) (i J : Fin 3) :
    |R.ogdenDistortional solver ⟨mu, alpha⟩ F i J - P i J| ≤
      ((powFactor R.u F ^ 2 * q ^ 4 * (1 + R.u) ^ ((mu.zip alpha).length + 49) - 1) * (3 * G) +
        powFactor R.u F ^ 2 * (1 + R.u) ^ 37 * L * η) * distortionalUnit F i J :=
  rounded_ogden_distortional R lapack solver (powFactor_one_le R.toRounding hF he) (dataFor_lit _ F) hl hε hα hF
    (det_accuracy R.toRounding hF he)
    (det_pow_accuracy R.toRounding hF he (by norm_num [abs_div]) (R.div_error _ _ (by norm_num)))
    (by rw [hη, mul_zero, zero_add, pow_one]) hB z hC hs hP i J

/-- The same in the dilatational space. -/
theorem C80_dilatational (R : RoundingSqrt) (lapack solver : Eigh) (hl : EighValid lapack) {ε a b L G q η : ℝ} (hε : 0 ≤ ε)
    {mu alpha : List ℝ} (hα : ∀ p ∈ alpha, p ≠ 0) (z : Z) {F P : Ten2 ℝ} (hF : F.det ≠ 0) (he : detError R.u F < 1)
    (hC : SpectrumIn ((Spec.cauchyGreen F).det ^ (1 / 3 : ℝ) • Spec.cauchyGreen F) a b)
    (hη : η = ((1 + ε) * (powFactor R.u F * (1 + R.u) ^ 6) - 1) * ((Spec.cauchyGreen F).det ^ (1 / 3 : ℝ) * frob F ^ 2))
    (hB : OgdenBounds R.u ε mu alpha (a - η) (b + η) L G q)
    (hs : ∀ C : Ten2 ℝ, C.IsSymm → EighAccurate ε C (solver C).1 (solver C).2)
    (hP : SpaceObj.Grad (Dilatational.obj {} (Stretches.material lapack (Ogden.mat ⟨mu, alpha⟩))) z F P) (i J : Fin 3) :
    |R.ogdenDilatational solver ⟨mu, alpha⟩ F i J - P i J| ≤
      ((powFactor R.u F ^ 2 * q ^ 4 * (1 + R.u) ^ ((mu.zip alpha).length + 49) - 1) * (3 * G) +
        powFactor R.u F ^ 2 * (1 + R.u) ^ 37 * L * η) * dilatationalUnit F i J :=
  rounded_ogden_dilatational R lapack solver (powFactor_one_le R.toRounding hF he) (dataFor_lit _ F) hl hε hα hF
    (det_accuracy R.toRounding hF he)
    (det_pow_accuracy R.toRounding hF he (by norm_num [abs_div]) (R.div_error _ _ (by norm_num)))
    (by rw [hη, mul_zero, zero_add, pow_one]) hB z hC hs hP i J

theorem posDef_smul {C : Ten2 ℝ} (hC : PosDef C) {s : ℝ} (hs : 0 < s) : PosDef (s • C) := by
  refine ⟨?_, fun x hx => ?_⟩
  · ext i j
    simp only [Matrix.transpose_apply, Matrix.smul_apply, hC.1.apply i j]
  · rw [Matrix.smul_mulVec, dotProduct_smul, smul_eq_mul]
    exact mul_pos hs (hC.2 x hx)

/-- What converges in both spaces. -/
theorem ogden_limit (R : ℕ → RoundingSqrt) (ε : ℕ → ℝ)
    (hR : Filter.Tendsto (fun n => (R n).u) .atTop (nhds 0)) (hε : Filter.Tendsto ε .atTop (nhds 0))
    (mu alpha : List ℝ) {F C : Ten2 ℝ} (N U : ℝ) (hC : PosDef C) {x : ℝ} {y : ℕ → ℝ}
    (h : ∀ n a b L G q η, SpectrumIn C a b → detError (R n).u F < 1 →
      η = ((1 + ε n) * (powFactor (R n).u F * (1 + (R n).u) ^ 6) - 1) * N →
      OgdenBounds (R n).u (ε n) mu alpha (a - η) (b + η) L G q →
      |y n - x| ≤ ((powFactor (R n).u F ^ 2 * q ^ 4 * (1 + (R n).u) ^ ((mu.zip alpha).length + 49) - 1) * (3 * G) +
        powFactor (R n).u F ^ 2 * (1 + (R n).u) ^ 37 * L * η) * U) :
    Filter.Tendsto y .atTop (nhds x) := by
  obtain ⟨a, b, ha, hab, hC⟩ := spectrum_exists hC
  obtain ⟨h1, h2⟩ := tendsto_powFactor F hR
  obtain ⟨A, hA⟩ : ∃ A, ∀ α ∈ alpha, |α - 1| ≤ A := by
    refine ⟨(alpha.map fun α => |α - 1|).sum, fun α h => ?_⟩
    exact List.single_le_sum (by
      intro x hx
      obtain ⟨y, -, rfl⟩ := List.mem_map.1 hx
      exact abs_nonneg _) _ (List.mem_map.2 ⟨α, h, rfl⟩)
  have ha2 : 0 < a / 2 := by linarith
  obtain ⟨Λ, hΛ⟩ : ∃ Λ, ∀ x ∈ Set.Icc (a / 2) (b + a / 2), |Real.log x| ≤ Λ := by
    refine ⟨max |Real.log (a / 2)| |Real.log (b + a / 2)|, fun x hx => ?_⟩
    have h1 := Real.log_le_log ha2 hx.1
    have h2 := Real.log_le_log (ha2.trans_le hx.1) hx.2
    exact abs_le_max_abs_abs h1 h2
  set L := ogdenL mu alpha (a / 2) (b + a / 2)
  set G := ogdenG mu alpha (a / 2) (b + a / 2)
  set η : ℕ → ℝ := fun n => ((1 + ε n) * (powFactor (R n).u F * (1 + (R n).u) ^ 6) - 1) * N with hη
  have hηt : Filter.Tendsto η .atTop (nhds 0) := by
    have := ((((hε.const_add 1).mul (h2.mul ((hR.const_add 1).pow 6))).sub_const 1)).mul_const N
    simpa using this
  have hu2 : Filter.Tendsto (fun n => (1 + (R n).u) ^ 2) .atTop (nhds 1) := by
    simpa using (hR.const_add 1).pow 2
  have hq := ogdenQ_tendsto (A := A) (Λ := Λ) hR hε
  set n0 := (mu.zip alpha).length
  have hlim : Filter.Tendsto (fun n => ((powFactor (R n).u F ^ 2 * ogdenQ (R n).u (ε n) A Λ ^ 4 * (1 + (R n).u) ^ (n0 + 49) - 1) *
      (3 * G) + powFactor (R n).u F ^ 2 * (1 + (R n).u) ^ 37 * L * η n) * U) .atTop (nhds 0) := by
    have := ((((((h2.pow 2).mul (hq.pow 4)).mul ((hR.const_add 1).pow (n0 + 49))).sub_const 1).mul_const (3 * G)).add
      ((((h2.pow 2).mul ((hR.const_add 1).pow 37)).mul_const L).mul hηt)).mul_const U
    simpa using this
  rw [tendsto_iff_dist_tendsto_zero]
  refine squeeze_zero' (Filter.Eventually.of_forall fun _ => dist_nonneg) ?_ hlim
  filter_upwards [hηt.eventually (gt_mem_nhds ha2), hu2.eventually (gt_mem_nhds one_lt_two),
    h1.eventually (gt_mem_nhds one_pos)] with n k1 k2 k3
  have hB : OgdenBounds (R n).u (ε n) mu alpha (a - η n) (b + η n) L G (ogdenQ (R n).u (ε n) A Λ) :=
    OgdenBounds.mono (C80_constants mu alpha (R n).u_nonneg k2 ha2 hA hΛ) (by linarith) (by linarith)
  exact h n a b L G _ (η n) hC k3 rfl hB

/-- The computed stresses of both spaces converge to the exact ones if the precision of the arithmetic and of the solver is
increased. -/
theorem C80_split_converges (R : ℕ → RoundingSqrt) (lapack : Eigh) (hl : EighValid lapack) (solver : ℕ → Eigh) (ε : ℕ → ℝ)
    (hR : Filter.Tendsto (fun n => (R n).u) .atTop (nhds 0)) (hε : Filter.Tendsto ε .atTop (nhds 0)) (hε0 : ∀ n, 0 ≤ ε n)
    (hs : ∀ n, ∀ C : Ten2 ℝ, C.IsSymm → EighAccurate (ε n) C (solver n C).1 (solver n C).2)
    {mu alpha : List ℝ} (hα : ∀ p ∈ alpha, p ≠ 0) (z : Z) {F P P' : Ten2 ℝ} (hF : F.det ≠ 0)
    (hP : SpaceObj.Grad (Distortional.obj {} (Stretches.material lapack (Ogden.mat ⟨mu, alpha⟩))) z F P)
    (hP' : SpaceObj.Grad (Dilatational.obj {} (Stretches.material lapack (Ogden.mat ⟨mu, alpha⟩))) z F P') (i J : Fin 3) :
    Filter.Tendsto (fun n => (R n).ogdenDistortional (solver n) ⟨mu, alpha⟩ F i J) .atTop (nhds (P i J)) ∧
    Filter.Tendsto (fun n => (R n).ogdenDilatational (solver n) ⟨mu, alpha⟩ F i J) .atTop (nhds (P' i J)) := by
  have hd := det_cauchyGreen_pos hF
  have hpd := posDef_cauchyGreen hF
  constructor
  · exact ogden_limit R ε hR hε mu alpha (F := F) _ _ (posDef_smul hpd (Real.rpow_pos_of_pos hd (-1 / 3)))
      fun n a b L G q η hC he hη hB =>
        C80_distortional (R n) lapack (solver n) hl (hε0 n) hα z hF he hC hη hB (hs n) hP i J
  · exact ogden_limit R ε hR hε mu alpha (F := F) _ _ (posDef_smul hpd (Real.rpow_pos_of_pos hd (1 / 3)))
      fun n a b L G q η hC he hη hB =>
        C80_dilatational (R n) lapack (solver n) hl (hε0 n) hα z hF he hC hη hB (hs n) hP' i J

/-- The constants in double precision. -/
theorem ogden_split_double {u ε Q q : ℝ} (hu : 0 ≤ u) (hu' : u ≤ 2 ^ (-53 : ℤ)) (hε : 0 ≤ ε) (hε' : ε ≤ 2 ^ (-48 : ℤ)) (hQ1 : 1 ≤ Q)
    (hQ : Q ≤ 1 + 25 * 2 ^ (-43 : ℤ)) (hq1 : 1 ≤ q) (hq : q ≤ 1 + 2 ^ (-46 : ℤ)) {n : ℕ} (hn : n ≤ 6) {N : ℝ} (hN : 0 ≤ N) :
    0 ≤ ((1 + ε) * (Q * (1 + u) ^ 6) - 1) * N ∧ ((1 + ε) * (Q * (1 + u) ^ 6) - 1) * N ≤ 2 ^ (-38 : ℤ) * N ∧
    ∀ {G L U : ℝ}, 0 ≤ G → 0 ≤ L → 0 ≤ U →
      ((Q ^ 2 * q ^ 4 * (1 + u) ^ (n + 49) - 1) * (3 * G) + Q ^ 2 * (1 + u) ^ 37 * L * (((1 + ε) * (Q * (1 + u) ^ 6) - 1) * N)) * U ≤
        (2 ^ (-35 : ℤ) * G + 2 ^ (-38 : ℤ) * L * N) * U := by
  have h53 : (2 : ℝ) ^ (-53 : ℤ) = 1 / 9007199254740992 := by norm_num
  have h48 : (2 : ℝ) ^ (-48 : ℤ) = 1 / 281474976710656 := by norm_num
  have h46 : (2 : ℝ) ^ (-46 : ℤ) = 1 / 70368744177664 := by norm_num
  have h43 : (2 : ℝ) ^ (-43 : ℤ) = 1 / 8796093022208 := by norm_num
  have h38 : (2 : ℝ) ^ (-38 : ℤ) = 1 / 274877906944 := by norm_num
  have h35 : (2 : ℝ) ^ (-35 : ℤ) = 1 / 34359738368 := by norm_num
  rw [h53] at hu'
  rw [h48] at hε'
  rw [h46] at hq
  rw [h43] at hQ
  rw [h38, h35]
  have hη1 : (1 + ε) * (Q * (1 + u) ^ 6) - 1 ≤ 1 / 274877906944 * (63 / 64) := by
    have : (1 + ε) * (Q * (1 + u) ^ 6) ≤ (1 + 1 / 281474976710656) * ((1 + 25 * (1 / 8796093022208)) * (1 + 1 / 9007199254740992) ^ 6) := by
      gcongr
    refine (sub_le_sub_right this 1).trans (by norm_num)
  have hη0 : 0 ≤ (1 + ε) * (Q * (1 + u) ^ 6) - 1 := by
    refine sub_nonneg.2 (one_le_mul_of_one_le_of_one_le (by linarith) ?_)
    exact one_le_mul_of_one_le_of_one_le hQ1 (one_le_pow₀ (by linarith))
  refine ⟨mul_nonneg hη0 hN, mul_le_mul_of_nonneg_right (hη1.trans (by norm_num)) hN, ?_⟩
  intro G L U hG hL hU
  refine mul_le_mul_of_nonneg_right (add_le_add ?_ ?_) hU
  · have e1 : (1 + u) ^ (n + 49) ≤ (1 + 1 / 9007199254740992) ^ 55 :=
      (pow_le_pow_right₀ (by linarith) (by omega : n + 49 ≤ 55)).trans (by gcongr)
    have e2 : Q ^ 2 * q ^ 4 ≤ (1 + 25 * (1 / 8796093022208)) ^ 2 * (1 + 1 / 70368744177664) ^ 4 := by gcongr
    have e3 := mul_le_mul e2 e1 (by positivity) (by positivity)
    have e4 : Q ^ 2 * q ^ 4 * (1 + u) ^ (n + 49) - 1 ≤ 1 / 34359738368 / 3 :=
      (sub_le_sub_right e3 1).trans (by norm_num)
    have := mul_le_mul_of_nonneg_right e4 (by positivity : 0 ≤ 3 * G)
    linarith
  · have e1 : Q ^ 2 * (1 + u) ^ 37 ≤ 64 / 63 := by
      have : Q ^ 2 * (1 + u) ^ 37 ≤ (1 + 25 * (1 / 8796093022208)) ^ 2 * (1 + 1 / 9007199254740992) ^ 37 := by gcongr
      exact this.trans (by norm_num)
    have e2 := mul_le_mul_of_nonneg_right hη1 hN
    have e3 : 0 ≤ ((1 + ε) * (Q * (1 + u) ^ 6) - 1) * N := mul_nonneg hη0 hN
    calc Q ^ 2 * (1 + u) ^ 37 * L * (((1 + ε) * (Q * (1 + u) ^ 6) - 1) * N)
        ≤ 64 / 63 * L * (1 / 274877906944 * (63 / 64) * N) := by gcongr
      _ = 1 / 274877906944 * L * N := by ring

theorem ogdenG_nonneg (mu alpha : List ℝ) {a b : ℝ} (ha : 0 < a) : 0 ≤ ogdenG mu alpha a b := by
  refine List.sum_nonneg fun t ht => ?_
  obtain ⟨p, -, rfl⟩ := List.mem_map.1 ht
  have : 0 < a ^ ((p.2 - 2) / 2) := Real.rpow_pos_of_pos ha _
  have := this.le.trans (le_max_left _ (b ^ ((p.2 - 2) / 2)))
  positivity

theorem cofP_nonneg {C : Ten2 ℝ} (h : ∀ i j, 0 ≤ C i j) (i j : Fin 3) : 0 ≤ cofP C i j :=
  add_nonneg (mul_nonneg (h _ _) (h _ _)) (mul_nonneg (h _ _) (h _ _))

theorem distortionalUnit_nonneg {F : Ten2 ℝ} (hF : F.det ≠ 0) (i J : Fin 3) : 0 ≤ distortionalUnit F i J := by
  have hd := det_cauchyGreen_pos hF
  have hs := Real.rpow_pos_of_pos hd (-1 / 3)
  have hC := cauchyGreen_abs_nonneg F
  rw [distortionalUnit, Matrix.mul_apply]
  refine Finset.sum_nonneg fun I _ => mul_nonneg (abs_nonneg _) ?_
  refine add_nonneg (by positivity) (mul_nonneg (div_nonneg (div_nonneg ?_ (by norm_num)) hd.le) (cofP_nonneg hC _ _))
  unfold contract22
  exact Finset.sum_nonneg fun p _ => Finset.sum_nonneg fun r _ => mul_nonneg (by positivity) (hC _ _)

theorem dilatationalUnit_nonneg {F : Ten2 ℝ} (hF : F.det ≠ 0) (i J : Fin 3) : 0 ≤ dilatationalUnit F i J := by
  have hd := det_cauchyGreen_pos hF
  have hs := Real.rpow_pos_of_pos hd (1 / 3)
  have hC := cauchyGreen_abs_nonneg F
  rw [dilatationalUnit, Matrix.mul_apply]
  refine Finset.sum_nonneg fun I _ => mul_nonneg (abs_nonneg _) ?_
  refine mul_nonneg (div_nonneg (div_nonneg ?_ (by norm_num)) hd.le) (cofP_nonneg hC _ _)
  unfold Matrix.trace
  exact Finset.sum_nonneg fun p _ => by
    change 0 ≤ 2 * (Spec.cauchyGreen F).det ^ (1 / 3 : ℝ)
    positivity

/-- Double precision: at most six terms with exponents between `-15` and `17`, condition numbers of the determinant of
at most `2¹⁰`. -/
theorem C80_split_double (R : RoundingSqrt) (hR : R.u ≤ 2 ^ (-53 : ℤ)) (lapack solver : Eigh) (hl : EighValid lapack) {ε a b a' b' : ℝ}
    (hε : 0 ≤ ε) (hε' : ε ≤ 2 ^ (-48 : ℤ)) {mu alpha : List ℝ} (hlen : alpha.length ≤ 6)
    (hα : ∀ p ∈ alpha, p ≠ 0 ∧ |p - 1| ≤ 16) (z : Z) {F P P' : Ten2 ℝ} (hF : F.det ≠ 0)
    (hk : detP (Spec.cauchyGreen (abs2 F)) ≤ 2 ^ 10 * (Spec.cauchyGreen F).det)
    (hld : |Real.log (Spec.cauchyGreen F).det| ≤ 2 ^ 5)
    (ha : 0 < a) (hC : SpectrumIn (unimodular (Spec.cauchyGreen F)) a b)
    (hlog : ∀ x ∈ Set.Icc (a / 2) (b + a / 2), |Real.log x| ≤ 8)
    (hcond : 2 ^ (-37 : ℤ) * ((Spec.cauchyGreen F).det ^ (-1 / 3 : ℝ) * frob F ^ 2) ≤ a)
    (ha' : 0 < a') (hC' : SpectrumIn ((Spec.cauchyGreen F).det ^ (1 / 3 : ℝ) • Spec.cauchyGreen F) a' b')
    (hlog' : ∀ x ∈ Set.Icc (a' / 2) (b' + a' / 2), |Real.log x| ≤ 8)
    (hcond' : 2 ^ (-37 : ℤ) * ((Spec.cauchyGreen F).det ^ (1 / 3 : ℝ) * frob F ^ 2) ≤ a')
    (hs : ∀ C : Ten2 ℝ, C.IsSymm → EighAccurate ε C (solver C).1 (solver C).2)
    (hP : SpaceObj.Grad (Distortional.obj {} (Stretches.material lapack (Ogden.mat ⟨mu, alpha⟩))) z F P)
    (hP' : SpaceObj.Grad (Dilatational.obj {} (Stretches.material lapack (Ogden.mat ⟨mu, alpha⟩))) z F P') (i J : Fin 3) :
    |R.ogdenDistortional solver ⟨mu, alpha⟩ F i J - P i J| ≤
      (2 ^ (-35 : ℤ) * ogdenG mu alpha (a / 2) (b + a / 2) + 2 ^ (-38 : ℤ) * ogdenL mu alpha (a / 2) (b + a / 2) *
        ((Spec.cauchyGreen F).det ^ (-1 / 3 : ℝ) * frob F ^ 2)) * distortionalUnit F i J ∧
    |R.ogdenDilatational solver ⟨mu, alpha⟩ F i J - P' i J| ≤
      (2 ^ (-35 : ℤ) * ogdenG mu alpha (a' / 2) (b' + a' / 2) + 2 ^ (-38 : ℤ) * ogdenL mu alpha (a' / 2) (b' + a' / 2) *
        ((Spec.cauchyGreen F).det ^ (1 / 3 : ℝ) * frob F ^ 2)) * dilatationalUnit F i J := by
  have hu := R.u_nonneg
  have hd := det_cauchyGreen_pos hF
  obtain ⟨he, -, hQ⟩ := powFactor_le hu hR (detError_nonneg R.toRounding hF) hk hd hld
  have hQ1 := powFactor_one_le R.toRounding hF he
  have hq := ogdenQ_double hu hR hε'
  have hq1 : 1 ≤ ogdenQ R.u ε 16 8 := by
    have : 1 + ε ≤ ogdenQ R.u ε 16 8 := le_max_of_le_right (le_max_right _ _)
    linarith
  have h53 : (2 : ℝ) ^ (-53 : ℤ) = 1 / 9007199254740992 := by norm_num
  have hsmall : (1 + R.u) ^ 2 < 2 := by
    rw [h53] at hR; nlinarith
  have hn : (mu.zip alpha).length ≤ 6 := by rw [List.length_zip]; omega
  have h37 : (2 : ℝ) ^ (-37 : ℤ) = 2 * 2 ^ (-38 : ℤ) := by norm_num
  have hs1 := Real.rpow_pos_of_pos hd (-1 / 3)
  have hs2 := Real.rpow_pos_of_pos hd (1 / 3)
  have hf := sq_nonneg (frob F)
  rw [h37] at hcond hcond'
  constructor
  · have ha2 : 0 < a / 2 := by linarith
    obtain ⟨k1, k2, k3⟩ := ogden_split_double hu hR hε hε' hQ1 hQ hq1 hq hn (mul_nonneg hs1.le hf)
    have hB0 := C80_constants (ε := ε) mu alpha hu hsmall ha2 (fun α h => (hα α h).2) hlog
    refine (C80_distortional R lapack solver hl hε (fun p hp => (hα p hp).1) z hF he hC rfl
      (OgdenBounds.mono hB0 (by linarith) (by linarith)) hs hP i J).trans ?_
    exact k3 (ogdenG_nonneg mu alpha ha2) hB0.nonneg (distortionalUnit_nonneg hF i J)
  · have ha2 : 0 < a' / 2 := by linarith
    obtain ⟨k1, k2, k3⟩ := ogden_split_double hu hR hε hε' hQ1 hQ hq1 hq hn (mul_nonneg hs2.le hf)
    have hB0 := C80_constants (ε := ε) mu alpha hu hsmall ha2 (fun α h => (hα α h).2) hlog'
    refine (C80_dilatational R lapack solver hl hε (fun p hp => (hα p hp).1) z hF he hC' rfl
      (OgdenBounds.mono hB0 (by linarith) (by linarith)) hs hP' i J).trans ?_
    exact k3 (ogdenG_nonneg mu alpha ha2) hB0.nonneg (dilatationalUnit_nonneg hF i J)

/-- The hypotheses are met: an Ogden material with two terms, a simple shear with unequal stretches, double precision
and an inexact solver. -/
example : ∃ (R : RoundingSqrt) (solver lapack : Eigh) (P P' : Ten2 ℝ), R.u ≤ 2 ^ (-53 : ℤ) ∧ 0 < R.u ∧ EighValid lapack ∧
    (∀ C : Ten2 ℝ, C.IsSymm → EighAccurate (2 ^ (-50 : ℤ)) C (solver C).1 (solver C).2) ∧
    let F : Ten2 ℝ := !![1, 1 / 2, 0; 0, 1, 0; 0, 0, (1 : ℝ)]
    F.det ≠ 0 ∧ detP (Spec.cauchyGreen (abs2 F)) ≤ 2 ^ 10 * (Spec.cauchyGreen F).det ∧
    |Real.log (Spec.cauchyGreen F).det| ≤ 2 ^ 5 ∧
    SpectrumIn (unimodular (Spec.cauchyGreen F)) (1 / 2) 2 ∧
    SpectrumIn ((Spec.cauchyGreen F).det ^ (1 / 3 : ℝ) • Spec.cauchyGreen F) (1 / 2) 2 ∧
    (∀ x ∈ Set.Icc ((1 / 2 : ℝ) / 2) (2 + 1 / 2 / 2), |Real.log x| ≤ 8) ∧
    2 ^ (-37 : ℤ) * ((Spec.cauchyGreen F).det ^ (-1 / 3 : ℝ) * frob F ^ 2) ≤ 1 / 2 ∧
    2 ^ (-37 : ℤ) * ((Spec.cauchyGreen F).det ^ (1 / 3 : ℝ) * frob F ^ 2) ≤ 1 / 2 ∧
    SpaceObj.Grad (Distortional.obj {} (Stretches.material lapack (Ogden.mat ⟨[1, 2], [3, -2]⟩))) () F P ∧
    SpaceObj.Grad (Dilatational.obj {} (Stretches.material lapack (Ogden.mat ⟨[1, 2], [3, -2]⟩))) () F P' := by
  obtain ⟨solver, hs⟩ := inexact_solver
  obtain ⟨lapack, hl⟩ := exists_eigh
  have hd1 : (!![1, 1 / 2, 0; 0, 1, 0; 0, 0, (1 : ℝ)] : Ten2 ℝ).det = 1 := by simp [Matrix.det_fin_three]
  have hd : (!![1, 1 / 2, 0; 0, 1, 0; 0, 0, (1 : ℝ)] : Ten2 ℝ).det ≠ 0 := by rw [hd1]; norm_num
  have hC : (Spec.cauchyGreen !![1, 1 / 2, 0; 0, 1, 0; 0, 0, (1 : ℝ)]).det = 1 := by
    rw [Spec.cauchyGreen, Matrix.det_mul, Matrix.det_transpose, hd1]; norm_num
  have hpd := posDef_cauchyGreen hd
  obtain ⟨⟨E, hE⟩, -⟩ := C20_ogden_returns lapack [1, 2] [3, -2] () (by simp)
    (posDef_smul hpd (s := (Spec.cauchyGreen !![1, 1 / 2, 0; 0, 1, 0; 0, 0, (1 : ℝ)]).det ^ (-1 / 3 : ℝ)) (by rw [hC]; simp))
  obtain ⟨⟨E', hE'⟩, -⟩ := C20_ogden_returns lapack [1, 2] [3, -2] () (by simp)
    (posDef_smul hpd (s := (Spec.cauchyGreen !![1, 1 / 2, 0; 0, 1, 0; 0, 0, (1 : ℝ)]).det ^ (1 / 3 : ℝ)) (by rw [hC]; simp))
  have hspec : SpectrumIn (Spec.cauchyGreen !![1, 1 / 2, 0; 0, 1, 0; 0, 0, (1 : ℝ)]) (1 / 2) 2 := fun x => by
    simp only [Spec.cauchyGreen, Matrix.mul_apply, Matrix.transpose_apply, Fin.sum_univ_three]
    simp
    constructor <;> nlinarith [sq_nonneg (x 0 + x 1), sq_nonneg (x 0 - x 1), sq_nonneg (x 0), sq_nonneg (x 1), sq_nonneg (x 2)]
  have hfr : (2 : ℝ) ^ (-37 : ℤ) * frob !![1, 1 / 2, 0; 0, 1, 0; 0, 0, (1 : ℝ)] ^ 2 ≤ 1 / 2 := by
    rw [frob_sq]
    simp [Fin.sum_univ_three]
    norm_num
  refine ⟨binary64Sqrt, solver, lapack, _, _, le_rfl, ?_, hl, fun C hC => (hs C hC).1, hd, ?_, ?_, ?_, ?_, fun x hx => ?_, ?_, ?_,
    (Distortional.grad_iff _ _ hd).2 ⟨E, hE, rfl⟩, (Dilatational.grad_iff _ _ hd).2 ⟨E', hE', rfl⟩⟩
  · change 0 < Binary64.rounding.u
    rw [Binary64.rounding_u]; positivity
  · rw [hC]
    simp [detP, Spec.cauchyGreen, abs2, Matrix.mul_apply, Fin.sum_univ_three]
    norm_num
  · rw [hC]; simp
  · rw [unimodular, hC, Real.one_rpow, one_smul]; exact hspec
  · rw [hC, Real.one_rpow, one_smul]; exact hspec
  · have h0 : 0 < x := by linarith [hx.1]
    have h1 := Real.log_le_sub_one_of_pos h0
    have h2 := Real.log_le_sub_one_of_pos (inv_pos.2 h0)
    rw [Real.log_inv] at h2
    have h3 : x⁻¹ ≤ 4 := by
      rw [inv_le_comm₀ h0 (by norm_num)]
      linarith [hx.1]
    exact abs_le.2 ⟨by linarith, by linarith [hx.2]⟩
  · rw [hC, Real.one_rpow, one_mul]; exact hfr
  · rw [hC, Real.one_rpow, one_mul]; exact hfr

end Props
