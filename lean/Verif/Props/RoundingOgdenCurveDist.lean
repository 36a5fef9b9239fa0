import Verif.Props.RoundingOgdenCurve
import Verif.Props.RoundingOgdenSplit

/-!
# Floating-point rounding: simulated curves of Ogden materials on the distortional space (C92)
-/

namespace Props
open Spec Hel Rnd

variable {Z : Type}

theorem cauchyGreen_diagonal (d : Fin 3 → ℝ) :
    Spec.cauchyGreen (Matrix.diagonal d) = Matrix.diagonal fun i => d i ^ 2 := by
  rw [Spec.cauchyGreen, Matrix.diagonal_transpose, Matrix.diagonal_mul_diagonal]
  congr 1
  funext i
  rw [pow_two]

theorem det_cauchyGreen_diagonal (d : Fin 3 → ℝ) :
    (Spec.cauchyGreen (Matrix.diagonal d)).det = (d 0 * d 1 * d 2) ^ 2 := by
  rw [cauchyGreen_diagonal, Matrix.det_diagonal, Fin.prod_univ_three]
  ring

theorem abs2_diagonal {d : Fin 3 → ℝ} (hd : ∀ i, 0 < d i) : abs2 (Matrix.diagonal d) = Matrix.diagonal d := by
  funext i j
  unfold abs2
  by_cases h : i = j
  · subst h
    rw [Matrix.diagonal_apply_eq, abs_of_pos (hd i)]
  · rw [Matrix.diagonal_apply_ne _ h, abs_zero]

theorem detP_diagonal (d : Fin 3 → ℝ) : detP (Matrix.diagonal d) = d 0 * d 1 * d 2 := by
  unfold detP
  simp [Matrix.diagonal_apply]

/-- The stretches without their change of volume. -/
theorem iso_sq {d : Fin 3 → ℝ} (hd : ∀ i, 0 < d i) (i : Fin 3) :
    ((d 0 * d 1 * d 2) ^ 2) ^ (-1 / 3 : ℝ) * d i ^ 2 = (d i / (d 0 * d 1 * d 2) ^ (1 / 3 : ℝ)) ^ 2 := by
  have hJ : 0 < d 0 * d 1 * d 2 := mul_pos (mul_pos (hd 0) (hd 1)) (hd 2)
  have e1 : ((d 0 * d 1 * d 2) ^ 2) ^ (-1 / 3 : ℝ) = ((d 0 * d 1 * d 2) ^ (1 / 3 : ℝ))⁻¹ ^ 2 := by
    rw [← Real.rpow_natCast, ← Real.rpow_natCast, ← Real.rpow_mul hJ.le, ← Real.rpow_neg hJ.le, ← Real.rpow_mul hJ.le]
    congr 1
    push_cast
    ring
  rw [e1, div_pow, inv_pow]
  ring

theorem unimodular_diagonal {d : Fin 3 → ℝ} (hd : ∀ i, 0 < d i) :
    unimodular (Spec.cauchyGreen (Matrix.diagonal d)) =
      Spec.cauchyGreen (Matrix.diagonal fun i => d i / (d 0 * d 1 * d 2) ^ (1 / 3 : ℝ)) := by
  unfold unimodular
  rw [det_cauchyGreen_diagonal, cauchyGreen_diagonal, cauchyGreen_diagonal, ← Matrix.diagonal_smul]
  congr 1
  funext i
  exact iso_sq hd i

/-- The unit of the rounding errors in the distortional space, for a diagonal deformation. -/
theorem distortionalUnit_diagonal {d : Fin 3 → ℝ} (hd : ∀ i, 0 < d i) (m : Fin 3 → ℝ)
    (hm : ∀ i, m i = d i / (d 0 * d 1 * d 2) ^ (1 / 3 : ℝ)) (i : Fin 3) :
    distortionalUnit (Matrix.diagonal d) i i = 2 / d i * (m i ^ 2 + (∑ j, m j ^ 2) / 3) := by
  have hJ : 0 < d 0 * d 1 * d 2 := mul_pos (mul_pos (hd 0) (hd 1)) (hd 2)
  have h0 := (hd 0).ne'
  have h1 := (hd 1).ne'
  have h2 := (hd 2).ne'
  simp only [hm, ← iso_sq hd]
  unfold distortionalUnit
  simp only [abs2_diagonal hd, det_cauchyGreen_diagonal]
  rw [cauchyGreen_diagonal]
  generalize ((d 0 * d 1 * d 2) ^ 2) ^ (-1 / 3 : ℝ) = s
  have e : ∀ q : ℝ, (Matrix.diagonal d * ((show Ten2 ℝ from fun _ _ => 2 * s) + q • cofP (Matrix.diagonal fun i => d i ^ 2))) i i =
      d i * (2 * s + q * cofP (Matrix.diagonal fun i => d i ^ 2) i i) := fun q => by
    rw [Matrix.diagonal_mul]
    rfl
  refine (e _).trans ?_
  fin_cases i <;>
  · simp [Fin.sum_univ_three, Matrix.diagonal_apply, contract22, cofP]
    field_simp

/-- The computed stretches of a load case, without their change of volume. -/
theorem iso_in {R : RoundingSqrt} (hu : (1 + R.u) ^ 2 < 2) {k : LoadKind} {l : ℝ} (hp : 0 < l) (hA : k.accuracy R.u < 2)
    (m : Fin 3 → ℝ) (hm : ∀ i, m i = k.computedF R l i i / (k.computedF R l 0 0 * k.computedF R l 1 1 * k.computedF R l 2 2) ^ (1 / 3 : ℝ)) :
    1 ≤ k.isoAccuracy R.u ∧
    |Real.log (k.computedF R l 0 0 * k.computedF R l 1 1 * k.computedF R l 2 2)| ≤ 3 * Real.log (k.isoAccuracy R.u) ∧
    ∀ i, 0 < k.computedF R l i i ∧ 0 < k.F l i i ∧ k.F l i i / k.isoAccuracy R.u ≤ m i ∧ m i ≤ k.isoAccuracy R.u * k.F l i i := by
  have h1 := accuracy_one_le R.u_nonneg hu k
  have hF : ∀ i, 0 < k.F l i i := fun i => by
    rw [loadF_eq, Matrix.diagonal_apply_eq]
    exact loadStretches_pos k hp i
  have hprod : k.F l 0 0 * k.F l 1 1 * k.F l 2 2 = 1 := by
    have := loadF_det k hp
    rw [loadF_eq, Matrix.det_diagonal, Fin.prod_univ_three] at this
    rw [loadF_eq]
    simpa only [Matrix.diagonal_apply_eq] using this
  have hc : ∀ i, (2 - k.accuracy R.u) * k.F l i i ≤ k.computedF R l i i ∧ k.computedF R l i i ≤ k.accuracy R.u * k.F l i i := fun i => by
    have hc := (C79_defgrad R hu k hp i i).1
    rw [abs_of_pos (hF i), abs_le] at hc
    constructor <;> linarith
  unfold LoadKind.isoAccuracy
  set A := k.accuracy R.u
  have hA0 : 0 < 2 - A := by linarith
  have hApos : 0 < A := by linarith
  have hB : 1 ≤ A / (2 - A) := by rw [le_div_iff₀ hA0]; linarith
  have hd : ∀ i, 0 < k.computedF R l i i := fun i => (mul_pos hA0 (hF i)).trans_le (hc i).1
  set J := k.computedF R l 0 0 * k.computedF R l 1 1 * k.computedF R l 2 2 with hJd
  have hJ : 0 < J := mul_pos (mul_pos (hd 0) (hd 1)) (hd 2)
  have hJ1 : (2 - A) ^ 3 ≤ J := by
    calc (2 - A) ^ 3 = (2 - A) ^ 3 * (k.F l 0 0 * k.F l 1 1 * k.F l 2 2) := by rw [hprod, mul_one]
      _ = ((2 - A) * k.F l 0 0) * ((2 - A) * k.F l 1 1) * ((2 - A) * k.F l 2 2) := by ring
      _ ≤ J := mul_le_mul (mul_le_mul (hc 0).1 (hc 1).1 (mul_pos hA0 (hF 1)).le (hd 0).le) (hc 2).1
        (mul_pos hA0 (hF 2)).le (mul_pos (hd 0) (hd 1)).le
  have hJ2 : J ≤ A ^ 3 := by
    calc J ≤ (A * k.F l 0 0) * (A * k.F l 1 1) * (A * k.F l 2 2) :=
          mul_le_mul (mul_le_mul (hc 0).2 (hc 1).2 (hd 1).le (mul_pos hApos (hF 0)).le) (hc 2).2 (hd 2).le
            (mul_pos (mul_pos hApos (hF 0)) (mul_pos hApos (hF 1))).le
      _ = A ^ 3 * (k.F l 0 0 * k.F l 1 1 * k.F l 2 2) := by ring
      _ = A ^ 3 := by rw [hprod, mul_one]
  have cube : ∀ x : ℝ, 0 ≤ x → (x ^ 3) ^ (1 / 3 : ℝ) = x := fun x hx => by
    rw [← Real.rpow_natCast, ← Real.rpow_mul hx]; norm_num
  have hj1 : 2 - A ≤ J ^ (1 / 3 : ℝ) := by
    have := Real.rpow_le_rpow (pow_nonneg hA0.le 3) hJ1 (by norm_num : (0 : ℝ) ≤ 1 / 3)
    rwa [cube _ hA0.le] at this
  have hj2 : J ^ (1 / 3 : ℝ) ≤ A := by
    have := Real.rpow_le_rpow hJ.le hJ2 (by norm_num : (0 : ℝ) ≤ 1 / 3)
    rwa [cube _ hApos.le] at this
  have hj0 : 0 < J ^ (1 / 3 : ℝ) := Real.rpow_pos_of_pos hJ _
  refine ⟨hB, ?_, fun i => ⟨hd i, hF i, ?_, ?_⟩⟩
  · have l1 := Real.log_le_log (pow_pos hA0 3) hJ1
    have l2 := Real.log_le_log hJ hJ2
    rw [Real.log_pow] at l1 l2
    rw [Real.log_div hApos.ne' hA0.ne']
    have l3 := Real.log_nonneg h1
    have l4 := Real.log_nonpos hA0.le (by linarith : 2 - A ≤ 1)
    push_cast at l1 l2
    exact abs_le.2 ⟨by linarith, by linarith⟩
  · rw [hm i, div_div_eq_mul_div, div_le_div_iff₀ hApos hj0]
    calc k.F l i i * (2 - A) * J ^ (1 / 3 : ℝ) ≤ k.F l i i * (2 - A) * A :=
          mul_le_mul_of_nonneg_left hj2 (mul_pos (hF i) hA0).le
      _ ≤ k.computedF R l i i * A := mul_le_mul_of_nonneg_right (by rw [mul_comm]; exact (hc i).1) hApos.le
  · rw [hm i, div_le_iff₀ hj0]
    calc k.computedF R l i i ≤ A * k.F l i i := (hc i).2
      _ = A / (2 - A) * k.F l i i * (2 - A) := by field_simp
      _ ≤ _ := mul_le_mul_of_nonneg_left hj1 (by have := hF i; positivity)

/-- The computed power of the determinant for a diagonal deformation. -/
theorem powFactor_diagonal {u : ℝ} (hu : 0 ≤ u) (h22 : (1 + u) ^ 22 < 2) {d : Fin 3 → ℝ} (hd : ∀ i, 0 < d i) {B : ℝ} (hB : 1 ≤ B)
    (hJ : |Real.log (d 0 * d 1 * d 2)| ≤ 3 * Real.log B) :
    detError u (Matrix.diagonal d) < 1 ∧
    powFactor u (Matrix.diagonal d) ≤ (1 + u) ^ 2 * (1 / (2 - (1 + u) ^ 22)) ^ (1 + u) * B ^ (2 * u) := by
  have h0 : 0 < (d 0 * d 1 * d 2) ^ 2 := by
    have := hd 0; have := hd 1; have := hd 2; positivity
  have e : detError u (Matrix.diagonal d) = (1 + u) ^ 22 - 1 := by
    unfold detError
    rw [abs2_diagonal hd, det_cauchyGreen_diagonal, cauchyGreen_diagonal, detP_diagonal, ← mul_pow, ← mul_pow, div_self h0.ne',
      mul_one]
  refine ⟨by rw [e]; linarith, ?_⟩
  unfold powFactor
  rw [e, det_cauchyGreen_diagonal, Real.log_pow, abs_mul]
  have e1 : (1 : ℝ) - ((1 + u) ^ 22 - 1) = 2 - (1 + u) ^ 22 := by ring
  rw [e1]
  refine mul_le_mul_of_nonneg_left ?_ (by
    have : 0 < 2 - (1 + u) ^ 22 := by linarith
    positivity)
  rw [Real.rpow_def_of_pos (by linarith)]
  refine Real.exp_le_exp.2 ?_
  have : u / 3 * (|((2 : ℕ) : ℝ)| * |Real.log (d 0 * d 1 * d 2)|) ≤ u / 3 * (2 * (3 * Real.log B)) := by
    refine mul_le_mul_of_nonneg_left ?_ (by positivity)
    norm_num
    linarith
  linarith

/-- The factors of the computed errors are monotone. -/
theorem distE_mono {Q Q' q u G L η η' : ℝ} {n : ℕ} (hu : 0 ≤ u) (hQ : 0 ≤ Q) (hQQ : Q ≤ Q') (hq : 0 ≤ q) (hG : 0 ≤ G) (hL : 0 ≤ L)
    (hη : 0 ≤ η) (hηη : η ≤ η') :
    (Q ^ 2 * q ^ 4 * (1 + u) ^ n - 1) * (3 * G) + Q ^ 2 * (1 + u) ^ 37 * L * η ≤
      (Q' ^ 2 * q ^ 4 * (1 + u) ^ n - 1) * (3 * G) + Q' ^ 2 * (1 + u) ^ 37 * L * η' := by
  have h0 : 0 ≤ Q' := hQ.trans hQQ
  gcongr

/-- One data point in the distortional space. -/
theorem C92_point_distortional (R : RoundingSqrt) (lapack solver : Eigh) (hl : EighValid lapack) {ε a b L G q Q η E l : ℝ} (hε : 0 ≤ ε)
    {mu alpha : List ℝ} (hα : ∀ p ∈ alpha, p ≠ 0) (k : LoadKind) (hp : 0 < l) (hA : k.accuracy R.u < 2)
    (h22 : (1 + R.u) ^ 22 < 2) (hk : k.StretchesNear (k.isoAccuracy R.u) a b l) (hQ : Q = k.detAccuracy R.u)
    (hη : η = ((1 + ε) * (Q * (1 + R.u) ^ 6) - 1) * (3 * b)) (hB : OgdenBounds R.u ε mu alpha (a - η) (b + η) L G q)
    (hE : E = (Q ^ 2 * q ^ 4 * (1 + R.u) ^ ((mu.zip alpha).length + 49) - 1) * (3 * G) + Q ^ 2 * (1 + R.u) ^ 37 * L * η)
    (hs : ∀ C : Ten2 ℝ, C.IsSymm → EighAccurate ε C (solver C).1 (solver C).2) :
    |R.ogdenDistortionalCurve solver (k.computedF R) ⟨mu, alpha⟩ l - ((mu.zip alpha).map fun p => ogdenCurve k p.1 p.2 l).sum| ≤
      ogdenDistortionalCurveError R.u (k.isoAccuracy R.u) l b G L E := by
  have hu := R.u_nonneg
  set Fc := k.computedF R l with hFc
  obtain ⟨d, hd⟩ : ∃ d : Fin 3 → ℝ, d = fun i => Fc i i := ⟨_, rfl⟩
  have hdi : ∀ i, Fc i i = d i := fun i => by rw [hd]
  have hdiag : Fc = Matrix.diagonal d := by rw [hd]; exact ogden_computedF_diagonal R k l
  obtain ⟨m, hm⟩ : ∃ m : Fin 3 → ℝ, ∀ i, m i = d i / (d 0 * d 1 * d 2) ^ (1 / 3 : ℝ) := ⟨_, fun _ => rfl⟩
  obtain ⟨hB1, hlogJ, hin⟩ := iso_in (R := R) hB.small hp hA m (fun i => by rw [← hFc, hdi, hdi, hdi, hdi, hm])
  rw [← hFc, hdi, hdi, hdi] at hlogJ
  rw [← hFc] at hin
  simp only [hdi] at hin
  set B := k.isoAccuracy R.u with hBdef
  have hdpos : ∀ i, 0 < d i := fun i => (hin i).1
  have hB0 : 0 < B := by linarith
  -- the squares
  have hsq : ∀ i, 0 < m i ∧ a ≤ m i ^ 2 ∧ m i ^ 2 ≤ b ∧ a ≤ k.F l i i ^ 2 ∧ k.F l i i ^ 2 ≤ b ∧
      |m i ^ 2 - k.F l i i ^ 2| ≤ (B ^ 2 - 1) * k.F l i i ^ 2 := by
    intro i
    obtain ⟨-, hx, h1, h2⟩ := hin i
    obtain ⟨h3, h4⟩ := hk i
    have h5 : 0 < k.F l i i / B := div_pos hx hB0
    have hmi : 0 < m i := h5.trans_le h1
    have e1 : (k.F l i i / B) ^ 2 ≤ m i ^ 2 := pow_le_pow_left₀ h5.le h1 2
    have e2 : m i ^ 2 ≤ (B * k.F l i i) ^ 2 := pow_le_pow_left₀ hmi.le h2 2
    have e3 : (k.F l i i / B) ^ 2 ≤ k.F l i i ^ 2 := pow_le_pow_left₀ h5.le (div_le_self hx.le hB1) 2
    have e4 : k.F l i i ^ 2 ≤ (B * k.F l i i) ^ 2 := pow_le_pow_left₀ hx.le (le_mul_of_one_le_left hx.le hB1) 2
    refine ⟨hmi, h3.trans e1, e2.trans h4, h3.trans e3, e4.trans h4, ?_⟩
    rw [mul_pow] at e2
    have hx2 := sq_nonneg (k.F l i i)
    have e5 : k.F l i i ^ 2 ≤ B ^ 2 * m i ^ 2 := by
      rw [div_pow, div_le_iff₀ (by positivity)] at e1
      linarith
    have hB2 : 1 ≤ B ^ 2 := one_le_pow₀ hB1
    rw [abs_le]
    constructor
    · by_cases h : m i ^ 2 ≤ k.F l i i ^ 2
      · nlinarith
      · have := mul_nonneg (sub_nonneg.2 hB2) hx2
        linarith
    · linarith
  have hb0 : 0 ≤ b := (sq_nonneg _).trans (hsq 0).2.2.1
  obtain ⟨he, hpow⟩ := powFactor_diagonal hu h22 hdpos hB1 hlogJ
  rw [← hdiag] at he hpow
  have hdet : Matrix.det (show Ten2 ℝ from Fc) ≠ 0 := by
    rw [hdiag, Matrix.det_diagonal]
    exact Finset.prod_ne_zero_iff.2 fun i _ => (hdpos i).ne'
  have hQ1 := powFactor_one_le R.toRounding hdet he
  set Q' := powFactor R.u Fc
  have hQQ : Q' ≤ Q := by rw [hQ]; exact hpow
  have hq : 1 ≤ q := le_trans (by linarith) hB.vectors
  have h6 : 1 ≤ (1 + R.u) ^ 6 := one_le_pow₀ (by linarith)
  have hc0 : 0 ≤ (1 + ε) * (Q' * (1 + R.u) ^ 6) - 1 :=
    sub_nonneg.2 (one_le_mul_of_one_le_of_one_le (by linarith) (one_le_mul_of_one_le_of_one_le hQ1 h6))
  -- the size of the unimodular part
  have hsize : (Spec.cauchyGreen Fc).det ^ (-1 / 3 : ℝ) * frob Fc ^ 2 = ∑ i, m i ^ 2 := by
    rw [hdiag, det_cauchyGreen_diagonal, frob_diagonal, Finset.mul_sum]
    exact Finset.sum_congr rfl fun i _ => by rw [iso_sq hdpos, hm]
  have hsum : ∑ i, m i ^ 2 ≤ 3 * b := by
    rw [Fin.sum_univ_three]
    linarith [(hsq 0).2.2.1, (hsq 1).2.2.1, (hsq 2).2.2.1]
  have hsum0 : 0 ≤ ∑ i, m i ^ 2 := Finset.sum_nonneg fun i _ => sq_nonneg _
  set η' := ((1 + ε) * (Q' * (1 + R.u) ^ 6) - 1) * ((Spec.cauchyGreen Fc).det ^ (-1 / 3 : ℝ) * frob Fc ^ 2) with hη'
  have hη'0 : 0 ≤ η' := by rw [hη', hsize]; exact mul_nonneg hc0 hsum0
  have hηη : η' ≤ η := by
    rw [hη', hη, hsize]
    have : (1 + ε) * (Q' * (1 + R.u) ^ 6) - 1 ≤ (1 + ε) * (Q * (1 + R.u) ^ 6) - 1 := by gcongr
    exact mul_le_mul this hsum hsum0 (hc0.trans this)
  have hη0 : 0 ≤ η := hη'0.trans hηη
  -- constants
  have hmem : ∀ x, a ≤ x → x ≤ b → x ∈ Set.Icc (a - η) (b + η) := fun x h1 h2 => ⟨by linarith, by linarith⟩
  have hG : ∀ x, a ≤ x → x ≤ b → |ogdenRate mu alpha x| ≤ G := fun x h1 h2 =>
    (ogdenRate_le mu alpha (by linarith [hB.pos])).trans (hB.bound x (hmem x h1 h2))
  have hG0 : 0 ≤ G := (abs_nonneg _).trans (hG _ (hsq 0).2.1 (hsq 0).2.2.1)
  have hL := hB.nonneg
  -- the exact stress
  have hret := C52_distortional lapack hl (Ogden.mat ⟨mu, alpha⟩) (Ogden.symmetric _) (s := { material := { material := () } })
    hdpos orthogonal_one orthogonal_one m hm (ogden_returns mu alpha hα m ())
  simp only [Matrix.one_mul, Matrix.transpose_one, Matrix.mul_one] at hret
  rw [← hdiag] at hret
  have herr := fun i => C80_distortional R lapack solver hl hε hα () (F := Fc) hdet he
    (by rw [hdiag, unimodular_diagonal hdpos]; exact spectrum_diagonal fun i => by rw [← hm]; exact ⟨(hsq i).2.1, (hsq i).2.2.1⟩)
    hη' (OgdenBounds.mono hB (by linarith) (by linarith)) hs ⟨_, _, hret⟩ i i
  obtain ⟨τ, hτ⟩ : ∃ τ : Fin 3 → ℝ, ∀ i, τ i = 2 * (m i ^ 2 * ogdenRate mu alpha (m i ^ 2)) := ⟨_, fun _ => rfl⟩
  have hτb : ∀ i, |τ i| ≤ 2 * b * G := fun i => by
    rw [hτ, abs_mul, abs_mul, abs_two, abs_of_nonneg (sq_nonneg (m i)), mul_assoc]
    exact mul_le_mul_of_nonneg_left (mul_le_mul (hsq i).2.2.1 (hG _ (hsq i).2.1 (hsq i).2.2.1) (abs_nonneg _) hb0) two_pos.le
  have hE0 : 0 ≤ E := by
    have hQ0 : 1 ≤ Q := hQ1.trans hQQ
    have : 1 ≤ Q ^ 2 * q ^ 4 * (1 + R.u) ^ ((mu.zip alpha).length + 49) :=
      one_le_mul_of_one_le_of_one_le (one_le_mul_of_one_le_of_one_le (one_le_pow₀ hQ0) (one_le_pow₀ hq)) (one_le_pow₀ (by linarith))
    rw [hE]
    exact add_nonneg (mul_nonneg (by linarith) (by linarith)) (by positivity)
  have herr' : ∀ i, |R.ogdenDistortional solver ⟨mu, alpha⟩ Fc i i - (τ i - (τ 0 + τ 1 + τ 2) / 3) / d i| ≤ 4 * b / d i * E := by
    intro i
    have h1 := herr i
    rw [Matrix.diagonal_apply_eq] at h1
    have e1 : ∀ j, m j * ogdenSlope mu alpha (m j) = τ j := fun j => by
      rw [show ogdenSlope mu alpha (m j) = _ from ogden_principal mu alpha (hsq j).1, hτ]
      ring
    rw [e1, e1, e1, e1] at h1
    refine h1.trans ?_
    have e2 : distortionalUnit Fc i i ≤ 4 * b / d i := by
      rw [hdiag, distortionalUnit_diagonal hdpos m hm]
      have : m i ^ 2 + (∑ j, m j ^ 2) / 3 ≤ 2 * b := by linarith [(hsq i).2.2.1]
      calc 2 / d i * (m i ^ 2 + (∑ j, m j ^ 2) / 3) ≤ 2 / d i * (2 * b) :=
            mul_le_mul_of_nonneg_left this (div_nonneg two_pos.le (hdpos i).le)
        _ = _ := by ring
    have e3 : 0 ≤ distortionalUnit Fc i i := by
      rw [hdiag, distortionalUnit_diagonal hdpos m hm]
      have := hdpos i
      positivity
    have e4 := distE_mono (n := (mu.zip alpha).length + 49) hu (by linarith) hQQ (by linarith : 0 ≤ q) hG0 hL hη'0 hηη
    rw [← hE] at e4
    rw [mul_comm (4 * b / d i)]
    exact mul_le_mul e4 e2 e3 hE0
  have hg : ∀ i, |(τ i - (τ 0 + τ 1 + τ 2) / 3) / d i| ≤ 4 * b / d i * G := by
    intro i
    rw [abs_div, abs_of_pos (hdpos i)]
    have h1 : |τ i - (τ 0 + τ 1 + τ 2) / 3| ≤ 4 * b * G := by
      have h0 := abs_le.1 (hτb 0)
      have h1 := abs_le.1 (hτb 1)
      have h2 := abs_le.1 (hτb 2)
      have hi := abs_le.1 (hτb i)
      exact abs_le.2 ⟨by linarith, by linarith⟩
    calc _ ≤ 4 * b * G / d i := div_le_div_of_nonneg_right h1 (hdpos i).le
      _ = _ := by ring
  have hd0 : d 0 = l := by rw [hd]; exact (C79_defgrad R hB.small k hp 0 0).2
  have main := loadStress_error R (F := Fc) (P := R.ogdenDistortional solver ⟨mu, alpha⟩ Fc) hp (hdpos 2).le
    ((hdi 0).trans hd0) (hdi 2) (herr' 0) (herr' 2) (hg 0) (hg 2)
  have hd2 := (hdpos 2).ne'
  rw [hd0] at main
  have e1 : (τ 0 - (τ 0 + τ 1 + τ 2) / 3) / l - (τ 2 - (τ 0 + τ 1 + τ 2) / 3) / d 2 * d 2 / l = (τ 0 - τ 2) / l := by
    field_simp
    ring
  have e2 : (1 + R.u) ^ 3 * (4 * b / l * G + 4 * b / l * E + (4 * b / d 2 * G + 4 * b / d 2 * E) * d 2 / l) -
      (4 * b / l * G + 4 * b / d 2 * G * d 2 / l) = 8 * b / l * ((1 + R.u) ^ 3 * (G + E) - G) := by
    field_simp
    ring
  rw [e1, e2] at main
  rw [ogden_exact_curve k hp mu alpha]
  have hF0 : k.F l 0 0 = l := by cases k <;> rfl
  have hdiff : ∀ i, |τ i - 2 * (k.F l i i ^ 2 * ogdenRate mu alpha (k.F l i i ^ 2))| ≤ 2 * b * ((B ^ 2 - 1) * (G + L * b)) := by
    intro i
    obtain ⟨-, hma, hmb, hxa, hxb, hxy⟩ := hsq i
    rw [hτ]
    set x := k.F l i i
    set y := m i
    have hx2 := sq_nonneg x
    have hlip := hB.lipschitz _ (hmem _ hma hmb) _ (hmem _ hxa hxb)
    have hBB : 0 ≤ B ^ 2 - 1 := sub_nonneg.2 (one_le_pow₀ hB1)
    rw [← mul_sub, abs_mul, abs_two, mul_assoc]
    refine mul_le_mul_of_nonneg_left ?_ two_pos.le
    calc |y ^ 2 * ogdenRate mu alpha (y ^ 2) - x ^ 2 * ogdenRate mu alpha (x ^ 2)| =
        |(y ^ 2 - x ^ 2) * ogdenRate mu alpha (y ^ 2) + x ^ 2 * (ogdenRate mu alpha (y ^ 2) - ogdenRate mu alpha (x ^ 2))| := by ring_nf
      _ ≤ |y ^ 2 - x ^ 2| * |ogdenRate mu alpha (y ^ 2)| + x ^ 2 * |ogdenRate mu alpha (y ^ 2) - ogdenRate mu alpha (x ^ 2)| := by
        refine (abs_add_le _ _).trans (le_of_eq ?_)
        rw [abs_mul, abs_mul, abs_of_nonneg hx2]
      _ ≤ |y ^ 2 - x ^ 2| * G + x ^ 2 * (L * |y ^ 2 - x ^ 2|) :=
        add_le_add (mul_le_mul_of_nonneg_left (hG _ hma hmb) (abs_nonneg _)) (mul_le_mul_of_nonneg_left hlip hx2)
      _ = |y ^ 2 - x ^ 2| * (G + L * x ^ 2) := by ring
      _ ≤ ((B ^ 2 - 1) * x ^ 2) * (G + L * x ^ 2) := mul_le_mul_of_nonneg_right hxy (by positivity)
      _ ≤ ((B ^ 2 - 1) * b) * (G + L * b) := by
        refine mul_le_mul (mul_le_mul_of_nonneg_left hxb hBB) ?_ (by positivity) (by positivity)
        exact add_le_add le_rfl (mul_le_mul_of_nonneg_left hxb hL)
      _ = _ := by ring
  have h0 := hdiff 0
  have h2 := hdiff 2
  rw [hF0] at h0
  have e3 : 2 * l * ogdenRate mu alpha (l ^ 2) - 2 * k.F l 2 2 ^ 2 / l * ogdenRate mu alpha (k.F l 2 2 ^ 2) =
      (2 * (l ^ 2 * ogdenRate mu alpha (l ^ 2)) - 2 * (k.F l 2 2 ^ 2 * ogdenRate mu alpha (k.F l 2 2 ^ 2))) / l := by
    field_simp
  rw [e3]
  have hlast : |(τ 0 - τ 2) / l -
      (2 * (l ^ 2 * ogdenRate mu alpha (l ^ 2)) - 2 * (k.F l 2 2 ^ 2 * ogdenRate mu alpha (k.F l 2 2 ^ 2))) / l| ≤
      4 * b / l * (B ^ 2 - 1) * (G + L * b) := by
    rw [← sub_div, abs_div, abs_of_pos hp]
    have : |τ 0 - τ 2 - (2 * (l ^ 2 * ogdenRate mu alpha (l ^ 2)) - 2 * (k.F l 2 2 ^ 2 * ogdenRate mu alpha (k.F l 2 2 ^ 2)))| ≤
        4 * b * ((B ^ 2 - 1) * (G + L * b)) := by
      have h0 := abs_le.1 h0
      have h2 := abs_le.1 h2
      exact abs_le.2 ⟨by linarith, by linarith⟩
    calc _ ≤ 4 * b * ((B ^ 2 - 1) * (G + L * b)) / l := div_le_div_of_nonneg_right this hp.le
      _ = _ := by ring
  change |R.stress Fc (R.ogdenDistortional solver ⟨mu, alpha⟩ Fc) - _| ≤ _
  exact (abs_sub_le _ ((τ 0 - τ 2) / l) _).trans (add_le_add main hlast)

/-- The curve which is simulated with an Ogden material on the distortional space. -/
theorem C92_distortional (lapack : Eigh) (hl : EighValid lapack) {mu alpha : List ℝ} (hα : ∀ p ∈ alpha, p ≠ 0)
    (sim : Simulation Z) (k : LoadKind) (lab : Option String) (hk : sim.loadcase = k.case lab) (p : List ℝ)
    (hm : sim.material (Kwargs.ofList (sim.labels.zip p)) = .ok (ogdenDistortional lapack mu alpha))
    (x : List ℝ) (hne : x ≠ []) (hx : ∀ l ∈ x, 0 < l) : ∃ y, sim.stressCurveFit x p = .ok y ∧
    List.Forall₂ (fun l f => ∀ (R : RoundingSqrt) (solver : Eigh) (ε a b L G q Q η E : ℝ), 0 ≤ ε → k.accuracy R.u < 2 →
      (1 + R.u) ^ 22 < 2 → k.StretchesNear (k.isoAccuracy R.u) a b l → Q = k.detAccuracy R.u →
      η = ((1 + ε) * (Q * (1 + R.u) ^ 6) - 1) * (3 * b) → OgdenBounds R.u ε mu alpha (a - η) (b + η) L G q →
      E = (Q ^ 2 * q ^ 4 * (1 + R.u) ^ ((mu.zip alpha).length + 49) - 1) * (3 * G) + Q ^ 2 * (1 + R.u) ^ 37 * L * η →
      (∀ C : Ten2 ℝ, C.IsSymm → EighAccurate ε C (solver C).1 (solver C).2) →
      |R.ogdenDistortionalCurve solver (k.computedF R) ⟨mu, alpha⟩ l - f| ≤
        ogdenDistortionalCurveError R.u (k.isoAccuracy R.u) l b G L E) x y := by
  refine ⟨_, C42_ogden lapack hl mu alpha hα sim k lab hk p (.inr hm) x hne hx, ?_⟩
  rw [List.forall₂_map_right_iff, List.forall₂_same]
  intro l hlx R solver ε a b L G q Q η E hε hA h22 hk hQ hη hB hE hs
  exact C92_point_distortional R lapack solver hl hε hα k (hx l hlx) hA h22 hk hQ hη hB hE hs

/-- The curves on the distortional space, computed with increasing precision, converge to the textbook curve. -/
theorem C92_distortional_converges (R : ℕ → RoundingSqrt) (solver : ℕ → Eigh) (ε : ℕ → ℝ)
    (hR : Filter.Tendsto (fun n => (R n).u) .atTop (nhds 0)) (hε : Filter.Tendsto ε .atTop (nhds 0)) (hε0 : ∀ n, 0 ≤ ε n)
    (hs : ∀ n, ∀ C : Ten2 ℝ, C.IsSymm → EighAccurate (ε n) C (solver n C).1 (solver n C).2)
    {mu alpha : List ℝ} (hα : ∀ p ∈ alpha, p ≠ 0) (k : LoadKind) {l : ℝ} (hp : 0 < l) :
    Filter.Tendsto (fun n => (R n).ogdenDistortionalCurve (solver n) (k.computedF (R n)) ⟨mu, alpha⟩ l) .atTop
      (nhds ((mu.zip alpha).map fun p => ogdenCurve k p.1 p.2 l).sum) := by
  obtain ⟨lapack, hl⟩ := exists_eigh
  obtain ⟨a, b, ha, hab, hr⟩ := loadRange_exists k hp
  obtain ⟨A, hA⟩ : ∃ A, ∀ α ∈ alpha, |α - 1| ≤ A := by
    refine ⟨(alpha.map fun α => |α - 1|).sum, fun α h => ?_⟩
    exact List.single_le_sum (by
      intro x hx
      obtain ⟨y, -, rfl⟩ := List.mem_map.1 hx
      exact abs_nonneg _) _ (List.mem_map.2 ⟨α, h, rfl⟩)
  have ha2 : 0 < a / 4 := by linarith
  obtain ⟨Λ, hΛ⟩ : ∃ Λ, ∀ x ∈ Set.Icc (a / 4) (2 * b + a / 4), |Real.log x| ≤ Λ := by
    refine ⟨max |Real.log (a / 4)| |Real.log (2 * b + a / 4)|, fun x hx => ?_⟩
    have h1 := Real.log_le_log ha2 hx.1
    have h2 := Real.log_le_log (ha2.trans_le hx.1) hx.2
    exact abs_le_max_abs_abs h1 h2
  set L := ogdenL mu alpha (a / 4) (2 * b + a / 4)
  set G := ogdenG mu alpha (a / 4) (2 * b + a / 4)
  have hacc := accuracy_tendsto hR k
  have hiso : Filter.Tendsto (fun n => k.isoAccuracy (R n).u) .atTop (nhds 1) := by
    have := hacc.div (hacc.const_sub 2) (by norm_num)
    have e : (1 : ℝ) / (2 - 1) = 1 := by norm_num
    rwa [e] at this
  have h1u : Filter.Tendsto (fun n => 1 + (R n).u) .atTop (nhds (1 + 0)) := hR.const_add 1
  have hQt : Filter.Tendsto (fun n => k.detAccuracy (R n).u) .atTop (nhds 1) := by
    have h1 : Filter.Tendsto (fun n => 1 / (2 - (1 + (R n).u) ^ 22)) .atTop (nhds (1 / (2 - (1 + 0) ^ 22))) :=
      tendsto_const_nhds.div ((h1u.pow 22).const_sub 2) (by norm_num)
    have h2 := h1.rpow h1u (Or.inl (by norm_num))
    have h3 := hiso.rpow (hR.const_mul 2) (Or.inl (by norm_num))
    have h4 := ((h1u.pow 2).mul h2).mul h3
    have e : (1 + 0 : ℝ) ^ 2 * (1 / (2 - (1 + 0) ^ 22)) ^ (1 + 0 : ℝ) * 1 ^ (2 * 0 : ℝ) = 1 := by norm_num
    rwa [e] at h4
  set Q : ℕ → ℝ := fun n => k.detAccuracy (R n).u
  set η : ℕ → ℝ := fun n => ((1 + ε n) * (Q n * (1 + (R n).u) ^ 6) - 1) * (3 * (2 * b)) with hη
  have hηt : Filter.Tendsto η .atTop (nhds 0) := by
    have := ((((hε.const_add 1).mul (hQt.mul (h1u.pow 6))).sub_const 1)).mul_const (3 * (2 * b))
    simpa using this
  have hu2 : Filter.Tendsto (fun n => (1 + (R n).u) ^ 2) .atTop (nhds 1) := by
    simpa using (hR.const_add 1).pow 2
  have hu22 : Filter.Tendsto (fun n => (1 + (R n).u) ^ 22) .atTop (nhds 1) := by
    simpa using (hR.const_add 1).pow 22
  have hq := ogdenQ_tendsto (A := A) (Λ := Λ) hR hε
  set n0 := (mu.zip alpha).length
  set E : ℕ → ℝ := fun n => (Q n ^ 2 * ogdenQ (R n).u (ε n) A Λ ^ 4 * (1 + (R n).u) ^ (n0 + 49) - 1) * (3 * G) +
    Q n ^ 2 * (1 + (R n).u) ^ 37 * L * η n
  have hE : Filter.Tendsto E .atTop (nhds 0) := by
    have := (((((hQt.pow 2).mul (hq.pow 4)).mul (h1u.pow (n0 + 49))).sub_const 1).mul_const (3 * G)).add
      ((((hQt.pow 2).mul (h1u.pow 37)).mul_const L).mul hηt)
    simpa using this
  have hlim : Filter.Tendsto (fun n => ogdenDistortionalCurveError (R n).u (k.isoAccuracy (R n).u) l (2 * b) G L (E n))
      .atTop (nhds 0) := by
    have h2 := ((((h1u.pow 3).mul (hE.const_add G)).sub_const G)).const_mul (8 * (2 * b) / l)
    have h3 := (((hiso.pow 2).sub_const 1).const_mul (4 * (2 * b) / l)).mul_const (G + L * (2 * b))
    have := h2.add h3
    simpa [ogdenDistortionalCurveError] using this
  rw [tendsto_iff_dist_tendsto_zero]
  refine squeeze_zero' (Filter.Eventually.of_forall fun _ => dist_nonneg) ?_ hlim
  have hupp : ∀ᶠ n in .atTop, k.isoAccuracy (R n).u ^ 2 < 2 := by
    have h1 : Filter.Tendsto (fun n => k.isoAccuracy (R n).u ^ 2) .atTop (nhds (1 ^ 2)) := hiso.pow 2
    exact h1.eventually_lt_const (by norm_num)
  have hpos : ∀ᶠ n in .atTop, 0 < k.isoAccuracy (R n).u := hiso.eventually_const_lt (by norm_num)
  filter_upwards [hηt.eventually (gt_mem_nhds ha2), hu2.eventually (gt_mem_nhds one_lt_two),
    hacc.eventually (gt_mem_nhds one_lt_two), hu22.eventually (gt_mem_nhds one_lt_two), hupp, hpos] with n h1 h2 h3 h4 h5 h6
  have hB : OgdenBounds (R n).u (ε n) mu alpha (a / 2 - η n) (2 * b + η n) L G (ogdenQ (R n).u (ε n) A Λ) :=
    OgdenBounds.mono (C80_constants mu alpha (R n).u_nonneg h2 ha2 hA hΛ) (by linarith) (by linarith)
  refine C92_point_distortional (R n) lapack (solver n) hl (hε0 n) hα k hp h3 h4 (fun i => ?_) rfl rfl hB rfl (hs n)
  have h7 := hr i
  constructor
  · rw [div_pow, le_div_iff₀ (by positivity)]
    nlinarith
  · rw [mul_pow]
    nlinarith [sq_nonneg (k.F l i i)]

/-- The factors in double precision. -/
theorem detAccuracy_double {u : ℝ} (hu : 0 ≤ u) (hu' : u ≤ 2 ^ (-53 : ℤ)) (k : LoadKind) :
    1 ≤ k.isoAccuracy u ∧ k.isoAccuracy u ^ 2 ≤ 1 + 1 / 562949953421312 ∧ 1 ≤ k.detAccuracy u ∧
      k.detAccuracy u ≤ 1 + 25 * 2 ^ (-43 : ℤ) ∧ (1 + u) ^ 22 < 2 := by
  obtain ⟨hsmall, hacc, -⟩ := accuracy_double hu hu' k
  have hA1 := accuracy_one_le hu hsmall k
  have h53 : (2 : ℝ) ^ (-53 : ℤ) = 1 / 9007199254740992 := by norm_num
  have h43 : (2 : ℝ) ^ (-43 : ℤ) = 1 / 8796093022208 := by norm_num
  rw [h53] at hu' hacc
  rw [h43]
  have h22 : (1 + u) ^ 22 ≤ 1 + 23 / 9007199254740992 := by
    have : (1 + u) ^ 22 ≤ (1 + 1 / 9007199254740992) ^ 22 := by gcongr
    exact this.trans (by norm_num)
  have hiso : k.isoAccuracy u ≤ 1 + 7 / 9007199254740992 := by
    unfold LoadKind.isoAccuracy
    rw [div_le_iff₀ (by linarith)]
    nlinarith
  have hiso1 : 1 ≤ k.isoAccuracy u := by
    unfold LoadKind.isoAccuracy
    rw [le_div_iff₀ (by linarith)]
    linarith
  have h22' : 1 ≤ (1 + u) ^ 22 := one_le_pow₀ (by linarith)
  have hr1 : 1 ≤ 1 / (2 - (1 + u) ^ 22) := by rw [le_div_iff₀ (by linarith)]; linarith
  have hr2 : 1 / (2 - (1 + u) ^ 22) ≤ 1 + 24 / 9007199254740992 := by
    rw [div_le_iff₀ (by linarith)]
    nlinarith
  refine ⟨hiso1, ?_, ?_, ?_, by linarith⟩
  · calc k.isoAccuracy u ^ 2 ≤ (1 + 7 / 9007199254740992) ^ 2 := by gcongr
      _ ≤ _ := by norm_num
  · unfold LoadKind.detAccuracy
    refine one_le_mul_of_one_le_of_one_le (one_le_mul_of_one_le_of_one_le (one_le_pow₀ (by linarith)) ?_) ?_
    · exact Real.one_le_rpow hr1 (by linarith)
    · exact Real.one_le_rpow hiso1 (by linarith)
  · unfold LoadKind.detAccuracy
    have e1 : (1 / (2 - (1 + u) ^ 22)) ^ (1 + u) ≤ (1 + 24 / 9007199254740992) ^ 2 := by
      calc (1 / (2 - (1 + u) ^ 22)) ^ (1 + u) ≤ (1 / (2 - (1 + u) ^ 22)) ^ (2 : ℝ) :=
            Real.rpow_le_rpow_of_exponent_le hr1 (by linarith)
        _ = (1 / (2 - (1 + u) ^ 22)) ^ 2 := Real.rpow_two _
        _ ≤ _ := by gcongr
    have e2 : k.isoAccuracy u ^ (2 * u) ≤ 1 + 7 / 9007199254740992 := by
      calc k.isoAccuracy u ^ (2 * u) ≤ k.isoAccuracy u ^ (1 : ℝ) := Real.rpow_le_rpow_of_exponent_le hiso1 (by linarith)
        _ = k.isoAccuracy u := Real.rpow_one _
        _ ≤ _ := hiso
    have e3 : (1 + u) ^ 2 ≤ (1 + 1 / 9007199254740992) ^ 2 := by gcongr
    have p1 : 0 ≤ (1 / (2 - (1 + u) ^ 22)) ^ (1 + u) := Real.rpow_nonneg (by linarith) _
    have p2 : 0 ≤ k.isoAccuracy u ^ (2 * u) := Real.rpow_nonneg (by linarith) _
    calc _ ≤ (1 + 1 / 9007199254740992) ^ 2 * (1 + 24 / 9007199254740992) ^ 2 * (1 + 7 / 9007199254740992) :=
          mul_le_mul (mul_le_mul e3 e1 p1 (by positivity)) e2 p2 (by positivity)
      _ ≤ _ := by norm_num

/-- Double precision on the distortional space. -/
theorem C92_distortional_double (R : RoundingSqrt) (hR : R.u ≤ 2 ^ (-53 : ℤ)) (solver : Eigh) {ε a b l : ℝ}
    (hε : 0 ≤ ε) (hε' : ε ≤ 2 ^ (-48 : ℤ)) {mu alpha : List ℝ} (hlen : alpha.length ≤ 6)
    (hα : ∀ p ∈ alpha, p ≠ 0 ∧ |p - 1| ≤ 16) (k : LoadKind) (hp : 0 < l) (ha : 0 < a)
    (hr : ∀ i, a ≤ k.F l i i ^ 2 ∧ k.F l i i ^ 2 ≤ b)
    (hlog : ∀ x ∈ Set.Icc (a / 2) (b + a / 2), |Real.log x| ≤ 8) (hcond : 2 ^ (-33 : ℤ) * b ≤ a)
    (hs : ∀ C : Ten2 ℝ, C.IsSymm → EighAccurate ε C (solver C).1 (solver C).2) :
    |R.ogdenDistortionalCurve solver (k.computedF R) ⟨mu, alpha⟩ l - ((mu.zip alpha).map fun p => ogdenCurve k p.1 p.2 l).sum| ≤
      16 * b / l * (2 ^ (-34 : ℤ) * ogdenG mu alpha (a / 2) (b + a / 2) +
        2 ^ (-36 : ℤ) * ogdenL mu alpha (a / 2) (b + a / 2) * b) := by
  obtain ⟨lapack, hl⟩ := exists_eigh
  have hu := R.u_nonneg
  obtain ⟨hsmall, hacc, -⟩ := accuracy_double hu hR k
  obtain ⟨hB1, hB2, hQ1, hQ, h22⟩ := detAccuracy_double hu hR k
  have hq := ogdenQ_double hu hR hε'
  have hq1 : 1 ≤ ogdenQ R.u ε 16 8 := by
    have : 1 + ε ≤ ogdenQ R.u ε 16 8 := le_max_of_le_right (le_max_right _ _)
    linarith
  have hn : (mu.zip alpha).length ≤ 6 := by rw [List.length_zip]; omega
  have hab : a ≤ b := (hr 0).1.trans (hr 0).2
  obtain ⟨b', hb'⟩ : ∃ b', b' = b + a / 4 := ⟨_, rfl⟩
  have hb0 : 0 ≤ b' := by linarith
  obtain ⟨hη0, hη1, hE⟩ := ogden_split_double hu hR hε hε' hQ1 hQ hq1 hq hn (by linarith : 0 ≤ 3 * b')
  have h53 : (2 : ℝ) ^ (-53 : ℤ) = 1 / 9007199254740992 := by norm_num
  have h38 : (2 : ℝ) ^ (-38 : ℤ) = 1 / 274877906944 := by norm_num
  have h36 : (2 : ℝ) ^ (-36 : ℤ) = 1 / 68719476736 := by norm_num
  have h35 : (2 : ℝ) ^ (-35 : ℤ) = 1 / 34359738368 := by norm_num
  have h34 : (2 : ℝ) ^ (-34 : ℤ) = 1 / 17179869184 := by norm_num
  have h33 : (2 : ℝ) ^ (-33 : ℤ) = 1 / 8589934592 := by norm_num
  rw [h33] at hcond
  rw [h38] at hη1
  rw [h53] at hacc
  have hu53 := hR
  rw [h53] at hu53
  have ha2 : 0 < a / 2 := by linarith
  set η := ((1 + ε) * (k.detAccuracy R.u * (1 + R.u) ^ 6) - 1) * (3 * b') with hη
  have hηa : η ≤ a / 4 := by linarith
  have hB : OgdenBounds R.u ε mu alpha (3 / 4 * a - η) (b' + η) (ogdenL mu alpha (a / 2) (b + a / 2))
      (ogdenG mu alpha (a / 2) (b + a / 2)) (ogdenQ R.u ε 16 8) :=
    OgdenBounds.mono (C80_constants (ε := ε) mu alpha hu hsmall ha2 (fun α h => (hα α h).2) hlog) (by linarith) (by linarith)
  have hL := hB.nonneg
  have hG : 0 ≤ ogdenG mu alpha (a / 2) (b + a / 2) := by
    refine List.sum_nonneg fun t ht => ?_
    obtain ⟨p, -, rfl⟩ := List.mem_map.1 ht
    have : 0 < (a / 2) ^ ((p.2 - 2) / 2) := Real.rpow_pos_of_pos ha2 _
    have := this.le.trans (le_max_left _ ((b + a / 2) ^ ((p.2 - 2) / 2)))
    positivity
  have hk : k.StretchesNear (k.isoAccuracy R.u) (3 / 4 * a) b' l := by
    intro i
    obtain ⟨h1, h2⟩ := hr i
    rw [div_pow, mul_pow]
    constructor
    · rw [le_div_iff₀ (by positivity)]
      calc 3 / 4 * a * k.isoAccuracy R.u ^ 2 ≤ 3 / 4 * a * (1 + 1 / 562949953421312) :=
            mul_le_mul_of_nonneg_left hB2 (by linarith)
        _ ≤ _ := by linarith
    · calc k.isoAccuracy R.u ^ 2 * k.F l i i ^ 2 ≤ (1 + 1 / 562949953421312) * b := mul_le_mul hB2 h2 (sq_nonneg _) (by norm_num)
        _ ≤ _ := by linarith
  refine (C92_point_distortional R lapack solver hl hε (fun p hp => (hα p hp).1) k hp (by linarith) h22 hk rfl hη hB rfl hs).trans ?_
  have hE1 := hE hG hL zero_le_one
  rw [mul_one, mul_one, h35, h38] at hE1
  rw [h34, h36]
  generalize ogdenG mu alpha (a / 2) (b + a / 2) = G at hG hE1 ⊢
  generalize ogdenL mu alpha (a / 2) (b + a / 2) = L at hL hE1 ⊢
  have hE0 : 0 ≤ (k.detAccuracy R.u ^ 2 * ogdenQ R.u ε 16 8 ^ 4 * (1 + R.u) ^ ((mu.zip alpha).length + 49) - 1) * (3 * G) +
      k.detAccuracy R.u ^ 2 * (1 + R.u) ^ 37 * L * η := by
    have : 1 ≤ k.detAccuracy R.u ^ 2 * ogdenQ R.u ε 16 8 ^ 4 * (1 + R.u) ^ ((mu.zip alpha).length + 49) :=
      one_le_mul_of_one_le_of_one_le (one_le_mul_of_one_le_of_one_le (one_le_pow₀ hQ1) (one_le_pow₀ hq1)) (one_le_pow₀ (by linarith))
    exact add_nonneg (mul_nonneg (by linarith) (by linarith)) (by positivity)
  generalize (k.detAccuracy R.u ^ 2 * ogdenQ R.u ε 16 8 ^ 4 * (1 + R.u) ^ ((mu.zip alpha).length + 49) - 1) * (3 * G) +
      k.detAccuracy R.u ^ 2 * (1 + R.u) ^ 37 * L * η = E at hE0 hE1 ⊢
  unfold ogdenDistortionalCurveError
  generalize k.isoAccuracy R.u = B at hB1 hB2 ⊢
  have h3 : (1 + R.u) ^ 3 ≤ 1 + 1 / 2251799813685248 := by
    have : (1 + R.u) ^ 3 ≤ (1 + 1 / 9007199254740992) ^ 3 := by gcongr
    exact this.trans (by norm_num)
  have hb1 : b' ≤ 5 / 4 * b := by linarith
  have hLb' : L * b' ≤ 5 / 4 * (L * b) := by
    have := mul_le_mul_of_nonneg_left hb1 hL
    linarith
  have hLb : 0 ≤ L * b := mul_nonneg hL (by linarith)
  have hLb0 : 0 ≤ L * b' := mul_nonneg hL hb0
  have hE2 : E ≤ 1 / 34359738368 * G + 1 / 70000000000 * (L * b) := by linarith
  have hK : (1 + R.u) ^ 3 * (G + E) - G ≤ 11 / 10 * (1 / 34359738368 * G + 1 / 70000000000 * (L * b)) := by
    have := mul_le_mul_of_nonneg_right h3 (add_nonneg hG hE0)
    linarith
  have hM : 4 * ((B ^ 2 - 1) * (G + L * b')) ≤ 1 / 100000000000000 * (G + L * b) := by
    have e3 : 0 ≤ B ^ 2 - 1 := sub_nonneg.2 (one_le_pow₀ hB1)
    have : (B ^ 2 - 1) * (G + L * b') ≤ 1 / 562949953421312 * (G + 5 / 4 * (L * b)) :=
      mul_le_mul (by linarith) (by linarith) (by linarith) (by norm_num)
    linarith
  have hbl : 0 ≤ b' / l := div_nonneg hb0 hp.le
  calc 8 * b' / l * ((1 + R.u) ^ 3 * (G + E) - G) + 4 * b' / l * (B ^ 2 - 1) * (G + L * b')
      = b' / l * (8 * ((1 + R.u) ^ 3 * (G + E) - G) + 4 * ((B ^ 2 - 1) * (G + L * b'))) := by ring
    _ ≤ b' / l * (12.8 * (1 / 17179869184 * G + 1 / 68719476736 * L * b)) := by
      refine mul_le_mul_of_nonneg_left ?_ hbl
      linarith
    _ ≤ (5 / 4 * b) / l * (12.8 * (1 / 17179869184 * G + 1 / 68719476736 * L * b)) := by
      refine mul_le_mul_of_nonneg_right (div_le_div_of_nonneg_right hb1 hp.le) ?_
      have : 0 ≤ 1 / 68719476736 * L * b := by linarith
      linarith
    _ = _ := by ring

/-- The hypotheses of `C92_point_distortional` on the precision and the ones of `C92_distortional_double` on the range are met
together: two terms, uniaxial tension to the stretch two, in double precision with an inexact solver. -/
example : ∃ (R : RoundingSqrt) (solver : Eigh), R.u ≤ 2 ^ (-53 : ℤ) ∧ 0 < R.u ∧
    (∀ C : Ten2 ℝ, C.IsSymm → EighAccurate (2 ^ (-50 : ℤ)) C (solver C).1 (solver C).2) ∧
    LoadKind.uniaxial.accuracy R.u < 2 ∧ (1 + R.u) ^ 22 < 2 ∧
    (∀ i, 1 / 16 ≤ LoadKind.uniaxial.F 2 i i ^ 2 ∧ LoadKind.uniaxial.F 2 i i ^ 2 ≤ 4) ∧ (2 : ℝ) ^ (-33 : ℤ) * 4 ≤ 1 / 16 := by
  obtain ⟨solver, hs⟩ := inexact_solver
  have hu : binary64Sqrt.u ≤ 2 ^ (-53 : ℤ) := le_rfl
  obtain ⟨-, hacc, -⟩ := accuracy_double binary64Sqrt.u_nonneg hu .uniaxial
  refine ⟨binary64Sqrt, solver, hu, ?_, fun C hC => (hs C hC).1, lt_of_le_of_lt hacc (by norm_num),
    (detAccuracy_double binary64Sqrt.u_nonneg hu .uniaxial).2.2.2.2, ?_, by norm_num⟩
  · change 0 < Binary64.rounding.u
    rw [Binary64.rounding_u]; positivity
  · intro i
    fin_cases i <;> norm_num [LoadKind.F, Matrix.diagonal_apply, div_pow]

end Props
