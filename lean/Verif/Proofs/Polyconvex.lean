import Verif.Proofs.Spectral
import Verif.Proofs.PosDef
import Mathlib.Analysis.Convex.SpecificFunctions.Basic
import Mathlib.Analysis.MeanInequalities

/-! # Singular values and convexity

The sum of powers of the singular values as a supremum of convex functions, and the gradient inequality of the
isochoric powers. -/

namespace Props
open Spec Matrix

/-- The gradient inequality of `(y, ρ) ↦ y ^ p / ρ ^ q` at `(1, 1)`, which is convex if `p ≥ 1 + q`. -/
theorem power_young {p q y r : ℝ} (hq : 0 ≤ q) (hp : 1 + q ≤ p) (hy : 0 ≤ y) (hr : 0 < r) :
    1 + p * (y - 1) - q * (r - 1) ≤ y ^ p * r ^ (-q) := by
  have hp0 : 0 < p := by linarith
  have hT : 0 ≤ y ^ p * r ^ (-q) := by positivity
  have h := Real.geom_mean_le_arith_mean3_weighted (w₁ := 1 / p) (w₂ := q / p) (w₃ := (p - 1 - q) / p)
    (p₁ := y ^ p * r ^ (-q)) (p₂ := r) (p₃ := 1) (by positivity) (by positivity)
    (div_nonneg (by linarith) hp0.le) hT hr.le zero_le_one (by field_simp; ring)
  have e : (y ^ p * r ^ (-q)) ^ (1 / p) * r ^ (q / p) * 1 ^ ((p - 1 - q) / p) = y := by
    rw [Real.one_rpow, mul_one, Real.mul_rpow (by positivity) (by positivity), ← Real.rpow_mul hy, ← Real.rpow_mul hr.le,
      mul_assoc, ← Real.rpow_add hr, mul_one_div_cancel hp0.ne', Real.rpow_one]
    have : -q * (1 / p) + q / p = 0 := by ring
    rw [this, Real.rpow_zero, mul_one]
  rw [e] at h
  have h2 := mul_le_mul_of_nonneg_left h hp0.le
  have e2 : p * (1 / p * (y ^ p * r ^ (-q)) + q / p * r + (p - 1 - q) / p * 1) = y ^ p * r ^ (-q) + q * r + (p - 1 - q) := by
    field_simp
  rw [e2] at h2
  linarith

/-- The singular value decomposition. -/
theorem exists_svd {F : Ten2 ℝ} (hF : F.det ≠ 0) : ∃ (R Q : Ten2 ℝ) (l : Fin 3 → ℝ), Orthogonal R ∧ Orthogonal Q ∧ Positive l ∧
    F = R * diagonal l * Qᵀ := by
  have hC := posDef_cauchyGreen hF
  obtain ⟨w, v, h⟩ := exists_spectral hC.1
  have hw := h.pos hC
  have hv : vᵀ * v = 1 := h.orthogonal
  have hv' : v * vᵀ = 1 := mul_eq_one_comm.1 hv
  have hd : ∀ a, √(w a) ≠ 0 := fun a => (Real.sqrt_pos.2 (hw a)).ne'
  refine ⟨F * v * diagonal fun a => (√(w a))⁻¹, v, fun a => √(w a), ?_, h.orthogonal, fun a => Real.sqrt_pos.2 (hw a), ?_⟩
  · have e : vᵀ * (Fᵀ * F) * v = diagonal w := by
      have := h.eq
      rw [cauchyGreen] at this
      rw [this]
      calc vᵀ * (v * diagonal w * vᵀ) * v = (vᵀ * v) * diagonal w * (vᵀ * v) := by simp only [Matrix.mul_assoc]
        _ = diagonal w := by rw [hv, Matrix.one_mul, Matrix.mul_one]
    change (F * v * diagonal _)ᵀ * (F * v * diagonal _) = 1
    calc (F * v * diagonal fun a => (√(w a))⁻¹)ᵀ * (F * v * diagonal fun a => (√(w a))⁻¹)
        = diagonal (fun a => (√(w a))⁻¹) * (vᵀ * (Fᵀ * F) * v) * diagonal (fun a => (√(w a))⁻¹) := by
          simp only [transpose_mul, diagonal_transpose, Matrix.mul_assoc]
      _ = 1 := by
          rw [e, diagonal_mul_diagonal, diagonal_mul_diagonal, ← diagonal_one]
          congr 1; funext a
          have := Real.sq_sqrt (hw a).le
          have h0 := hd a
          field_simp
          exact this.symm
  · rw [Matrix.mul_assoc (F * v), diagonal_mul_diagonal]
    have : (fun a => (√(w a))⁻¹ * √(w a)) = fun _ => (1 : ℝ) := funext fun a => inv_mul_cancel₀ (hd a)
    rw [this, diagonal_one, Matrix.mul_one, Matrix.mul_assoc, hv', Matrix.mul_one]

/-- The rows and the columns of an orthogonal matrix have length one. -/
theorem orth_sum_sq {X : Ten2 ℝ} (h : Orthogonal X) (a : Fin 3) : ∑ k, X a k ^ 2 = 1 ∧ ∑ k, X k a ^ 2 = 1 := by
  have h1 : Xᵀ * X = 1 := h
  have h2 : X * Xᵀ = 1 := mul_eq_one_comm.1 h1
  have e1 := congrFun (congrFun h1 a) a
  have e2 := congrFun (congrFun h2 a) a
  simp only [mul_apply, transpose_apply, one_apply_eq, ← sq] at e1 e2
  exact ⟨e2, e1⟩

theorem orth_transpose_mul {X Y : Ten2 ℝ} (hX : Orthogonal X) (hY : Orthogonal Y) : Orthogonal (Xᵀ * Y) := by
  have h1 : X * Xᵀ = 1 := mul_eq_one_comm.1 hX
  have h2 : Yᵀ * Y = 1 := hY
  change (Xᵀ * Y)ᵀ * (Xᵀ * Y) = 1
  rw [Matrix.transpose_mul, transpose_transpose]
  calc Yᵀ * X * (Xᵀ * Y) = Yᵀ * (X * Xᵀ) * Y := by simp only [Matrix.mul_assoc]
    _ = 1 := by rw [h1, Matrix.mul_one, h2]

/-- The diagonal in any pair of orthonormal bases is dominated by the singular values. -/
theorem diagonal_le_singular {R Q U V : Ten2 ℝ} (hR : Orthogonal R) (hQ : Orthogonal Q) (hU : Orthogonal U) (hV : Orthogonal V)
    {m : Fin 3 → ℝ} (hm : Positive m) {p : ℝ} (hp : 1 ≤ p) :
    ∑ a, |(Uᵀ * (R * diagonal m * Qᵀ) * V) a a| ^ p ≤ ∑ k, m k ^ p := by
  have hX := orth_transpose_mul hU hR
  have hY := orth_transpose_mul hQ hV
  set X := Uᵀ * R
  set Y := Qᵀ * V
  have e : Uᵀ * (R * diagonal m * Qᵀ) * V = X * diagonal m * Y := by simp only [X, Y, Matrix.mul_assoc]
  have h1 : ∀ a, |(X * diagonal m * Y) a a| ≤ ∑ k, (X a k ^ 2 + Y k a ^ 2) / 2 * m k := by
    intro a
    rw [mul_apply]
    refine (Finset.abs_sum_le_sum_abs _ _).trans (Finset.sum_le_sum fun k _ => ?_)
    rw [mul_diagonal, abs_mul, abs_mul, abs_of_pos (hm k)]
    have : |X a k| * |Y k a| ≤ (X a k ^ 2 + Y k a ^ 2) / 2 := by
      nlinarith [sq_nonneg (|X a k| - |Y k a|), sq_abs (X a k), sq_abs (Y k a)]
    calc |X a k| * m k * |Y k a| = |X a k| * |Y k a| * m k := by ring
      _ ≤ _ := mul_le_mul_of_nonneg_right this (hm k).le
  have h2 : ∀ a, |(X * diagonal m * Y) a a| ^ p ≤ ∑ k, (X a k ^ 2 + Y k a ^ 2) / 2 * m k ^ p := by
    intro a
    refine (Real.rpow_le_rpow (abs_nonneg _) (h1 a) (by linarith)).trans ?_
    have := (convexOn_rpow hp).map_sum_le (t := Finset.univ) (w := fun k => (X a k ^ 2 + Y k a ^ 2) / 2) (p := m)
      (fun k _ => by positivity) (by
        rw [← Finset.sum_div, Finset.sum_add_distrib, (orth_sum_sq hX a).1, (orth_sum_sq hY a).2]; norm_num) (fun k _ => (hm k).le)
    simpa only [smul_eq_mul] using this
  rw [e]
  refine (Finset.sum_le_sum fun a _ => h2 a).trans ?_
  rw [Finset.sum_comm]
  refine (Finset.sum_le_sum fun k _ => ?_)
  rw [← Finset.sum_mul, ← Finset.sum_div, Finset.sum_add_distrib, (orth_sum_sq hX k).2, (orth_sum_sq hY k).1]
  linarith

/-- The work of a stress with the principal axes `R`, `Q`. -/
theorem contract_svd (R Q : Ten2 ℝ) (g : Fin 3 → ℝ) (U : Ten2 ℝ) :
    contract22 (R * diagonal g * Qᵀ) U = ∑ a, g a * (Rᵀ * U * Q) a a := by
  have h : ∀ i j, (R * diagonal g * Qᵀ) i j = ∑ a, R i a * g a * Q j a := by
    intro i j
    rw [mul_apply]
    simp only [mul_diagonal, transpose_apply]
  simp only [contract22, h, mul_apply, transpose_apply, Fin.sum_univ_three]
  ring

theorem svd_diag {R Q : Ten2 ℝ} (hR : Orthogonal R) (hQ : Orthogonal Q) (l : Fin 3 → ℝ) :
    Rᵀ * (R * diagonal l * Qᵀ) * Q = diagonal l := by
  have h1 : Rᵀ * R = 1 := hR
  have h2 : Qᵀ * Q = 1 := hQ
  calc Rᵀ * (R * diagonal l * Qᵀ) * Q = (Rᵀ * R) * diagonal l * (Qᵀ * Q) := by simp only [Matrix.mul_assoc]
    _ = _ := by rw [h1, h2, Matrix.one_mul, Matrix.mul_one]

/-- The sum of the powers of the singular values is convex: the gradient inequality. -/
theorem singular_convex {R Q R' Q' : Ten2 ℝ} (hR : Orthogonal R) (hQ : Orthogonal Q) (hR' : Orthogonal R') (hQ' : Orthogonal Q')
    {l m : Fin 3 → ℝ} (hl : Positive l) (hm : Positive m) {p : ℝ} (hp : 1 ≤ p) :
    ∑ a, l a ^ p + contract22 (R * diagonal (fun a => p * l a ^ (p - 1)) * Qᵀ) (R' * diagonal m * Q'ᵀ - R * diagonal l * Qᵀ) ≤
      ∑ a, m a ^ p := by
  refine le_trans ?_ (diagonal_le_singular hR' hQ' hR hQ hm hp)
  rw [contract_svd, ← Finset.sum_add_distrib]
  refine Finset.sum_le_sum fun a _ => ?_
  rw [Matrix.mul_sub, Matrix.sub_mul, svd_diag hR hQ, Matrix.sub_apply, diagonal_apply_eq]
  set x := (Rᵀ * (R' * diagonal m * Q'ᵀ) * Q) a a
  have h0 := hl a
  have h := power_young (p := p) (q := 0) (y := |x| / l a) (r := 1) le_rfl (by linarith) (by positivity) one_pos
  rw [Real.one_rpow, mul_one, Real.div_rpow (abs_nonneg _) h0.le, sub_self, mul_zero, sub_zero] at h
  have h2 := mul_le_mul_of_nonneg_left h (Real.rpow_nonneg h0.le p)
  have e1 : l a ^ p * (|x| ^ p / l a ^ p) = |x| ^ p := by
    have := (Real.rpow_pos_of_pos h0 p).ne'
    field_simp
  have e2 : l a ^ p = l a ^ (p - 1) * l a := by rw [Real.rpow_sub_one h0.ne']; field_simp
  rw [e1] at h2
  refine le_trans ?_ h2
  have h3 : p * l a ^ (p - 1) * x ≤ p * l a ^ (p - 1) * |x| := mul_le_mul_of_nonneg_left (le_abs_self x) (by positivity)
  have e3 : l a ^ p * (1 + p * (|x| / l a - 1)) = l a ^ p + p * l a ^ (p - 1) * |x| - p * l a ^ p := by
    rw [e2]; field_simp
    ring
  rw [e3, mul_sub, mul_assoc p _ (l a), ← e2]
  linarith

/-- A diagonal matrix plus a dyad: determinant. -/
theorem det_diagonal_add_dyad {l : Fin 3 → ℝ} (hl : Positive l) (a b : Fin 3 → ℝ) :
    (diagonal l + vecMulVec a b).det = l 0 * l 1 * l 2 * (1 + ∑ k, a k * b k / l k) := by
  have h0 := (hl 0).ne'
  have h1 := (hl 1).ne'
  have h2 := (hl 2).ne'
  simp only [det_fin_three, Matrix.add_apply, vecMulVec_apply, diagonal_apply, Fin.sum_univ_three]
  simp
  field_simp
  ring

/-- A diagonal matrix plus a dyad: inverse (Sherman and Morrison). -/
theorem inv_diagonal_add_dyad {l : Fin 3 → ℝ} (hl : Positive l) (a b : Fin 3 → ℝ) (hr : 1 + ∑ k, a k * b k / l k ≠ 0)
    {K : Ten2 ℝ} (hK : K * (diagonal l + vecMulVec a b) = 1) (k : Fin 3) :
    K k k = (1 + ∑ k, a k * b k / l k - a k * b k / l k) / (l k * (1 + ∑ k, a k * b k / l k)) := by
  set r := 1 + ∑ k, a k * b k / l k with hrd
  have hN : (diagonal l + vecMulVec a b) * (diagonal (fun k => 1 / l k) - (1 / r) • vecMulVec (fun k => a k / l k) fun k => b k / l k) = 1 := by
    have e1 : (diagonal l : Ten2 ℝ) * diagonal (fun k => 1 / l k) = 1 := by
      rw [diagonal_mul_diagonal, ← diagonal_one]
      congr 1; funext k; exact mul_one_div_cancel (hl k).ne'
    have e2 : (diagonal l : Ten2 ℝ) * vecMulVec (fun k => a k / l k) (fun k => b k / l k) = vecMulVec a fun k => b k / l k := by
      ext i j
      rw [diagonal_mul, vecMulVec_apply, vecMulVec_apply, ← mul_assoc, mul_div_cancel₀ _ (hl i).ne']
    have e3 : vecMulVec a b * (diagonal (fun k => 1 / l k) : Ten2 ℝ) = vecMulVec a fun k => b k / l k := by
      ext i j
      rw [mul_diagonal, vecMulVec_apply, vecMulVec_apply]; ring
    have e4 : vecMulVec a b * vecMulVec (fun k => a k / l k) (fun k => b k / l k) = (r - 1) • vecMulVec a fun k => b k / l k := by
      have : r - 1 = ∑ k, a k * b k / l k := by rw [hrd]; ring
      ext i j
      rw [this, mul_apply]
      simp only [vecMulVec_apply, Matrix.smul_apply, smul_eq_mul, Fin.sum_univ_three]
      ring
    rw [Matrix.mul_sub, Matrix.add_mul, Matrix.mul_smul, Matrix.add_mul, e1, e2, e3, e4]
    ext i j
    simp only [Matrix.sub_apply, Matrix.add_apply, Matrix.smul_apply, smul_eq_mul]
    field_simp
    ring
  rw [left_inv_eq_right_inv hK hN, Matrix.sub_apply, diagonal_apply_eq, Matrix.smul_apply, vecMulVec_apply, smul_eq_mul]
  have := (hl k).ne'
  field_simp

/-- The isochoric powers of the singular values satisfy the gradient inequality along rank-one increments. -/
theorem isochoric_rank_one {R Q R' Q' : Ten2 ℝ} (hR : Orthogonal R) (hQ : Orthogonal Q) (hR' : Orthogonal R') (hQ' : Orthogonal Q')
    {l m : Fin 3 → ℝ} (hl : Positive l) (hm : Positive m) (a b : Fin 3 → ℝ)
    (hG : R' * diagonal m * Q'ᵀ = R * diagonal l * Qᵀ + vecMulVec a b)
    (hdet : 0 < (R * diagonal l * Qᵀ).det * (R' * diagonal m * Q'ᵀ).det) {p : ℝ} (hp : 3 / 2 ≤ p ∨ p ≤ -3) :
    ∑ k, l k ^ p * (l 0 * l 1 * l 2) ^ (-p / 3) * (1 + p * ((Rᵀ * vecMulVec a b * Q) k k / l k - (∑ j, (Rᵀ * vecMulVec a b * Q) j j / l j) / 3)) ≤
      ∑ k, m k ^ p * (m 0 * m 1 * m 2) ^ (-p / 3) := by
  have hJ : 0 < l 0 * l 1 * l 2 := mul_pos (mul_pos (hl 0) (hl 1)) (hl 2)
  have hK : 0 < m 0 * m 1 * m 2 := mul_pos (mul_pos (hm 0) (hm 1)) (hm 2)
  have hab : Rᵀ * vecMulVec a b * Q = vecMulVec (Rᵀ *ᵥ a) (Qᵀ *ᵥ b) := by
    rw [mul_vecMulVec, vecMulVec_mul, ← mulVec_transpose]
  have hM : Rᵀ * (R' * diagonal m * Q'ᵀ) * Q = diagonal l + vecMulVec (Rᵀ *ᵥ a) (Qᵀ *ᵥ b) := by
    rw [hG, Matrix.mul_add, Matrix.add_mul, svd_diag hR hQ, hab]
  set α := Rᵀ *ᵥ a
  set β := Qᵀ *ᵥ b
  have hdR : ∀ {X : Ten2 ℝ}, Orthogonal X → X.det * X.det = 1 := by
    intro X hX
    have h : Xᵀ * X = 1 := hX
    have := congrArg Matrix.det h
    rwa [Matrix.det_mul, Matrix.det_transpose, Matrix.det_one] at this
  have hds : ∀ {X Y : Ten2 ℝ} (n : Fin 3 → ℝ), (X * diagonal n * Yᵀ).det = X.det * Y.det * (n 0 * n 1 * n 2) := by
    intro X Y n
    rw [Matrix.det_mul, Matrix.det_mul, Matrix.det_transpose, det_diagonal, Fin.prod_univ_three]; ring
  have hd2 : R.det * Q.det * (R'.det * Q'.det * (m 0 * m 1 * m 2)) = l 0 * l 1 * l 2 * (1 + ∑ k, α k * β k / l k) := by
    rw [← det_diagonal_add_dyad hl, ← hM, Matrix.det_mul, Matrix.det_mul, Matrix.det_transpose, ← hds]; ring
  set r := 1 + ∑ k, α k * β k / l k with hrd
  have hs : R.det * Q.det * (R'.det * Q'.det) = 1 := by
    rw [hds, hds] at hdet
    have h1 : (R.det * Q.det * (R'.det * Q'.det)) * (R.det * Q.det * (R'.det * Q'.det)) = 1 := by
      have e1 := hdR hR; have e2 := hdR hQ; have e3 := hdR hR'; have e4 := hdR hQ'
      calc _ = (R.det * R.det) * (Q.det * Q.det) * ((R'.det * R'.det) * (Q'.det * Q'.det)) := by ring
        _ = 1 := by rw [e1, e2, e3, e4]; norm_num
    have h2 : 0 < R.det * Q.det * (R'.det * Q'.det) := by
      by_contra h
      push Not at h
      have : R.det * Q.det * (l 0 * l 1 * l 2) * (R'.det * Q'.det * (m 0 * m 1 * m 2)) =
        R.det * Q.det * (R'.det * Q'.det) * ((l 0 * l 1 * l 2) * (m 0 * m 1 * m 2)) := by ring
      rw [this] at hdet
      have := mul_nonpos_of_nonpos_of_nonneg h (mul_pos hJ hK).le
      linarith
    nlinarith
  have hrK : m 0 * m 1 * m 2 = l 0 * l 1 * l 2 * r := by
    rw [← hd2, ← mul_assoc, hs, one_mul]
  have hr : 0 < r := by
    by_contra h
    push Not at h
    have := mul_nonpos_of_nonneg_of_nonpos hJ.le h
    linarith
  rw [hab]
  simp only [vecMulVec_apply]
  have hr1 : ∑ k, α k * β k / l k = r - 1 := by rw [hrd]; ring
  rw [hr1]
  set J := l 0 * l 1 * l 2
  have hKp : (m 0 * m 1 * m 2) ^ (-p / 3) = J ^ (-p / 3) * r ^ (-p / 3) := by rw [hrK, Real.mul_rpow hJ.le hr.le]
  rw [hKp, ← Finset.sum_mul]
  rcases hp with hp | hp
  · -- positive exponents
    have h1 := diagonal_le_singular hR' hQ' hR hQ hm (p := p) (by linarith)
    rw [hM] at h1
    refine le_trans ?_ (mul_le_mul_of_nonneg_right h1 (by positivity))
    rw [Finset.sum_mul]
    refine Finset.sum_le_sum fun k _ => ?_
    have hlk := hl k
    have e : (diagonal l + vecMulVec α β) k k = l k * (1 + α k * β k / l k) := by
      rw [Matrix.add_apply, diagonal_apply_eq, vecMulVec_apply]; field_simp
    rw [e, abs_mul, abs_of_pos hlk, Real.mul_rpow hlk.le (abs_nonneg _)]
    set y := 1 + α k * β k / l k
    have h2 := power_young (p := p) (q := p / 3) (y := |y|) (r := r) (by linarith) (by linarith) (abs_nonneg _) hr
    have h3 : p * (y - 1) ≤ p * (|y| - 1) := mul_le_mul_of_nonneg_left (by linarith [le_abs_self y]) (by linarith)
    have e2 : -(p / 3) = -p / 3 := by ring
    rw [e2] at h2
    have hy : α k * β k / l k = y - 1 := by simp [y]
    rw [hy]
    calc l k ^ p * J ^ (-p / 3) * (1 + p * (y - 1 - (r - 1) / 3)) ≤ l k ^ p * J ^ (-p / 3) * (|y| ^ p * r ^ (-p / 3)) :=
          mul_le_mul_of_nonneg_left (by linarith) (by positivity)
      _ = _ := by ring
  · -- negative exponents
    have hm' : Positive fun k => (m k)⁻¹ := fun k => inv_pos.2 (hm k)
    have h1 := diagonal_le_singular hQ' hR' hQ hR hm' (p := -p) (by linarith)
    have hI : (Qᵀ * (Q' * diagonal (fun k => (m k)⁻¹) * R'ᵀ) * R) * (diagonal l + vecMulVec α β) = 1 := by
      rw [← hM]
      have e1 : R * Rᵀ = 1 := mul_eq_one_comm.1 hR
      have e2 : Qᵀ * Q = 1 := hQ
      have e3 : R'ᵀ * R' = 1 := hR'
      have e4 : Q' * Q'ᵀ = 1 := mul_eq_one_comm.1 hQ'
      have e5 : (diagonal fun k => (m k)⁻¹ : Ten2 ℝ) * diagonal m = 1 := by
        rw [diagonal_mul_diagonal, ← diagonal_one]
        congr 1; funext k; exact inv_mul_cancel₀ (hm k).ne'
      calc _ = Qᵀ * (Q' * (diagonal (fun k => (m k)⁻¹) * (R'ᵀ * (R * Rᵀ) * R') * diagonal m) * Q'ᵀ) * Q := by
            simp only [Matrix.mul_assoc]
        _ = 1 := by rw [e1, Matrix.mul_one, e3, Matrix.mul_one, e5, Matrix.mul_one, e4, Matrix.mul_one, e2]
    have e0 : ∀ k, ((m k)⁻¹) ^ (-p) = m k ^ p := fun k => by
      rw [Real.inv_rpow (hm k).le, Real.rpow_neg (hm k).le, inv_inv]
    simp only [e0] at h1
    refine le_trans ?_ (mul_le_mul_of_nonneg_right h1 (by positivity))
    rw [Finset.sum_mul]
    refine Finset.sum_le_sum fun k _ => ?_
    have hlk := hl k
    rw [inv_diagonal_add_dyad hl α β hr.ne' hI k, ← hrd]
    set y := r - α k * β k / l k
    rw [abs_div, abs_of_pos (mul_pos hlk hr), Real.div_rpow (abs_nonneg _) (by positivity), Real.mul_rpow hlk.le hr.le]
    have h2 := power_young (p := -p) (q := -(2 * p) / 3) (y := |y|) (r := r) (by linarith) (by linarith) (abs_nonneg _) hr
    have h3 : -p * (y - 1) ≤ -p * (|y| - 1) := mul_le_mul_of_nonneg_left (by linarith [le_abs_self y]) (by linarith)
    have hy : α k * β k / l k = r - y := by simp [y]
    rw [hy]
    have e1 : |y| ^ (-p) / (l k ^ (-p) * r ^ (-p)) * (J ^ (-p / 3) * r ^ (-p / 3)) =
        l k ^ p * J ^ (-p / 3) * (|y| ^ (-p) * r ^ (-(-(2 * p) / 3))) := by
      have e2 : r ^ (-(-(2 * p) / 3)) = r ^ p * r ^ (-p / 3) := by
        rw [← Real.rpow_add hr]; congr 1; ring
      rw [e2, Real.rpow_neg hlk.le, Real.rpow_neg hr.le]
      field_simp
    rw [e1]
    exact mul_le_mul_of_nonneg_left (by linarith) (by positivity)

end Props
