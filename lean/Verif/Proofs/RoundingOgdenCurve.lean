import Verif.Model.RoundingOgdenCurve
import Verif.Props.RoundingLab
import Verif.Props.RoundingStretches
import Verif.Props.LabOgden

/-! # Lemmas for the simulated curves of Ogden materials -/

namespace Props
open Spec Hel Rnd

variable {Z : Type}

/-- The normal force from stresses with errors. -/
theorem loadStress_error (R : RoundingSqrt) {F P : Full2 ℝ} {l t p0 p2 e0 e2 g0 g2 : ℝ} (hl : 0 < l) (ht : 0 ≤ t)
    (hF0 : F 0 0 = l) (hF2 : F 2 2 = t) (h0 : |P 0 0 - p0| ≤ e0) (h2 : |P 2 2 - p2| ≤ e2) (hg0 : |p0| ≤ g0) (hg2 : |p2| ≤ g2) :
    |R.stress F P - (p0 - p2 * t / l)| ≤ (1 + R.u) ^ 3 * (g0 + e0 + (g2 + e2) * t / l) - (g0 + g2 * t / l) := by
  have hu := R.u_nonneg
  set m := R.mul (P 2 2) t with hm
  set d := R.div m l with hd
  have e : R.stress F P = R.sub (P 0 0) d := by
    change R.sub (P 0 0) (R.div (R.mul (P 2 2) (F 2 2)) (F 0 0)) = _
    rw [hF0, hF2]
  rw [e]
  have hr : 0 ≤ t / l := div_nonneg ht hl.le
  have a1 := R.mul_error (P 2 2) t
  have a2 := R.div_error m l hl.ne'
  have a3 := R.sub_error (P 0 0) d
  rw [← hm] at a1
  rw [← hd] at a2
  have hP2 : |P 2 2| ≤ g2 + e2 := by
    calc |P 2 2| = |(P 2 2 - p2) + p2| := by ring_nf
      _ ≤ _ := (abs_add_le _ _).trans (by linarith)
  have b0 : |P 2 2 * t - p2 * t| ≤ e2 * t := by
    rw [← sub_mul, abs_mul, abs_of_nonneg ht]
    exact mul_le_mul_of_nonneg_right h2 ht
  have b1 : |P 2 2 * t| ≤ (g2 + e2) * t := by
    rw [abs_mul, abs_of_nonneg ht]
    exact mul_le_mul_of_nonneg_right hP2 ht
  have b2 : |m - p2 * t| ≤ (1 + R.u) * ((g2 + e2) * t) - g2 * t := by
    calc |m - p2 * t| = |(m - P 2 2 * t) + (P 2 2 * t - p2 * t)| := by ring_nf
      _ ≤ _ := (abs_add_le _ _).trans (by nlinarith [mul_le_mul_of_nonneg_left b1 hu])
  have hp2 : |p2 * t| ≤ g2 * t := by
    rw [abs_mul, abs_of_nonneg ht]
    exact mul_le_mul_of_nonneg_right hg2 ht
  have b3 : |m| ≤ (1 + R.u) * ((g2 + e2) * t) := by
    calc |m| = |(m - p2 * t) + p2 * t| := by ring_nf
      _ ≤ _ := (abs_add_le _ _).trans (by linarith)
  have c1 : |m / l - p2 * t / l| ≤ ((1 + R.u) * ((g2 + e2) * t) - g2 * t) / l := by
    rw [← sub_div, abs_div, abs_of_pos hl]
    exact div_le_div_of_nonneg_right b2 hl.le
  have c2 : |m / l| ≤ (1 + R.u) * ((g2 + e2) * t) / l := by
    rw [abs_div, abs_of_pos hl]
    exact div_le_div_of_nonneg_right b3 hl.le
  have c3 : |d - p2 * t / l| ≤ (1 + R.u) ^ 2 * ((g2 + e2) * t / l) - g2 * t / l := by
    calc |d - p2 * t / l| = |(d - m / l) + (m / l - p2 * t / l)| := by ring_nf
      _ ≤ R.u * ((1 + R.u) * ((g2 + e2) * t) / l) + ((1 + R.u) * ((g2 + e2) * t) - g2 * t) / l :=
        (abs_add_le _ _).trans (add_le_add (a2.trans (mul_le_mul_of_nonneg_left c2 hu)) c1)
      _ = _ := by ring
  have hp2l : |p2 * t / l| ≤ g2 * t / l := by
    rw [abs_div, abs_of_pos hl]
    exact div_le_div_of_nonneg_right hp2 hl.le
  have he0 : 0 ≤ e0 := (abs_nonneg _).trans h0
  have hg : 0 ≤ g0 := (abs_nonneg _).trans hg0
  have d1 : |P 0 0 - d - (p0 - p2 * t / l)| ≤ e0 + ((1 + R.u) ^ 2 * ((g2 + e2) * t / l) - g2 * t / l) := by
    calc |P 0 0 - d - (p0 - p2 * t / l)| = |(P 0 0 - p0) - (d - p2 * t / l)| := by ring_nf
      _ ≤ _ := (abs_sub _ _).trans (add_le_add h0 c3)
  have d2 : |P 0 0 - d| ≤ g0 + e0 + (1 + R.u) ^ 2 * ((g2 + e2) * t / l) := by
    calc |P 0 0 - d| = |(P 0 0 - d - (p0 - p2 * t / l)) + (p0 - p2 * t / l)| := by ring_nf
      _ ≤ |P 0 0 - d - (p0 - p2 * t / l)| + (|p0| + |p2 * t / l|) := (abs_add_le _ _).trans (add_le_add le_rfl (abs_sub _ _))
      _ ≤ _ := by linarith
  calc |R.sub (P 0 0) d - (p0 - p2 * t / l)| = |(R.sub (P 0 0) d - (P 0 0 - d)) + (P 0 0 - d - (p0 - p2 * t / l))| := by ring_nf
    _ ≤ R.u * (g0 + e0 + (1 + R.u) ^ 2 * ((g2 + e2) * t / l)) + (e0 + ((1 + R.u) ^ 2 * ((g2 + e2) * t / l) - g2 * t / l)) :=
      (abs_add_le _ _).trans (add_le_add (a3.trans (mul_le_mul_of_nonneg_left d2 hu)) d1)
    _ ≤ _ := by
      have : (1 + R.u) * (g0 + e0) ≤ (1 + R.u) ^ 3 * (g0 + e0) :=
        mul_le_mul_of_nonneg_right (le_self_pow₀ (by linarith) (by norm_num)) (by linarith)
      have e4 : (1 + R.u) ^ 3 * (g0 + e0 + (g2 + e2) * t / l) =
        (1 + R.u) ^ 3 * (g0 + e0) + (1 + R.u) * ((1 + R.u) ^ 2 * ((g2 + e2) * t / l)) := by ring
      rw [e4]
      linarith

/-- The spectrum of a diagonal deformation. -/
theorem spectrum_diagonal {d : Fin 3 → ℝ} {a b : ℝ} (h : ∀ i, a ≤ d i ^ 2 ∧ d i ^ 2 ≤ b) :
    SpectrumIn (Spec.cauchyGreen (Matrix.diagonal d)) a b := by
  intro x
  have e : ∑ i, ∑ j, x i * Spec.cauchyGreen (Matrix.diagonal d) i j * x j = ∑ i, d i ^ 2 * x i ^ 2 := by
    simp only [Spec.cauchyGreen, Matrix.diagonal_transpose, Matrix.diagonal_mul_diagonal, Fin.sum_univ_three, Matrix.diagonal_apply]
    simp
    ring
  rw [e, Finset.mul_sum, Finset.mul_sum]
  exact ⟨Finset.sum_le_sum fun i _ => mul_le_mul_of_nonneg_right (h i).1 (sq_nonneg _),
    Finset.sum_le_sum fun i _ => mul_le_mul_of_nonneg_right (h i).2 (sq_nonneg _)⟩

theorem frob_diagonal (d : Fin 3 → ℝ) : frob (Matrix.diagonal d) ^ 2 = ∑ i, d i ^ 2 := by
  rw [frob_sq]
  simp [Fin.sum_univ_three, Matrix.diagonal_apply]

/-- The principal stresses in terms of the derivative of the energy. -/
theorem ogden_principal (mu alpha : List ℝ) {x : ℝ} (hx : 0 < x) :
    ((mu.zip alpha).map fun p => 2 * p.1 / p.2 * x ^ (p.2 - 1)).sum = 2 * x * ogdenRate mu alpha (x ^ 2) := by
  unfold ogdenRate
  induction mu.zip alpha with
  | nil => simp
  | cons p l ih =>
    simp only [List.map_cons, List.sum_cons]
    rw [ih, mul_add]
    congr 1
    have e : x ^ (p.2 - 1) = x * (x ^ 2) ^ ((p.2 - 2) / 2) := by
      rw [← Real.rpow_natCast, ← Real.rpow_mul hx.le, mul_comm, ← Real.rpow_add_one hx.ne']
      congr 1
      push_cast
      ring
    rw [e]
    ring

/-- The computed deformation gradient is diagonal. -/
theorem ogden_computedF_diagonal (R : RoundingSqrt) (k : LoadKind) (l : ℝ) :
    k.computedF R l = Matrix.diagonal fun i => k.computedF R l i i := by
  ext i j
  cases k <;> fin_cases i <;> fin_cases j <;> rfl

theorem ogdenRate_le (mu alpha : List ℝ) {x : ℝ} (hx : 0 ≤ x) : |ogdenRate mu alpha x| ≤ ogdenRateP mu alpha x := by
  unfold ogdenRate ogdenRateP
  induction mu.zip alpha with
  | nil => simp
  | cons p l ih =>
    simp only [List.map_cons, List.sum_cons]
    refine (abs_add_le _ _).trans (add_le_add ?_ ih)
    rw [abs_mul, abs_of_nonneg (Real.rpow_nonneg hx _)]

end Props
