import Verif.Proofs.RoundingMaj

/-! Rounded powers, and the programs of the distortional and the dilatational space. -/

namespace Hel.Rnd
open Spec

/-! ### powers -/

theorem exp_close {a b x δ M : ℝ} (hδ : 0 ≤ δ) (hM : |b - a| ≤ M) (h : |x - Real.exp b| ≤ δ * Real.exp b) :
    |x - Real.exp a| ≤ ((1 + δ) * Real.exp M - 1) * Real.exp a := by
  have e : Real.exp b = Real.exp (b - a) * Real.exp a := by rw [← Real.exp_add, sub_add_cancel]
  have ha := Real.exp_pos a
  obtain ⟨hM1, hM2⟩ := abs_le.1 hM
  have h1 : Real.exp (b - a) ≤ Real.exp M := Real.exp_le_exp.2 hM2
  have h2 : Real.exp (-M) ≤ Real.exp (b - a) := Real.exp_le_exp.2 hM1
  have h3 : 1 - Real.exp (-M) ≤ Real.exp M - 1 := by
    have h4 : Real.exp M * Real.exp (-M) = 1 := by rw [← Real.exp_add, add_neg_cancel, Real.exp_zero]
    nlinarith [sq_nonneg (Real.exp M - 1), Real.exp_pos M, Real.exp_pos (-M), sq_nonneg (Real.exp (-M) - 1),
      Real.add_one_le_exp M, Real.add_one_le_exp (-M)]
  obtain ⟨hx1, hx2⟩ := abs_le.1 h
  set r := Real.exp (b - a) with hr
  have hr0 : 0 < r := Real.exp_pos _
  rw [e] at hx1 hx2
  have h5 : δ * r ≤ δ * Real.exp M := by gcongr
  rw [abs_le]
  constructor
  · have : -(((1 + δ) * Real.exp M - 1) * Real.exp a) ≤ (r - 1 - δ * r) * Real.exp a := by
      rw [← neg_mul]
      refine mul_le_mul_of_nonneg_right ?_ ha.le
      linarith
    nlinarith
  · have : (r - 1 + δ * r) * Real.exp a ≤ ((1 + δ) * Real.exp M - 1) * Real.exp a := by
      refine mul_le_mul_of_nonneg_right ?_ ha.le
      linarith
    nlinarith

/-- The factor of `powFactor`. -/
noncomputable def powQ (u e d : ℝ) : ℝ := (1 + u) ^ 2 * (1 / (1 - e)) ^ (1 + u) * Real.exp (u / 3 * |Real.log d|)

theorem powQ_eq {u e d : ℝ} (he : e < 1) :
    powQ u e d = (1 + ((1 + u) ^ 2 - 1)) * Real.exp ((1 + u) * -Real.log (1 - e) + u / 3 * |Real.log d|) := by
  have h : 0 < 1 / (1 - e) := by apply one_div_pos.2; linarith
  rw [powQ, Real.rpow_def_of_pos h, Real.exp_add, one_div, Real.log_inv]
  ring_nf

theorem le_powQ {u e d : ℝ} (hu : 0 ≤ u) (he0 : 0 ≤ e) (he : e < 1) : 1 / (1 - e) ≤ powQ u e d := by
  have h : 1 ≤ 1 / (1 - e) := by rw [le_div_iff₀] <;> linarith
  have h1 : 1 / (1 - e) ≤ (1 / (1 - e)) ^ (1 + u) := by
    nth_rewrite 1 [← Real.rpow_one (1 / (1 - e))]
    exact Real.rpow_le_rpow_of_exponent_le h (by linarith)
  have h2 : 1 ≤ Real.exp (u / 3 * |Real.log d|) := Real.one_le_exp (by positivity)
  have h3 : 1 ≤ (1 + u) ^ 2 := one_le_pow₀ (by linarith)
  unfold powQ
  have h4 : 0 ≤ (1 / (1 - e)) ^ (1 + u) := by linarith
  calc _ ≤ 1 * (1 / (1 - e)) ^ (1 + u) * 1 := by linarith
    _ ≤ _ := by gcongr

/-- The power of a number, which is known up to a relative error `e`, to a rounded exponent. -/
theorem pow_accuracy (R : Rounding) {d d' e y y' : ℝ} (hd : 0 < d) (hd' : |d' - d| ≤ e * d) (he0 : 0 ≤ e) (he : e < 1)
    (hy : |y| = 1 / 3) (hy' : |y' - y| ≤ R.u * |y|) :
    |R.pow d' y' - d ^ y| ≤ (powQ R.u e d - 1) * |d ^ y| := by
  have hu := R.u_nonneg
  obtain ⟨h1, h2⟩ := abs_le.1 hd'
  have hpos : 0 < d' := by nlinarith
  have hlog : |Real.log d' - Real.log d| ≤ -Real.log (1 - e) := by
    rw [← Real.log_div hpos.ne' hd.ne', abs_le, neg_neg]
    constructor
    · refine Real.log_le_log (by linarith) ?_
      rw [le_div_iff₀ hd]; linarith
    · rw [← Real.log_inv]
      refine Real.log_le_log (by positivity) ?_
      rw [div_le_iff₀ hd]
      have : d' ≤ (1 + e) * d := by linarith
      refine this.trans ?_
      gcongr
      rw [← one_div, le_div_iff₀ (by linarith)]
      nlinarith
  have hL : 0 ≤ -Real.log (1 - e) := (abs_nonneg _).trans hlog
  have hy1 : |y'| ≤ 1 + R.u := by
    have := abs_sub_abs_le_abs_sub y' y
    rw [hy] at this hy'
    linarith
  have hM : |Real.log d' * y' - Real.log d * y| ≤ (1 + R.u) * -Real.log (1 - e) + R.u / 3 * |Real.log d| := by
    rw [show Real.log d' * y' - Real.log d * y = y' * (Real.log d' - Real.log d) + (y' - y) * Real.log d by ring]
    refine (abs_add_le _ _).trans ?_
    rw [abs_mul, abs_mul]
    have : |y' - y| ≤ R.u / 3 := by rw [hy] at hy'; linarith
    gcongr
  have hp := R.pow_error d' y' hpos
  rw [Real.rpow_def_of_pos hpos] at hp
  have hδ : 0 ≤ (1 + R.u) ^ 2 - 1 := sub_nonneg.2 (one_le_pow₀ (by linarith))
  have := exp_close hδ hM hp
  rw [← Real.rpow_def_of_pos hd, ← powQ_eq he] at this
  rwa [abs_of_pos (Real.rpow_pos_of_pos hd y)]

/-! ### exact values -/

theorem T2_inv_exact {C : Vec6 ℝ} {d : ℝ} (hd : d = (T2 C).det) (h : d ≠ 0) :
    T2 (inv (fun x => x / d) C) = (T2 C)⁻¹ := by
  subst hd
  rw [inv_exact, Props.C04_inv_determinant (T2_stores C)]
  exact T2_eq (Props.C04_inv (T2_stores C) h)

theorem distS_exact (p : TOD ℝ) (C : Vec6 ℝ) {d t : ℝ} (hd : d = (T2 C).det) (h : d ≠ 0)
    (ht : t = (T2 C).det ^ (-1 / 3 : ℝ)) :
    T2 (Rnd.distS t (fun x => x / d) p C) = Spec.distS (T2 C) (Props.todGradT p (unimodular (T2 C))) := by
  have e : Rnd.distS t (fun x => x / d) p C = fun a => (2 * t) * invGrad p (fun a => t * C a) a -
      (ddot (fun a => (2 * t) * invGrad p (fun a => t * C a) a) C / 3) * inv (fun x => x / d) C a := rfl
  rw [e, T2_sub, T2_smul, T2_smul, T2_inv_exact hd h, ddot_exact, T2_ddot, T2_smul, invGrad_exact, T2_smul, ht]
  rfl

theorem dilS_exact (p : TOD ℝ) (C : Vec6 ℝ) {d t : ℝ} (hd : d = (T2 C).det) (h : d ≠ 0)
    (ht : t = (T2 C).det ^ (1 / 3 : ℝ)) :
    T2 (Rnd.dilS t (fun x => x / d) p C) =
      Spec.dilS (T2 C) (Props.todGradT p ((T2 C).det ^ (1 / 3 : ℝ) • T2 C)) := by
  have e : Rnd.dilS t (fun x => x / d) p C = fun a =>
      (trace (fun a => (2 * t) * invGrad p (fun a => t * C a) a) / 3) * inv (fun x => x / d) C a := rfl
  rw [e, T2_smul, T2_inv_exact hd h, trace_exact, T2_trace, T2_smul, invGrad_exact, T2_smul, ht]
  rfl

/-! ### majorants -/

namespace Maj

theorem val_distS (p : TOD ℝ) (C : Vec6 Maj) (t : Maj) (d : ℝ) :
    T2 (val6 (Rnd.distS t (fun x => ⟨x.val / d⟩) p C)) =
      (2 * t.val) • (par p).gradP (t.val • T2 (val6 C)) +
        (contract22 ((2 * t.val) • (par p).gradP (t.val • T2 (val6 C))) (T2 (val6 C)) / 3 / d) • cofP (T2 (val6 C)) := by
  have hS : T2 (val6 fun a => (lit 2 : Maj) * t * invGrad p (fun a => t * C a) a) =
      (2 * t.val) • (par p).gradP (t.val • T2 (val6 C)) := by
    have e : (val6 fun a => (lit 2 : Maj) * t * invGrad p (fun a => t * C a) a) =
        fun a => (2 * t.val) * val6 (invGrad p fun a => t * C a) a := by
      funext a; simp [val6]
    rw [e, T2_smul, val_invGrad]
    congr 2
  ext i j
  have h1 := congrFun (congrFun hS i) j
  have h2 := val_inv d C i j
  have h3 : (ddot (fun a => (lit 2 : Maj) * t * invGrad p (fun a => t * C a) a) C).val =
      contract22 ((2 * t.val) • (par p).gradP (t.val • T2 (val6 C))) (T2 (val6 C)) := by
    rw [val_ddot, T2_ddot, hS]
  rw [Matrix.add_apply, ← h1, Matrix.smul_apply, smul_eq_mul, ← h3]
  change (_ : ℝ) + (_ / ((3 : ℕ+) : ℕ)) * (inv (fun x => ⟨x.val / d⟩) C (tab i j)).val = _
  rw [h2]
  push_cast
  change (_ : ℝ) + _ = (_ : ℝ) + _
  congr 1
  ring

theorem val_dilS (p : TOD ℝ) (C : Vec6 Maj) (t : Maj) (d : ℝ) :
    T2 (val6 (Rnd.dilS t (fun x => ⟨x.val / d⟩) p C)) =
        (((2 * t.val) • (par p).gradP (t.val • T2 (val6 C))).trace / 3 / d) • cofP (T2 (val6 C)) := by
  have hS : T2 (val6 fun a => (lit 2 : Maj) * t * invGrad p (fun a => t * C a) a) =
      (2 * t.val) • (par p).gradP (t.val • T2 (val6 C)) := by
    have e : (val6 fun a => (lit 2 : Maj) * t * invGrad p (fun a => t * C a) a) =
        fun a => (2 * t.val) * val6 (invGrad p fun a => t * C a) a := by
      funext a; simp [val6]
    rw [e, T2_smul, val_invGrad]
    congr 2
  ext i j
  have h2 := val_inv d C i j
  have h3 : (trace (fun a => (lit 2 : Maj) * t * invGrad p (fun a => t * C a) a)).val =
      ((2 * t.val) • (par p).gradP (t.val • T2 (val6 C))).trace := by
    rw [val_trace, T2_trace, hS]
  rw [Matrix.smul_apply, smul_eq_mul, ← h3]
  change (_ / ((3 : ℕ+) : ℕ) : ℝ) * (inv (fun x => ⟨x.val / d⟩) C (tab i j)).val = _
  rw [h2]
  push_cast
  ring

end Maj

/-! ### numbers of roundings -/

namespace Cnt

theorem le_det {A : Vec6 Cnt} {a b : ℕ} (h : ∀ i, Le (A i) a b) : Le (det A) (3 * a) (3 * b + 7) := by
  have h0 := h 0; have h1 := h 1; have h2 := h 2; have h3 := h 3; have h4 := h 4; have h5 := h 5
  simp only [Le] at h0 h1 h2 h3 h4 h5
  constructor
  · simp only [det, a_sub, a_add, a_mul, a_sq, a_lit]; omega
  · simp only [det, b_sub, b_add, b_mul, b_sq, b_lit]; omega

/-- One more of both. -/
def divQ (x : Cnt) : Cnt := ⟨x.a + 1, x.b + 1⟩

theorem le_inv {A : Vec6 Cnt} {a b : ℕ} (h : ∀ i, Le (A i) a b) (i : Fin 6) :
    Le (inv divQ A i) (2 * a + 1) (2 * b + 3) := by
  have h1 := h (![1, 0, 0, 4, 3, 3] i)
  have h2 := h (![2, 2, 1, 5, 5, 4] i)
  have h3 := h (![4, 5, 3, 3, 0, 1] i)
  have h4 := h (![4, 5, 3, 2, 4, 5] i)
  simp only [Le] at h1 h2 h3 h4
  constructor
  · simp only [inv, divQ, a_sub, a_mul]; omega
  · simp only [inv, divQ, b_sub, b_mul]; omega

theorem le_Sb (p : TOD ℝ) {C : Vec6 Cnt} {b : ℕ} (h : ∀ i, Le (C i) 0 b) (i : Fin 6) :
    Le ((lit 2 : Cnt) * ⟨1, 0⟩ * invGrad p (fun a => (⟨1, 0⟩ : Cnt) * C a) i) 3 (2 * b + 24) := by
  have h1 : ∀ i, Le ((⟨1, 0⟩ : Cnt) * C i) 1 (b + 1) := fun i => by
    have := h i
    simp only [Le] at this ⊢
    simp only [a_mul, b_mul]
    omega
  have h2 := le_invGrad p h1 i
  simp only [Le, a_mul, b_mul, a_lit, b_lit] at h2 ⊢
  omega

theorem le_distS (p : TOD ℝ) {C : Vec6 Cnt} {b : ℕ} (h : ∀ i, Le (C i) 0 b) (i : Fin 6) :
    Le (Rnd.distS ⟨1, 0⟩ divQ p C i) 4 (5 * b + 39) := by
  have h1 := le_Sb p h i
  have h2 := le_ddot (le_Sb p h) h
  have h3 := le_inv h i
  simp only [Le, Rnd.distS, a_sub, b_sub, a_mul, b_mul, a_divNat, b_divNat] at h1 h2 h3 ⊢
  omega

theorem le_dilS (p : TOD ℝ) {C : Vec6 Cnt} {b : ℕ} (h : ∀ i, Le (C i) 0 b) (i : Fin 6) :
    Le (Rnd.dilS ⟨1, 0⟩ divQ p C i) 4 (4 * b + 33) := by
  have h2 := le_trace (le_Sb p h)
  have h3 := le_inv h i
  simp only [Le, Rnd.dilS, a_mul, b_mul, a_divNat, b_divNat] at h2 h3 ⊢
  omega

end Cnt

end Hel.Rnd
