import Verif.Spec.RoundingStretches
import Verif.Model.RoundingStretches
import Verif.Proofs.RoundingLab
import Verif.Proofs.StretchesFramework
import Verif.Props.Principal
import Verif.Props.EndToEnd

/-! Spectral decompositions of neighbouring matrices, and rounded stretch-based materials. -/

namespace Hel.Rnd
open Spec Matrix

/-! ### the Frobenius norm -/

theorem frob_nonneg (A : Ten2 ℝ) : 0 ≤ frob A := Real.sqrt_nonneg _

theorem frob_sq (A : Ten2 ℝ) : frob A ^ 2 = ∑ i, ∑ j, A i j ^ 2 :=
  Real.sq_sqrt (Finset.sum_nonneg fun _ _ => Finset.sum_nonneg fun _ _ => sq_nonneg _)

theorem frob_sq_trace (A : Ten2 ℝ) : frob A ^ 2 = (Aᵀ * A).trace := by
  rw [frob_sq, Matrix.trace, Finset.sum_comm]
  exact Finset.sum_congr rfl fun j _ => by
    rw [Matrix.diag_apply, Matrix.mul_apply]
    exact Finset.sum_congr rfl fun i _ => by rw [Matrix.transpose_apply, pow_two]

theorem frob_le {A : Ten2 ℝ} {c : ℝ} (hc : 0 ≤ c) (h : ∑ i, ∑ j, A i j ^ 2 ≤ c ^ 2) : frob A ≤ c :=
  Real.sqrt_le_iff.2 ⟨hc, h⟩

theorem abs_le_frob (A : Ten2 ℝ) (i j : Fin 3) : |A i j| ≤ frob A := by
  rw [frob, ← Real.sqrt_sq_eq_abs]
  refine Real.sqrt_le_sqrt ?_
  exact (Finset.single_le_sum (f := fun j => A i j ^ 2) (fun _ _ => sq_nonneg _) (Finset.mem_univ j)).trans
    (Finset.single_le_sum (f := fun i => ∑ j, A i j ^ 2) (fun _ _ => Finset.sum_nonneg fun _ _ => sq_nonneg _)
      (Finset.mem_univ i))

theorem frob_mono {A B : Ten2 ℝ} (h : ∀ i j, |A i j| ≤ |B i j|) : frob A ≤ frob B :=
  Real.sqrt_le_sqrt (Finset.sum_le_sum fun i _ => Finset.sum_le_sum fun j _ => sq_le_sq.2 (h i j))

theorem frob_smul (c : ℝ) (A : Ten2 ℝ) : frob (c • A) = |c| * frob A := by
  unfold frob
  rw [← Real.sqrt_sq_eq_abs, ← Real.sqrt_mul (sq_nonneg c), Finset.mul_sum]
  congr 1
  refine Finset.sum_congr rfl fun i _ => ?_
  rw [Finset.mul_sum]
  exact Finset.sum_congr rfl fun j _ => by rw [Matrix.smul_apply, smul_eq_mul, mul_pow]

theorem frob_add_le (A B : Ten2 ℝ) : frob (A + B) ≤ frob A + frob B := by
  refine frob_le (add_nonneg (frob_nonneg _) (frob_nonneg _)) ?_
  have h : ∑ i, ∑ j, A i j * B i j ≤ frob A * frob B := by
    have := Finset.sum_mul_sq_le_sq_mul_sq (Finset.univ : Finset (Fin 3 × Fin 3)) (fun p => A p.1 p.2) fun p => B p.1 p.2
    simp only [Fintype.sum_prod_type] at this
    rw [← frob_sq, ← frob_sq, ← mul_pow] at this
    exact (le_abs_self _).trans (abs_le_of_sq_le_sq this (mul_nonneg (frob_nonneg _) (frob_nonneg _)))
  have e : ∑ i, ∑ j, (A + B) i j ^ 2 = frob A ^ 2 + 2 * ∑ i, ∑ j, A i j * B i j + frob B ^ 2 := by
    rw [frob_sq, frob_sq, Finset.mul_sum, ← Finset.sum_add_distrib, ← Finset.sum_add_distrib]
    refine Finset.sum_congr rfl fun i _ => ?_
    rw [Finset.mul_sum, ← Finset.sum_add_distrib, ← Finset.sum_add_distrib]
    exact Finset.sum_congr rfl fun j _ => by rw [Matrix.add_apply]; ring
  rw [e]
  nlinarith

theorem frob_rotate {V U : Ten2 ℝ} (hV : Orthogonal V) (hU : Orthogonal U) (X : Ten2 ℝ) : frob (Vᵀ * X * U) = frob X := by
  have h : frob (Vᵀ * X * U) ^ 2 = frob X ^ 2 := by
    have hV' : V * Vᵀ = 1 := mul_eq_one_comm.1 hV
    have hU' : U * Uᵀ = 1 := mul_eq_one_comm.1 hU
    rw [frob_sq_trace, frob_sq_trace]
    have e : (Vᵀ * X * U)ᵀ * (Vᵀ * X * U) = Uᵀ * (Xᵀ * X * U) := by
      rw [Matrix.transpose_mul, Matrix.transpose_mul, Matrix.transpose_transpose]
      calc Uᵀ * (Xᵀ * V) * (Vᵀ * X * U) = Uᵀ * (Xᵀ * (V * Vᵀ) * X * U) := by simp only [Matrix.mul_assoc]
        _ = _ := by rw [hV', Matrix.mul_one]
    rw [e, Matrix.trace_mul_comm, Matrix.mul_assoc, hU', Matrix.mul_one]
  exact (pow_left_inj₀ (frob_nonneg _) (frob_nonneg _) two_ne_zero).1 h

theorem abs_quad_le (X : Ten2 ℝ) (x : Fin 3 → ℝ) : |∑ i, ∑ j, x i * X i j * x j| ≤ frob X * ∑ i, x i ^ 2 := by
  have := Finset.sum_mul_sq_le_sq_mul_sq (Finset.univ : Finset (Fin 3 × Fin 3)) (fun p => X p.1 p.2) fun p => x p.1 * x p.2
  simp only [Fintype.sum_prod_type] at this
  rw [← frob_sq] at this
  have e : ∑ i, ∑ j, (x i * x j) ^ 2 = (∑ i, x i ^ 2) ^ 2 := by
    rw [pow_two (∑ i, x i ^ 2), Finset.sum_mul_sum]
    exact Finset.sum_congr rfl fun i _ => Finset.sum_congr rfl fun j _ => by ring
  rw [e, ← mul_pow] at this
  have e2 : ∑ i, ∑ j, x i * X i j * x j = ∑ i, ∑ j, X i j * (x i * x j) :=
    Finset.sum_congr rfl fun i _ => Finset.sum_congr rfl fun j _ => by ring
  rw [e2]
  exact abs_le_of_sq_le_sq this (mul_nonneg (frob_nonneg _) (Finset.sum_nonneg fun _ _ => sq_nonneg _))

/-! ### spectra -/

theorem SpectrumIn.perturb {C B : Ten2 ℝ} {a b η : ℝ} (h : SpectrumIn C a b) (hB : frob (B - C) ≤ η) :
    SpectrumIn B (a - η) (b + η) := by
  intro x
  have h1 := abs_quad_le (B - C) x
  have e : ∑ i, ∑ j, x i * B i j * x j = ∑ i, ∑ j, x i * C i j * x j + ∑ i, ∑ j, x i * (B - C) i j * x j := by
    rw [← Finset.sum_add_distrib]
    refine Finset.sum_congr rfl fun i _ => ?_
    rw [← Finset.sum_add_distrib]
    exact Finset.sum_congr rfl fun j _ => by rw [Matrix.sub_apply]; ring
  have hs : 0 ≤ ∑ i, x i ^ 2 := Finset.sum_nonneg fun _ _ => sq_nonneg _
  have h2 := mul_le_mul_of_nonneg_right hB hs
  obtain ⟨h3, h4⟩ := abs_le.1 (h1.trans h2)
  obtain ⟨h5, h6⟩ := h x
  rw [e]
  constructor <;> nlinarith

theorem orthonormal {V : Ten2 ℝ} (hV : Orthogonal V) (a b : Fin 3) : ∑ i, V i a * V i b = if a = b then 1 else 0 := by
  have := congrFun (congrFun hV a) b
  rw [Matrix.mul_apply, Matrix.one_apply] at this
  simpa only [Matrix.transpose_apply] using this

theorem Spectral.mem {B V : Ten2 ℝ} {w : Fin 3 → ℝ} {a b : ℝ} (hs : Spectral B w V) (h : SpectrumIn B a b) (c : Fin 3) :
    w c ∈ Set.Icc a b := by
  have h1 : ∑ i, V i c ^ 2 = 1 := by
    have := orthonormal hs.orthogonal c c
    rw [if_pos rfl] at this
    rw [← this]
    exact Finset.sum_congr rfl fun i _ => pow_two _
  have h2 : ∑ i, ∑ j, V i c * B i j * V j c = w c := by
    have e : ∑ i, ∑ j, V i c * B i j * V j c = ∑ d, w d * ((∑ i, V i d * V i c) * ∑ j, V j d * V j c) := by
      simp only [hs.sum, Fin.sum_univ_three]
      ring
    rw [e]
    simp only [orthonormal hs.orthogonal]
    simp
  have := h fun i => V i c
  rw [h1, h2, mul_one, mul_one] at this
  exact this

theorem Spectral.eq {B V : Ten2 ℝ} {w : Fin 3 → ℝ} (hs : Spectral B w V) : B = V * diagonal w * Vᵀ := by
  ext i j
  rw [hs.sum, Matrix.mul_apply]
  refine Finset.sum_congr rfl fun a _ => ?_
  rw [Matrix.mul_diagonal, Matrix.transpose_apply]; ring

/-- The components in the two bases. -/
theorem diff_components {V U : Ten2 ℝ} (hV : Orthogonal V) (hU : Orthogonal U) (p r : Fin 3 → ℝ) (a b : Fin 3) :
    (Vᵀ * (V * diagonal p * Vᵀ - U * diagonal r * Uᵀ) * U) a b = (p a - r b) * (Vᵀ * U) a b := by
  have hV' : Vᵀ * V = 1 := hV
  have hU' : Uᵀ * U = 1 := hU
  have e : Vᵀ * (V * diagonal p * Vᵀ - U * diagonal r * Uᵀ) * U = diagonal p * (Vᵀ * U) - (Vᵀ * U) * diagonal r := by
    rw [Matrix.mul_sub, Matrix.sub_mul]
    congr 1
    · calc Vᵀ * (V * diagonal p * Vᵀ) * U = (Vᵀ * V) * (diagonal p * (Vᵀ * U)) := by simp only [Matrix.mul_assoc]
        _ = _ := by rw [hV', Matrix.one_mul]
    · calc Vᵀ * (U * diagonal r * Uᵀ) * U = Vᵀ * U * diagonal r * (Uᵀ * U) := by simp only [Matrix.mul_assoc]
        _ = _ := by rw [hU', Matrix.mul_one]
  rw [e, Matrix.sub_apply, Matrix.diagonal_mul, Matrix.mul_diagonal]
  ring

/-- A function of a symmetric matrix has the Lipschitz constant of the scalar function. -/
theorem lipschitz_spectral {B C V U : Ten2 ℝ} {w s : Fin 3 → ℝ} (hB : Spectral B w V) (hC : Spectral C s U) (g : ℝ → ℝ)
    {L : ℝ} (hL : ∀ a b, |g (w a) - g (s b)| ≤ L * |w a - s b|) :
    frob (V * diagonal (fun a => g (w a)) * Vᵀ - U * diagonal (fun a => g (s a)) * Uᵀ) ≤ |L| * frob (B - C) := by
  have h := frob_mono (A := Vᵀ * (V * diagonal (fun a => g (w a)) * Vᵀ - U * diagonal (fun a => g (s a)) * Uᵀ) * U)
    (B := L • (Vᵀ * (B - C) * U)) fun a b => by
      rw [diff_components hB.orthogonal hC.orthogonal, Matrix.smul_apply, Spectral.eq hB, Spectral.eq hC,
        diff_components hB.orthogonal hC.orthogonal, smul_eq_mul, abs_mul, abs_mul, abs_mul, ← mul_assoc]
      refine mul_le_mul_of_nonneg_right ((hL a b).trans ?_) (abs_nonneg _)
      exact mul_le_mul_of_nonneg_right (le_abs_self L) (abs_nonneg _)
  rwa [frob_smul, frob_rotate hB.orthogonal hC.orthogonal, frob_rotate hB.orthogonal hC.orthogonal] at h

/-! ### powers -/

/-- The power of a number, which is known up to a relative error `u`, to a rounded exponent. -/
theorem pow_accuracy_of (R : Rounding) {l l' y y' : ℝ} (hl : 0 < l) (hu : R.u < 1) (hl' : |l' - l| ≤ R.u * l)
    (hy' : |y' - y| ≤ R.u * |y|) :
    |R.pow l' y' - l ^ y| ≤
      ((1 + R.u) ^ 2 * (1 / (1 - R.u)) ^ ((1 + R.u) * |y|) * Real.exp (R.u * |y| * |Real.log l|) - 1) * |l ^ y| := by
  have hu0 := R.u_nonneg
  obtain ⟨h1, h2⟩ := abs_le.1 hl'
  have hpos : 0 < l' := by nlinarith
  have hlog : |Real.log l' - Real.log l| ≤ -Real.log (1 - R.u) := by
    rw [← Real.log_div hpos.ne' hl.ne', abs_le, neg_neg]
    constructor
    · refine Real.log_le_log (by linarith) ?_
      rw [le_div_iff₀ hl]; linarith
    · rw [← Real.log_inv]
      refine Real.log_le_log (by positivity) ?_
      rw [div_le_iff₀ hl]
      have : l' ≤ (1 + R.u) * l := by linarith
      refine this.trans ?_
      gcongr
      rw [← one_div, le_div_iff₀ (by linarith)]
      nlinarith
  have hL : 0 ≤ -Real.log (1 - R.u) := (abs_nonneg _).trans hlog
  have hy1 : |y'| ≤ (1 + R.u) * |y| := by
    have := abs_sub_abs_le_abs_sub y' y
    linarith
  have hM : |Real.log l' * y' - Real.log l * y| ≤
      (1 + R.u) * |y| * -Real.log (1 - R.u) + R.u * |y| * |Real.log l| := by
    rw [show Real.log l' * y' - Real.log l * y = y' * (Real.log l' - Real.log l) + (y' - y) * Real.log l by ring]
    refine (abs_add_le _ _).trans ?_
    rw [abs_mul, abs_mul]
    gcongr
  have hp := R.pow_error l' y' hpos
  rw [Real.rpow_def_of_pos hpos] at hp
  have hδ : 0 ≤ (1 + R.u) ^ 2 - 1 := sub_nonneg.2 (one_le_pow₀ (by linarith))
  have := exp_close hδ hM hp
  rw [← Real.rpow_def_of_pos hl] at this
  rw [abs_of_pos (Real.rpow_pos_of_pos hl y)]
  refine this.trans_eq ?_
  have h : 0 < 1 / (1 - R.u) := by apply one_div_pos.2; linarith
  rw [Real.rpow_def_of_pos h, Real.exp_add, one_div, Real.log_inv]
  ring_nf

theorem sqrt_rpow {x : ℝ} (hx : 0 < x) (α : ℝ) : √x ^ (α - 1) / (2 * √x) = x ^ ((α - 2) / 2) / 2 := by
  have h : 0 < √x := Real.sqrt_pos.2 hx
  have e : √x ^ (α - 1) / √x = x ^ ((α - 2) / 2) := by
    rw [← Real.rpow_sub_one h.ne', Real.sqrt_eq_rpow, ← Real.rpow_mul hx.le]
    congr 1; ring
  rw [← e]; field_simp

theorem rate_sum (mu alpha : List ℝ) {x : ℝ} (hx : 0 < x) :
    ((mu.zip alpha).map fun p => 2 * p.1 / p.2 * √x ^ (p.2 - 1)).sum / (2 * √x) = ogdenRate mu alpha x := by
  unfold ogdenRate
  induction mu.zip alpha with
  | nil => simp
  | cons p l ih =>
    rw [List.map_cons, List.sum_cons, List.map_cons, List.sum_cons, add_div, ih, mul_div_assoc, sqrt_rpow hx]
    ring

theorem rateP_sum (mu alpha : List ℝ) {x : ℝ} (hx : 0 < x) :
    ((mu.zip alpha).map fun p => 2 * |p.1| / |p.2| * √x ^ (p.2 - 1)).sum / (2 * √x) = ogdenRateP mu alpha x := by
  unfold ogdenRateP
  induction mu.zip alpha with
  | nil => simp
  | cons p l ih =>
    rw [List.map_cons, List.sum_cons, List.map_cons, List.sum_cons, add_div, ih, mul_div_assoc, sqrt_rpow hx, abs_div]
    ring

/-! ### the coefficients -/

/-- The loop of `Ogden.gradient`. -/
theorem ogden_loop (T : Ctx) (l l' : ℝ) (hl : 0 < l) (ps : List (ℝ × ℝ))
    (h : ∀ p ∈ ps, p.2 ≠ 0 ∧ |T.R.pow l' (T.R.sub p.2 1) - l ^ (p.2 - 1)| ≤ (T.q - 1) * |l ^ (p.2 - 1)|)
    (acc : Cert T) {k : ℕ} (ha : acc.a ≤ 1) (hb : acc.b ≤ k) (hk : 3 ≤ k) :
    ∃ x : Cert T, x.fl = ps.foldl (fun dW p => T.R.add dW (T.R.mul (T.R.div (T.R.mul 2 p.1) p.2)
        (T.R.pow l' (T.R.sub p.2 1)))) acc.fl ∧
      x.ex = acc.ex + (ps.map fun p => 2 * p.1 / p.2 * l ^ (p.2 - 1)).sum ∧
      x.m = acc.m + (ps.map fun p => 2 * |p.1| / |p.2| * l ^ (p.2 - 1)).sum ∧ x.a ≤ 1 ∧ x.b ≤ k + ps.length := by
  induction ps generalizing acc k with
  | nil => exact ⟨acc, rfl, by simp, by simp, ha, by simpa using hb⟩
  | cons p ps ih =>
    obtain ⟨hp, hq⟩ := h p (List.mem_cons_self ..)
    let t : Cert T := Cert.mul (Cert.divData p.2 hp (Cert.mul (Cert.ofReal 2) (Cert.ofReal p.1))) (Cert.rel _ _ hq)
    obtain ⟨x, h1, h2, h3, h4, h5⟩ := ih (fun p' hp' => h p' (List.mem_cons_of_mem _ hp')) (Cert.add acc t) (k := k + 1)
      (by change max acc.a 1 ≤ 1; omega) (by change max acc.b 3 + 1 ≤ k + 1; omega) (by omega)
    refine ⟨x, h1, ?_, ?_, h4, ?_⟩
    · rw [h2, List.map_cons, List.sum_cons, ← add_assoc]; rfl
    · rw [h3, List.map_cons, List.sum_cons, ← add_assoc]
      change acc.m + |2| * |p.1| / |p.2| * |l ^ (p.2 - 1)| + _ = _
      rw [abs_two, abs_of_pos (Real.rpow_pos_of_pos hl _)]
    · rw [List.length_cons]; omega

variable (R : RoundingSqrt)

/-- The arithmetic and the factor `q`. -/
abbrev ctxQ {q : ℝ} (hq : 1 ≤ q) : Ctx := ⟨R.toRounding, q, hq⟩

/-- The derivative of the energy with respect to a squared stretch, as computed by `Stretches.gradient`. -/
theorem ogden_coefficient {ε a b L G q : ℝ} {mu alpha : List ℝ} (hα : ∀ p ∈ alpha, p ≠ 0)
    (hB : OgdenBounds R.u ε mu alpha a b L G q) (hq : 1 ≤ q) {x : ℝ} (hx : x ∈ Set.Icc a b) :
    ∃ c : Cert (ctxQ R hq), c.fl = R.div (R.ogdenGradient ⟨mu, alpha⟩ (R.sqrt x)) (R.mul 2 (R.sqrt x)) ∧
      c.ex = ogdenRate mu alpha x ∧ c.m = ogdenRateP mu alpha x ∧ c.a ≤ 2 ∧ c.b ≤ (mu.zip alpha).length + 4 := by
  have hx0 : 0 < x := hB.pos.trans_le hx.1
  have hl : 0 < √x := Real.sqrt_pos.2 hx0
  have hu := R.u_nonneg
  have hu1 : R.u < 1 := by nlinarith [hB.small]
  have hl' := R.sqrt_error x hx0
  obtain ⟨y, h1, h2, h3, h4, h5⟩ := ogden_loop (ctxQ R hq) (√x) (R.sqrt x) hl (mu.zip alpha) (fun p hp => by
    refine ⟨hα _ (List.of_mem_zip hp).2, ?_⟩
    refine (pow_accuracy_of R.toRounding hl hu1 hl' (R.sub_error _ _)).trans ?_
    refine mul_le_mul_of_nonneg_right (sub_le_sub_right ?_ _) (abs_nonneg _)
    refine le_trans (le_of_eq ?_) (hB.power _ (List.of_mem_zip hp).2 x hx)
    unfold ogdenFactor
    rw [Real.log_sqrt hx0.le, abs_div, abs_two]
    ring_nf) (Cert.ofReal 0) (k := 3) (Nat.zero_le _) (Nat.zero_le _) le_rfl
  have hd : (2 * √x) ≠ 0 := by positivity
  have hdiv : |R.mul 2 (R.sqrt x) - 2 * √x| ≤ (1 - 1 / q) * |2 * √x| := by
    have e1 := R.mul_error 2 (R.sqrt x)
    have e2 : |R.sqrt x| ≤ (1 + R.u) * √x := by
      have := abs_sub_abs_le_abs_sub (R.sqrt x) (√x)
      rw [abs_of_pos hl] at this
      linarith
    have e3 : |R.mul 2 (R.sqrt x) - 2 * √x| ≤ R.u * |2 * R.sqrt x| + 2 * (R.u * √x) := by
      refine (abs_sub_le _ (2 * R.sqrt x) _).trans (add_le_add e1 ?_)
      rw [← mul_sub, abs_mul, abs_two]
      linarith
    rw [abs_mul, abs_two] at e3
    have e4 : 1 / q ≤ 2 - (1 + R.u) ^ 2 := by
      have := hB.reciprocal
      rw [div_le_iff₀ (by linarith [hB.small])] at this
      rw [div_le_iff₀ (by linarith)]
      linarith
    rw [abs_of_pos (by positivity : 0 < 2 * √x)]
    have e5 : R.u * |R.sqrt x| ≤ R.u * ((1 + R.u) * √x) := by gcongr
    nlinarith
  refine ⟨Cert.divBy (2 * √x) (R.mul 2 (R.sqrt x)) hd hdiv y, ?_, ?_, ?_, ?_, ?_⟩
  · change R.div y.fl _ = _
    rw [h1]; rfl
  · change y.ex / _ = _
    rw [h2, ← rate_sum mu alpha hx0]
    change (0 + _) / _ = _
    rw [zero_add]
  · change y.m / _ = _
    rw [h3, ← rateP_sum mu alpha hx0]
    change (|0| + _) / _ = _
    rw [abs_zero, zero_add, abs_of_pos (by positivity : 0 < 2 * √x)]
  · change y.a + 1 ≤ 2; omega
  · change y.b + 1 ≤ _; omega

/-! ### the sum over the eigenbases -/

namespace IsHom

variable {K L : Type} [Arith K] [Arith L] {f : K → L} (hf : IsHom f)

include hf

theorem eigenbases (v : Full2 K) (a : Fin 3) (i : Fin 6) :
    f (Rnd.eigenbases v a i) = Rnd.eigenbases (fun i j => f (v i j)) a i := hf.einsum _

theorem stretchesSum (c : Fin 3 → K) (v : Full2 K) (i : Fin 6) :
    f (Rnd.stretchesSum c v i) = Rnd.stretchesSum (fun a => f (c a)) (fun i j => f (v i j)) i := by
  simp only [Rnd.stretchesSum, hf.einsum, List.map_cons, List.map_nil, hf.mul, hf.eigenbases]

theorem defStress (F : Full2 K) (S : Vec6 K) (i j : Fin 3) :
    f (Rnd.defStress F S i j) = Rnd.defStress (fun i j => f (F i j)) (fun a => f (S a)) i j := by
  simp only [Rnd.defStress, hf.piolaStress, hf.mul, hf.lit]

end IsHom

theorem le_stretchesSum {c : Fin 3 → Cnt} {v : Full2 Cnt} {a b : ℕ} (hc : ∀ i, Cnt.Le (c i) a b)
    (hv : ∀ i j, Cnt.Le (v i j) 1 0) (i : Fin 6) : Cnt.Le (stretchesSum c v i) (a + 2) (b + 8) := by
  have hM : ∀ a, Cnt.Le (eigenbases v a i) 2 3 := fun a => by
    have h1 := hv (![0, 1, 2, 1, 2, 2] i) a
    have h2 := hv (![0, 1, 2, 0, 1, 0] i) a
    have e : eigenbases v a i = (einsum [[v (![0, 1, 2, 1, 2, 2] i) a, v (![0, 1, 2, 0, 1, 0] i) a]] : Cnt) := by
      fin_cases i <;> rfl
    rw [e]
    generalize v (![0, 1, 2, 1, 2, 2] i) a = x at *
    generalize v (![0, 1, 2, 0, 1, 0] i) a = y at *
    obtain ⟨h3, h4⟩ := h1
    obtain ⟨h5, h6⟩ := h2
    constructor
    · change max (x.a + (y.a + 0)) 0 ≤ 2; omega
    · change max (x.b + (y.b + 0)) 0 + (1 + 2) ≤ 3; omega
  have h : ∀ d, Cnt.Le (c d * eigenbases v d i) (a + 2) (b + 4) := fun d => by
    obtain ⟨h1, h2⟩ := hc d
    obtain ⟨h3, h4⟩ := hM d
    exact ⟨by rw [Cnt.a_mul]; omega, by rw [Cnt.b_mul]; omega⟩
  have h0 := h 0; have h1 := h 1; have h2 := h 2
  unfold stretchesSum
  generalize c 0 * eigenbases v 0 i = x at *
  generalize c 1 * eigenbases v 1 i = y at *
  generalize c 2 * eigenbases v 2 i = t at *
  obtain ⟨h3, h4⟩ := h0
  obtain ⟨h5, h6⟩ := h1
  obtain ⟨h7, h8⟩ := h2
  constructor
  · change max (x.a + 0) (max (y.a + 0) (max (t.a + 0) 0)) ≤ _; omega
  · change max (x.b + 0) (max (y.b + 0) (max (t.b + 0) 0)) + (3 + 1) ≤ _; omega

theorem stretchesSum_exact (c : Fin 3 → ℝ) (v : Ten2 ℝ) (i : Fin 6) :
    stretchesSum c v i = ∑ a, c a * Stretches.bases v a i := by
  have e : ∀ a, eigenbases v a i = Stretches.bases v a i := fun a => by
    fin_cases i <;> simp [eigenbases, Stretches.bases, asvoigt, einsum]
  simp only [stretchesSum, e, Fin.sum_univ_three]
  simp [einsum, add_assoc]

theorem stretchesSum_maj (c : Fin 3 → Maj) (i : Fin 6) :
    (stretchesSum c (fun _ _ => ⟨1⟩) i).val = ∑ a, (c a).val := by
  have e : ∀ a, eigenbases (fun _ _ => (⟨1⟩ : Maj)) a i = (⟨1⟩ : Maj) := fun a => by
    fin_cases i <;> simp [eigenbases, asvoigt, einsum]
  simp only [stretchesSum, e, Fin.sum_univ_three]
  change ((c 0).val * 1 * 1 + ((c 1).val * 1 * 1 + ((c 2).val * 1 * 1 + 0)) : ℝ) = _
  ring

/-- Eigenvectors which are known up to `q - 1`. -/
def vecData (T : Ctx) {V v : Ten2 ℝ} (hV : Orthogonal V) (h : ∀ i a, |v i a - V i a| ≤ T.q - 1) : Full2 (Cert T) :=
  fun i a =>
  { fl := v i a
    ex := V i a
    m := 1
    a := 1
    b := 0
    maj := abs_le.2 (Spec.Orthogonal.abs_le hV i a)
    err := by simpa [Ctx.E] using h i a }

/-- The computed gradient against the exact gradient at the matrix with the computed eigenvalues. -/
theorem rounded_stretches {ε a b L G q : ℝ} {mu alpha : List ℝ} (hα : ∀ p ∈ alpha, p ≠ 0)
    (hB : OgdenBounds R.u ε mu alpha a b L G q) (hq : 1 ≤ q) {w : Fin 3 → ℝ} (hw : ∀ c, w c ∈ Set.Icc a b) {V v : Ten2 ℝ}
    (hV : Orthogonal V) (hv : ∀ i c, |v i c - V i c| ≤ ε) (i : Fin 6) :
    |(stretchesSum (fun c => (⟨R.div (R.ogdenGradient ⟨mu, alpha⟩ (R.sqrt (w c))) (R.mul 2 (R.sqrt (w c)))⟩ : Fl R.toRounding))
        (R.arr33 v) i).val - ∑ c, ogdenRate mu alpha (w c) * Stretches.bases V c i| ≤
      (q ^ 4 * (1 + R.u) ^ ((mu.zip alpha).length + 12) - 1) * (3 * G) := by
  have hc := fun c => ogden_coefficient R hα hB hq (hw c)
  choose c h1 h2 h3 h4 h5 using hc
  have hv' : ∀ i c, |v i c - V i c| ≤ (ctxQ R hq).q - 1 := fun i c => (hv i c).trans (le_sub_iff_add_le'.2 hB.vectors)
  let x : Cert (ctxQ R hq) := stretchesSum c (vecData (ctxQ R hq) hV hv') i
  have hfl : x.fl = (stretchesSum (fun c => (⟨R.div (R.ogdenGradient ⟨mu, alpha⟩ (R.sqrt (w c)))
      (R.mul 2 (R.sqrt (w c)))⟩ : Fl R.toRounding)) (R.arr33 v) i).val := by
    have hh := Cert.hom_fl.stretchesSum c (vecData (ctxQ R hq) hV hv') i
    refine (congrArg Fl.val hh).trans ?_
    have : (fun d => (c d).flc) = fun c => (⟨R.div (R.ogdenGradient ⟨mu, alpha⟩ (R.sqrt (w c)))
      (R.mul 2 (R.sqrt (w c)))⟩ : Fl R.toRounding) := by
      funext d
      exact congrArg Fl.mk (h1 d)
    rw [this]
    rfl
  have hex : x.ex = ∑ c, ogdenRate mu alpha (w c) * Stretches.bases V c i := by
    refine (Cert.hom_ex.stretchesSum c (vecData (ctxQ R hq) hV hv') i).trans ?_
    rw [← stretchesSum_exact]
    simp only [h2]
    rfl
  have hm : x.m = ∑ c, ogdenRateP mu alpha (w c) := by
    refine (congrArg Maj.val (Cert.hom_m.stretchesSum c (vecData (ctxQ R hq) hV hv') i)).trans ?_
    refine (stretchesSum_maj _ i).trans ?_
    simp only [Cert.mc, h3]
  have hcnt : Cnt.Le x.cnt 4 ((mu.zip alpha).length + 12) := by
    rw [show x.cnt = _ from Cert.hom_cnt.stretchesSum c (vecData (ctxQ R hq) hV hv') i]
    exact le_stretchesSum (a := 2) (b := (mu.zip alpha).length + 4) (fun d => ⟨h4 d, h5 d⟩) (fun _ _ => ⟨le_rfl, le_rfl⟩) i
  have h := x.err_mono hcnt.1 hcnt.2
  rw [hfl, hex, hm] at h
  refine h.trans ?_
  refine mul_le_mul_of_nonneg_left ?_ (sub_nonneg.2 ((ctxQ R hq).one_le_E 4 _))
  rw [Fin.sum_univ_three]
  have e := fun c => hB.bound _ (hw c)
  linarith [e 0, e 1, e 2]

/-- The exact gradient of `Stretches(Ogden)`. -/
theorem ogden_exact {Z : Type} (lapack : Eigh) (hl : EighValid lapack) {mu alpha : List ℝ} (hα : ∀ p ∈ alpha, p ≠ 0) (z : Z)
    {C E : Ten2 ℝ} {a b : ℝ} (ha : 0 < a) (hC : SpectrumIn C a b)
    (hG : Material.Grad (Stretches.material lapack (Ogden.mat ⟨mu, alpha⟩)) z C E) :
    ∃ w U, Spectral C w U ∧ (∀ c, w c ∈ Set.Icc a b) ∧ E = U * diagonal (fun c => ogdenRate mu alpha (w c)) * Uᵀ := by
  obtain ⟨hs, g, ⟨s, z', hg⟩, rfl⟩ := (Stretches.grad_iff ..).1 hG
  have hsp := hl C hs
  have hm := Spectral.mem hsp hC
  refine ⟨_, _, hsp, hm, ?_⟩
  have hr := Props.ogden_returns mu alpha hα (Stretches.roots (Stretches.vals lapack C)) z
  have e : g = fun c => Props.ogdenSlope mu alpha (Stretches.roots (Stretches.vals lapack C) c) := by
    unfold Returns at hg hr
    have := hg.symm.trans hr
    simp at this
    exact this.1
  congr 3
  funext c
  rw [e, ← rate_sum mu alpha (ha.trans_le (hm c).1)]
  rfl

/-- The computed gradient of `Stretches(Ogden)` against the exact one. -/
theorem rounded_framework {Z : Type} (lapack solver : Eigh) (hl : EighValid lapack) {ε a b L G q η : ℝ} {mu alpha : List ℝ}
    (hα : ∀ p ∈ alpha, p ≠ 0) (hB : OgdenBounds R.u ε mu alpha (a - η) (b + η) L G q) (hq : 1 ≤ q) (z : Z) {c : Vec6 ℝ}
    {C E : Ten2 ℝ} (hc : Stores c C) (hη : ε * frob C ≤ η) (hη0 : 0 ≤ η) (hC : SpectrumIn C a b)
    (hs : EighAccurate ε C (solver C).1 (solver C).2)
    (hG : Material.Grad (Stretches.material lapack (Ogden.mat ⟨mu, alpha⟩)) z C E) (i : Fin 6) :
    |R.stretchesGradient solver ⟨mu, alpha⟩ c i - asvoigt E i| ≤
      (q ^ 4 * (1 + R.u) ^ ((mu.zip alpha).length + 12) - 1) * (3 * G) + L * η := by
  obtain ⟨B, V, hBV, hd, hv⟩ := hs
  obtain ⟨s, U, hsp, hm, rfl⟩ := ogden_exact lapack hl hα z (by linarith [hB.pos]) hC hG
  have hd' := hd.trans hη
  have hw := Spectral.mem hBV (SpectrumIn.perturb hC hd')
  have h1 := rounded_stretches R hα hB hq hw hBV.orthogonal hv i
  have hmem : ∀ c, s c ∈ Set.Icc (a - η) (b + η) := fun c => ⟨by linarith [(hm c).1], by linarith [(hm c).2]⟩
  have h2 := lipschitz_spectral hBV hsp (ogdenRate mu alpha) (L := L) fun a b => hB.lipschitz _ (hw a) _ (hmem b)
  have e : (fun i j => astensor c j i) = C := by
    funext i j
    have := T2_eq hc
    show (T2 c) j i = C i j
    rw [this]; exact hc.symm.apply i j
  have e1 : R.stretchesGradient solver ⟨mu, alpha⟩ c i =
      (stretchesSum (fun d => (⟨R.div (R.ogdenGradient ⟨mu, alpha⟩ (R.sqrt ((solver C).1 d)))
        (R.mul 2 (R.sqrt ((solver C).1 d)))⟩ : Fl R.toRounding)) (R.arr33 (solver C).2) i).val := by
    unfold RoundingSqrt.stretchesGradient
    rw [e]
  have e2 : ∑ c, ogdenRate mu alpha ((solver C).1 c) * Stretches.bases V c i =
      asvoigt (V * diagonal (fun c => ogdenRate mu alpha ((solver C).1 c)) * Vᵀ) i := by
    rw [← Stretches.sum_base]
    simp only [asvoigt, Matrix.sum_apply, Matrix.smul_apply, smul_eq_mul]
    refine Finset.sum_congr rfl fun d _ => ?_
    congr 1
    exact mul_comm _ _
  rw [← e1, e2] at h1
  refine (abs_sub_le _ _ _).trans (add_le_add h1 ?_)
  have h3 := abs_le_frob (V * diagonal (fun c => ogdenRate mu alpha ((solver C).1 c)) * Vᵀ -
    U * diagonal (fun c => ogdenRate mu alpha (s c)) * Uᵀ) (![0, 1, 2, 0, 1, 0] i) (![0, 1, 2, 1, 2, 2] i)
  rw [Matrix.sub_apply] at h3
  rw [abs_of_nonneg hB.nonneg] at h2
  exact h3.trans (h2.trans (mul_le_mul_of_nonneg_left hd' hB.nonneg))

end Hel.Rnd

namespace Hel.Rnd
open Spec Matrix

/-! ### the right Cauchy-Green tensor -/

theorem frob_mul_le (A B : Ten2 ℝ) : frob (A * B) ≤ frob A * frob B := by
  refine frob_le (mul_nonneg (frob_nonneg _) (frob_nonneg _)) ?_
  have h : ∀ i j, (A * B) i j ^ 2 ≤ (∑ k, A i k ^ 2) * ∑ k, B k j ^ 2 := fun i j => by
    rw [Matrix.mul_apply]
    exact Finset.sum_mul_sq_le_sq_mul_sq _ _ _
  rw [mul_pow, frob_sq, frob_sq, Finset.sum_comm (f := fun i j => B i j ^ 2), Finset.sum_mul_sum]
  exact Finset.sum_le_sum fun i _ => Finset.sum_le_sum fun j _ => h i j

theorem frob_abs2 (A : Ten2 ℝ) : frob (abs2 A) = frob A := by
  simp only [frob, abs2, sq_abs]

theorem frob_transpose (A : Ten2 ℝ) : frob Aᵀ = frob A := by
  unfold frob
  rw [Finset.sum_comm]
  rfl

theorem frob_cauchyGreen_abs (F : Ten2 ℝ) : frob (Spec.cauchyGreen (abs2 F)) ≤ frob F ^ 2 := by
  refine (frob_mul_le _ _).trans_eq ?_
  rw [frob_transpose, frob_abs2, pow_two]

theorem frob_of_within {X Y M : Ten2 ℝ} {c : ℝ} (hc : 0 ≤ c) (h : ∀ i j, |X i j - Y i j| ≤ c * M i j) (hM : ∀ i j, 0 ≤ M i j) :
    frob (X - Y) ≤ c * frob M := by
  rw [← abs_of_nonneg hc, ← frob_smul]
  refine frob_mono fun i j => ?_
  rw [Matrix.sub_apply, Matrix.smul_apply, smul_eq_mul, abs_of_nonneg (mul_nonneg hc (hM i j))]
  exact h i j

/-- The computed right Cauchy-Green tensor. -/
theorem rounded_cauchyGreen (R : Rounding) (F : Ten2 ℝ) (i j : Fin 3) :
    |T2 (fun a => (Rnd.cauchyGreen (R.arr33 F) a).val) i j - Spec.cauchyGreen F i j| ≤
      ((1 + R.u) ^ 5 - 1) * Spec.cauchyGreen (abs2 F) i j := by
  have h : Within R.u 5 (Rnd.cauchyGreen (R.arr33 F) (tab i j)).val (Rnd.cauchyGreen F (tab i j))
      (Rnd.cauchyGreen (fun i j => (lit (F i j) : Maj)) (tab i j)).val :=
    Props.within_of _ (Cert.hom_fl.cauchyGreen (fun i j => lit (F i j)) (tab i j)) (Cert.hom_ex.cauchyGreen ..)
      (Cert.hom_m.cauchyGreen ..) (Cert.hom_cnt.cauchyGreen ..)
      (Cnt.le_cauchyGreen_of (a := 0) (b := 0) (fun _ _ => ⟨le_rfl, le_rfl⟩) _).2
  have e1 : Rnd.cauchyGreen F (tab i j) = Spec.cauchyGreen F i j := by
    rw [← cauchyGreen_exact]; rfl
  have e2 : (Rnd.cauchyGreen (fun i j => (lit (F i j) : Maj)) (tab i j)).val = Spec.cauchyGreen (abs2 F) i j := by
    have : T2 (Maj.val6 (Rnd.cauchyGreen fun i j => (lit (F i j) : Maj))) = Spec.cauchyGreen (abs2 F) := by
      rw [Maj.val_cauchyGreen, cauchyGreen_exact]; rfl
    rw [← this]; rfl
  rw [e1, e2] at h
  exact h

theorem cauchyGreen_abs_nonneg (F : Ten2 ℝ) (i j : Fin 3) : 0 ≤ Spec.cauchyGreen (abs2 F) i j := by
  rw [Spec.cauchyGreen, Matrix.mul_apply]
  exact Finset.sum_nonneg fun k _ => mul_nonneg (abs_nonneg _) (abs_nonneg _)

theorem frob_rounded (R : Rounding) (F : Ten2 ℝ) :
    frob (T2 (fun a => (Rnd.cauchyGreen (R.arr33 F) a).val) - Spec.cauchyGreen F) ≤ ((1 + R.u) ^ 5 - 1) * frob F ^ 2 := by
  have h0 : 0 ≤ (1 + R.u) ^ 5 - 1 := sub_nonneg.2 (one_le_pow₀ (by linarith [R.u_nonneg]))
  exact (frob_of_within h0 (rounded_cauchyGreen R F) (cauchyGreen_abs_nonneg F)).trans
    (mul_le_mul_of_nonneg_left (frob_cauchyGreen_abs F) h0)

theorem frob_computed (R : Rounding) (F : Ten2 ℝ) :
    frob (T2 (fun a => (Rnd.cauchyGreen (R.arr33 F) a).val)) ≤ (1 + R.u) ^ 5 * frob F ^ 2 := by
  have h1 := frob_add_le (T2 (fun a => (Rnd.cauchyGreen (R.arr33 F) a).val) - Spec.cauchyGreen F) (Spec.cauchyGreen F)
  rw [sub_add_cancel] at h1
  have h2 := frob_mul_le Fᵀ F
  rw [frob_transpose, ← pow_two] at h2
  have h3 : frob (Spec.cauchyGreen F) ≤ frob F ^ 2 := h2
  linarith [frob_rounded R F]

theorem posDef_of_spectrum {C : Ten2 ℝ} (hs : C.IsSymm) {a b : ℝ} (ha : 0 < a) (h : SpectrumIn C a b) : PosDef C := by
  refine ⟨hs, fun x hx => ?_⟩
  have h1 := (h x).1
  have h2 : 0 < ∑ i, x i ^ 2 := by
    obtain ⟨i, hi⟩ := Function.ne_iff.1 hx
    exact Finset.sum_pos' (fun _ _ => sq_nonneg _) ⟨i, Finset.mem_univ _, by have : x i ≠ 0 := hi; positivity⟩
  have e : x ⬝ᵥ (C *ᵥ x) = ∑ i, ∑ j, x i * C i j * x j := by
    simp only [dotProduct, mulVec, Finset.mul_sum]
    exact Finset.sum_congr rfl fun i _ => Finset.sum_congr rfl fun j _ => by ring
  rw [e]
  exact (mul_pos ha h2).trans_le h1

/-! ### the stress -/

/-- The computed first Piola-Kirchhoff stress of a given derivative of the energy. -/
theorem rounded_defStress (R : Rounding) (F : Ten2 ℝ) {g : Vec6 ℝ} {E : Ten2 ℝ} (hE : E.IsSymm) {M δ : ℝ}
    (hg : ∀ i, |g i - asvoigt E i| ≤ δ) (hM : ∀ i j, |E i j| ≤ M) (i J : Fin 3) :
    |(defStress (R.arr33 F) (R.arr6 g) i J).val - (F * ((2 : ℝ) • E)) i J| ≤
      2 * (∑ I, |F i I|) * ((1 + R.u) ^ 6 * (M + δ) - M) := by
  have h : Within R.u 6 (defStress (R.arr33 F) (R.arr6 g) i J).val (defStress F g i J)
      (defStress (fun i j => (lit (F i j) : Maj)) (fun a => lit (g a)) i J).val :=
    Props.within_of _ (Cert.hom_fl.defStress (fun i j => lit (F i j)) (fun a => lit (g a)) i J) (Cert.hom_ex.defStress ..)
      (Cert.hom_m.defStress ..) (Cert.hom_cnt.defStress ..)
      (Cnt.le_piolaStress_of (a' := 0) (b' := 0) (a := 0) (b := 1) (fun _ _ => ⟨le_rfl, le_rfl⟩)
        (fun _ => ⟨le_rfl, le_rfl⟩) i J).2
  have e1 : defStress F g i J = ∑ I, F i I * (2 * T2 g I J) := by
    have : defStress F g = F * T2 (fun a => 2 * g a) := piolaStress_exact F _
    rw [this, T2_smul, Matrix.mul_apply]
    rfl
  have e2 : (defStress (fun i j => (lit (F i j) : Maj)) (fun a => lit (g a)) i J).val = ∑ I, |F i I| * (2 * |T2 g I J|) := by
    rw [defStress, Maj.val_piolaStress, Matrix.mul_apply]
    refine Finset.sum_congr rfl fun I _ => ?_
    change |F i I| * (|2| * |g (tab I J)|) = _
    rw [abs_two]; rfl
  have hg' : ∀ I, |T2 g I J - E I J| ≤ δ := fun I => by
    have e3 : E I J = asvoigt E (tab I J) := by
      have := congrFun (congrFun (T2_eq (Props.C01_asvoigt_stores hE)) I) J
      rw [← this]; rfl
    rw [e3]; exact hg _
  have hg2 : ∀ I, |T2 g I J| ≤ M + δ := fun I => by
    have := abs_sub_abs_le_abs_sub (T2 g I J) (E I J)
    linarith [hg' I, hM I J]
  have h6 : 0 ≤ (1 + R.u) ^ 6 - 1 := sub_nonneg.2 (one_le_pow₀ (by linarith [R.u_nonneg]))
  have h1 : |(defStress (R.arr33 F) (R.arr6 g) i J).val - ∑ I, F i I * (2 * T2 g I J)| ≤
      ((1 + R.u) ^ 6 - 1) * (2 * (∑ I, |F i I|) * (M + δ)) := by
    rw [e1, e2] at h
    refine h.trans (mul_le_mul_of_nonneg_left ?_ h6)
    rw [Finset.mul_sum, Finset.sum_mul]
    refine Finset.sum_le_sum fun I _ => ?_
    have := mul_le_mul_of_nonneg_left (hg2 I) (abs_nonneg (F i I))
    linarith
  have h2 : |∑ I, F i I * (2 * T2 g I J) - (F * ((2 : ℝ) • E)) i J| ≤ 2 * (∑ I, |F i I|) * δ := by
    rw [Matrix.mul_apply, ← Finset.sum_sub_distrib]
    refine (Finset.abs_sum_le_sum_abs _ _).trans ?_
    rw [Finset.mul_sum, Finset.sum_mul]
    refine Finset.sum_le_sum fun I _ => ?_
    rw [Matrix.smul_apply, smul_eq_mul, ← mul_sub, ← mul_sub, abs_mul, abs_mul, abs_two]
    have := mul_le_mul_of_nonneg_left (hg' I) (abs_nonneg (F i I))
    linarith
  refine (abs_sub_le _ _ _).trans ((add_le_add h1 h2).trans_eq ?_)
  ring

theorem abs_rate_le {u ε a b L G q : ℝ} {mu alpha : List ℝ} (hB : OgdenBounds u ε mu alpha a b L G q) {x : ℝ}
    (hx : x ∈ Set.Icc a b) : |ogdenRate mu alpha x| ≤ G := by
  refine le_trans ?_ (hB.bound x hx)
  unfold ogdenRate ogdenRateP
  have hx0 := hB.pos.trans_le hx.1
  induction mu.zip alpha with
  | nil => simp
  | cons p l ih =>
    rw [List.map_cons, List.sum_cons, List.map_cons, List.sum_cons]
    refine (abs_add_le _ _).trans (add_le_add ?_ ih)
    rw [abs_mul, abs_of_pos (Real.rpow_pos_of_pos hx0 _)]

theorem abs_function_le {U : Ten2 ℝ} (hU : Orthogonal U) {p : Fin 3 → ℝ} {G : ℝ} (hp : ∀ a, |p a| ≤ G) (i j : Fin 3) :
    |(U * diagonal p * Uᵀ) i j| ≤ 3 * G := by
  have h1 : ∀ i a, |U i a| ≤ 1 := fun i a => abs_le.2 (Orthogonal.abs_le hU i a)
  have h2 : ∀ a, |U i a * p a * U j a| ≤ G := fun a => by
    rw [abs_mul, abs_mul]
    have h0 := (abs_nonneg _).trans (hp a)
    calc |U i a| * |p a| * |U j a| ≤ 1 * G * 1 := by
          have := h1 i a; have := h1 j a; have := hp a
          gcongr
      _ = G := by ring
  rw [Matrix.mul_apply]
  simp only [Matrix.mul_diagonal, Matrix.transpose_apply, Fin.sum_univ_three]
  refine (abs_add_le _ _).trans ((add_le_add_left (abs_add_le _ _) _).trans ?_)
  linarith [h2 0, h2 1, h2 2]

/-- The gradient which is computed from a neighbour of the tensor `C`. -/
theorem rounded_gradient_at {Z : Type} (R : RoundingSqrt) (lapack solver : Eigh) (hl : EighValid lapack)
    {ε a b L G q η η1 η2 : ℝ} (hε : 0 ≤ ε) {mu alpha : List ℝ} (hα : ∀ p ∈ alpha, p ≠ 0) {C E : Ten2 ℝ} {c : Vec6 ℝ}
    (h12 : η = η1 + η2) (h10 : 0 ≤ η1) (h20 : 0 ≤ η2)
    (hB : OgdenBounds R.u ε mu alpha (a - η) (b + η) L G q) (z : Z) (hC : SpectrumIn C a b)
    (hd : frob (T2 c - C) ≤ η1) (hf : ε * frob (T2 c) ≤ η2)
    (hs : EighAccurate ε (T2 c) (solver (T2 c)).1 (solver (T2 c)).2)
    (hE : Material.Grad (Stretches.material lapack (Ogden.mat ⟨mu, alpha⟩)) z C E) :
    E.IsSymm ∧ (∀ i j, |E i j| ≤ 3 * G) ∧ ∀ k, |R.stretchesGradient solver ⟨mu, alpha⟩ c k - asvoigt E k| ≤
      (q ^ 4 * (1 + R.u) ^ ((mu.zip alpha).length + 12) - 1) * (3 * G) + L * η := by
  have hq : 1 ≤ q := le_trans (by linarith) hB.vectors
  have hC' : SpectrumIn (T2 c) (a - η1) (b + η1) := SpectrumIn.perturb hC hd
  have hB' : OgdenBounds R.u ε mu alpha (a - η1 - η2) (b + η1 + η2) L G q := by
    rw [sub_sub, add_assoc, ← h12]; exact hB
  have hpos : 0 < a - η1 := by linarith [hB'.pos]
  obtain ⟨⟨E', hE'⟩, -⟩ := Props.C20_ogden_returns lapack mu alpha z (fun p hp => hα _ (List.of_mem_zip hp).2)
    (posDef_of_spectrum (T2_stores c).symm hpos hC')
  have hfr := rounded_framework R lapack solver hl hα hB' hq z (T2_stores c) hf h20 hC' hs hE'
  obtain ⟨w', U', hsp', hm', rfl⟩ := ogden_exact lapack hl hα z hpos hC' hE'
  obtain ⟨w, U, hsp, hm, rfl⟩ := ogden_exact lapack hl hα z (by linarith) hC hE
  have hmem : ∀ c, w c ∈ Set.Icc (a - η) (b + η) := fun c => ⟨by linarith [(hm c).1], by linarith [(hm c).2]⟩
  have hmem' : ∀ c, w' c ∈ Set.Icc (a - η) (b + η) := fun c => ⟨by linarith [(hm' c).1], by linarith [(hm' c).2]⟩
  have hL := lipschitz_spectral hsp' hsp (ogdenRate mu alpha) (L := L) fun a b => hB.lipschitz _ (hmem' a) _ (hmem b)
  rw [abs_of_nonneg hB.nonneg] at hL
  have hL' := hL.trans (mul_le_mul_of_nonneg_left hd hB.nonneg)
  refine ⟨?_, abs_function_le hsp.orthogonal fun c => abs_rate_le hB (hmem c), fun k => ?_⟩
  · rw [← Stretches.sum_base]
    ext i j
    simp only [Matrix.transpose_apply, Matrix.sum_apply, Matrix.smul_apply, Stretches.base, smul_eq_mul]
    exact Finset.sum_congr rfl fun a _ => by ring
  · have h3 := abs_le_frob (U' * diagonal (fun c => ogdenRate mu alpha (w' c)) * U'ᵀ -
      U * diagonal (fun c => ogdenRate mu alpha (w c)) * Uᵀ) (![0, 1, 2, 0, 1, 0] k) (![0, 1, 2, 1, 2, 2] k)
    rw [Matrix.sub_apply] at h3
    have h4 := h3.trans hL'
    have h5 := abs_sub_le (R.stretchesGradient solver ⟨mu, alpha⟩ c k)
      (asvoigt (U' * diagonal (fun c => ogdenRate mu alpha (w' c)) * U'ᵀ) k)
      (asvoigt (U * diagonal (fun c => ogdenRate mu alpha (w c)) * Uᵀ) k)
    have h6 := hfr k
    have h7 : |asvoigt (U' * diagonal (fun c => ogdenRate mu alpha (w' c)) * U'ᵀ) k -
      asvoigt (U * diagonal (fun c => ogdenRate mu alpha (w c)) * Uᵀ) k| ≤ L * η1 := h4
    rw [h12, mul_add]
    linarith

/-- The computed stress of an Ogden material in the deformation space. -/
theorem rounded_ogden {Z : Type} (R : RoundingSqrt) (lapack solver : Eigh) (hl : EighValid lapack) {ε a b L G q η : ℝ} (hε : 0 ≤ ε)
    {mu alpha : List ℝ} (hα : ∀ p ∈ alpha, p ≠ 0) {F P : Ten2 ℝ}
    (hη : η = ((1 + ε) * (1 + R.u) ^ 5 - 1) * frob F ^ 2)
    (hB : OgdenBounds R.u ε mu alpha (a - η) (b + η) L G q) (z : Z)
    (hC : SpectrumIn (Spec.cauchyGreen F) a b)
    (hs : EighAccurate ε (T2 fun a => (Rnd.cauchyGreen (R.arr33 F) a).val)
      (solver (T2 fun a => (Rnd.cauchyGreen (R.arr33 F) a).val)).1
      (solver (T2 fun a => (Rnd.cauchyGreen (R.arr33 F) a).val)).2)
    (hP : SpaceObj.Grad (Deformation.obj {} (Stretches.material lapack (Ogden.mat ⟨mu, alpha⟩))) z F P) (i J : Fin 3) :
    |R.ogdenDeformation solver ⟨mu, alpha⟩ F i J - P i J| ≤
      2 * (∑ I, |F i I|) * ((q ^ 4 * (1 + R.u) ^ ((mu.zip alpha).length + 18) - 1) * (3 * G) + (1 + R.u) ^ 6 * L * η) := by
  obtain ⟨E, hE, rfl⟩ := (Deformation.grad_iff ..).1 hP
  have hu := R.u_nonneg
  have h5 : 1 ≤ (1 + R.u) ^ 5 := one_le_pow₀ (by linarith)
  have hf := sq_nonneg (frob F)
  obtain ⟨hsym, hM, hg⟩ := rounded_gradient_at R lapack solver hl hε hα (η := η)
    (η1 := ((1 + R.u) ^ 5 - 1) * frob F ^ 2) (η2 := ε * ((1 + R.u) ^ 5 * frob F ^ 2)) (by rw [hη]; ring)
    (mul_nonneg (by linarith) hf) (by positivity) hB z hC (frob_rounded R.toRounding F)
    (mul_le_mul_of_nonneg_left (frob_computed R.toRounding F) hε) hs hE
  have := rounded_defStress R.toRounding F hsym hg hM i J
  refine this.trans_eq ?_
  congr 1
  ring

end Hel.Rnd
