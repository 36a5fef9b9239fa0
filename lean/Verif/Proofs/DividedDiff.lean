import Verif.Proofs.RoundingStretches
import Mathlib.Analysis.Calculus.MeanValue

/-! Divided differences, and the derivatives of functions of neighbouring symmetric matrices. -/

namespace Hel.Rnd
open Spec Matrix

open Classical in
/-- The divided difference of `g`, with the derivative `g'` at equal arguments. -/
noncomputable def divDiff (g g' : ℝ → ℝ) (x y : ℝ) : ℝ := if x = y then g' x else (g x - g y) / (x - y)

section
variable {g g' : ℝ → ℝ} {a b : ℝ} (hd : ∀ x ∈ Set.Icc a b, HasDerivAt g (g' x) x)

theorem divDiff_symm (g g' : ℝ → ℝ) (x y : ℝ) : divDiff g g' x y = divDiff g g' y x := by
  unfold divDiff
  by_cases h : x = y
  · rw [if_pos h, if_pos h.symm, h]
  · rw [if_neg h, if_neg (Ne.symm h), ← neg_sub y, ← neg_sub (g y), neg_div_neg_eq]

theorem divDiff_self (g g' : ℝ → ℝ) (x : ℝ) : divDiff g g' x x = g' x := if_pos rfl

open Classical in
/-- A function on the unit interval whose increment is the divided difference. -/
noncomputable def chord (g g' : ℝ → ℝ) (x y t : ℝ) : ℝ :=
  if x = y then t * g' x else (g x - g (x + t * (y - x))) / (x - y)

theorem chord_zero (x y : ℝ) : chord g g' x y 0 = 0 := by unfold chord; split_ifs <;> simp

theorem chord_one (x y : ℝ) : chord g g' x y 1 = divDiff g g' x y := by
  unfold chord divDiff; split_ifs <;> simp

theorem mem_chord {x y t : ℝ} (hx : x ∈ Set.Icc a b) (hy : y ∈ Set.Icc a b) (ht : t ∈ Set.Icc (0 : ℝ) 1) :
    x + t * (y - x) ∈ Set.Icc a b := by
  obtain ⟨h1, h2⟩ := hx
  obtain ⟨h3, h4⟩ := hy
  obtain ⟨h5, h6⟩ := ht
  constructor <;> nlinarith

include hd

theorem chord_deriv {x y t : ℝ} (hx : x ∈ Set.Icc a b) (hy : y ∈ Set.Icc a b) (ht : t ∈ Set.Icc (0 : ℝ) 1) :
    HasDerivAt (chord g g' x y) (g' (x + t * (y - x))) t := by
  by_cases h : x = y
  · have e : chord g g' x y = fun t => t * g' x := by funext t; exact if_pos h
    rw [e, ← h, sub_self, mul_zero, add_zero]
    simpa using (hasDerivAt_id t).mul_const (g' x)
  · have e : chord g g' x y = fun t => (g x - g (x + t * (y - x))) / (x - y) := by funext t; exact if_neg h
    rw [e]
    have h1 : HasDerivAt (fun t : ℝ => x + t * (y - x)) (y - x) t := by
      simpa using ((hasDerivAt_id t).mul_const (y - x)).const_add x
    have h2 := (((hd _ (mem_chord hx hy ht)).comp t h1).const_sub (g x)).div_const (x - y)
    have e2 : -(g' (x + t * (y - x)) * (y - x)) / (x - y) = g' (x + t * (y - x)) := by
      rw [div_eq_iff (sub_ne_zero.2 h)]
      ring
    rw [e2] at h2
    exact h2

/-- A bound of the derivative bounds the divided differences. -/
theorem abs_divDiff_le {D : ℝ} (hD : ∀ x ∈ Set.Icc a b, |g' x| ≤ D) {x y : ℝ} (hx : x ∈ Set.Icc a b) (hy : y ∈ Set.Icc a b) :
    |divDiff g g' x y| ≤ D := by
  have h := Convex.norm_image_sub_le_of_norm_hasDerivWithin_le (f := chord g g' x y) (f' := fun t => g' (x + t * (y - x)))
    (s := Set.Icc 0 1) (C := D) (fun t ht => (chord_deriv hd hx hy ht).hasDerivWithinAt)
    (fun t ht => hD _ (mem_chord hx hy ht)) (convex_Icc 0 1) (x := 0) (y := 1) (by simp) (by simp)
  rw [chord_zero, chord_one] at h
  simpa using h

/-- A Lipschitz constant of the derivative is one of the divided differences. -/
theorem divDiff_lipschitz {L : ℝ} (hL0 : 0 ≤ L) (hL : ∀ x ∈ Set.Icc a b, ∀ y ∈ Set.Icc a b, |g' x - g' y| ≤ L * |x - y|)
    {x y z : ℝ} (hx : x ∈ Set.Icc a b) (hy : y ∈ Set.Icc a b) (hz : z ∈ Set.Icc a b) :
    |divDiff g g' x y - divDiff g g' x z| ≤ L * |y - z| := by
  have h := Convex.norm_image_sub_le_of_norm_hasDerivWithin_le (f := fun t => chord g g' x y t - chord g g' x z t)
    (f' := fun t => g' (x + t * (y - x)) - g' (x + t * (z - x)))
    (s := Set.Icc 0 1) (C := L * |y - z|)
    (fun t ht => ((chord_deriv hd hx hy ht).sub (chord_deriv hd hx hz ht)).hasDerivWithinAt)
    (fun t ht => by
      refine (hL _ (mem_chord hx hy ht) _ (mem_chord hx hz ht)).trans (mul_le_mul_of_nonneg_left ?_ hL0)
      rw [show x + t * (y - x) - (x + t * (z - x)) = t * (y - z) by ring, abs_mul, abs_of_nonneg ht.1]
      exact mul_le_of_le_one_left (abs_nonneg _) ht.2) (convex_Icc 0 1) (x := 0) (y := 1) (by simp) (by simp)
  simp only [chord_zero, chord_one] at h
  simpa using h

end

/-! ### neighbouring matrices -/

theorem frob_orthogonal {O : Ten2 ℝ} (hO : Orthogonal O) : frob O ≤ 2 := by
  refine frob_le (by norm_num) ?_
  rw [← frob_sq, frob_sq_trace]
  have : Oᵀ * O = 1 := hO
  rw [this]
  simp [Matrix.trace, Fin.sum_univ_three]
  norm_num

theorem kernel_split {O H : Ten2 ℝ} (hO : Orthogonal O) (p q : Fin 3 → Fin 3 → ℝ) (r : Fin 3 → Fin 3 → ℝ) (a b : Fin 3) :
    ∑ c, p a c * (∑ d, H a d * O c d) * O c b - ∑ d, O a d * ((∑ c, O c d * H c b) * q d b) =
      ∑ c, ∑ d, (p a c - r a b) * (H a d * O c d * O c b) - ∑ d, ∑ c, (q d b - r a b) * (O a d * O c d * H c b) := by
  have h1 : ∑ c, ∑ d, H a d * O c d * O c b = H a b := by
    rw [Finset.sum_comm]
    have : ∀ d, ∑ c, H a d * O c d * O c b = H a d * if d = b then 1 else 0 := fun d => by
      rw [← orthonormal hO d b, Finset.mul_sum]
      exact Finset.sum_congr rfl fun c _ => by ring
    simp [this]
  have hO' : O * Oᵀ = 1 := mul_eq_one_comm.1 hO
  have h2 : ∑ d, ∑ c, O a d * O c d * H c b = H a b := by
    rw [Finset.sum_comm]
    have : ∀ c, ∑ d, O a d * O c d * H c b = (if a = c then 1 else 0) * H c b := fun c => by
      have := congrFun (congrFun hO' a) c
      rw [Matrix.mul_apply, Matrix.one_apply] at this
      rw [← this, Finset.sum_mul]
      exact Finset.sum_congr rfl fun c _ => by rw [Matrix.transpose_apply]
    simp [this]
  have e1 : ∑ c, ∑ d, (p a c - r a b) * (H a d * O c d * O c b) =
      ∑ c, p a c * (∑ d, H a d * O c d) * O c b - r a b * H a b := by
    conv_rhs => rw [← h1]
    rw [Finset.mul_sum, ← Finset.sum_sub_distrib]
    refine Finset.sum_congr rfl fun c _ => ?_
    rw [Finset.mul_sum, Finset.mul_sum, Finset.sum_mul, ← Finset.sum_sub_distrib]
    exact Finset.sum_congr rfl fun d _ => by ring
  have e2 : ∑ d, ∑ c, (q d b - r a b) * (O a d * O c d * H c b) =
      ∑ d, O a d * ((∑ c, O c d * H c b) * q d b) - r a b * H a b := by
    conv_rhs => rw [← h2]
    rw [Finset.mul_sum, ← Finset.sum_sub_distrib]
    refine Finset.sum_congr rfl fun d _ => ?_
    rw [Finset.mul_sum, Finset.sum_mul, Finset.mul_sum, ← Finset.sum_sub_distrib]
    exact Finset.sum_congr rfl fun c _ => by ring
  rw [e1, e2]
  ring

/-- The derivative, in the direction `X`, of a function of a symmetric matrix with the eigenvectors `V`; `k` are the
divided differences at the eigenvalues. -/
noncomputable def spectralDeriv (V : Ten2 ℝ) (k : Fin 3 → Fin 3 → ℝ) (X : Ten2 ℝ) : Ten2 ℝ :=
  V * (Matrix.of fun a b => k a b * (Vᵀ * X * V) a b) * Vᵀ

/-- The derivative at a neighbouring matrix. -/
theorem spectralDeriv_perturb {B C V U : Ten2 ℝ} {w s : Fin 3 → ℝ} (hB : Spectral B w V) (hC : Spectral C s U)
    (k : ℝ → ℝ → ℝ) {L : ℝ} (hL0 : 0 ≤ L) (h1 : ∀ a c b, |k (w a) (w c) - k (w a) (s b)| ≤ L * |w c - s b|)
    (h2 : ∀ a d b, |k (s d) (s b) - k (w a) (s b)| ≤ L * |s d - w a|) (X : Ten2 ℝ) :
    frob (spectralDeriv V (fun a b => k (w a) (w b)) X - spectralDeriv U (fun a b => k (s a) (s b)) X) ≤
      4 * L * frob X * frob (B - C) := by
  have hV : Vᵀ * V = 1 := hB.orthogonal
  have hU : Uᵀ * U = 1 := hC.orthogonal
  have hV' : V * Vᵀ = 1 := mul_eq_one_comm.1 hV
  have hU' : U * Uᵀ = 1 := mul_eq_one_comm.1 hU
  set O : Ten2 ℝ := Vᵀ * U with hOdef
  set H : Ten2 ℝ := Vᵀ * X * U with hHdef
  set Δ : Ten2 ℝ := Vᵀ * (B - C) * U with hΔdef
  have hO : Orthogonal O := by
    change Oᵀ * O = 1
    rw [hOdef, Matrix.transpose_mul, Matrix.transpose_transpose]
    calc Uᵀ * V * (Vᵀ * U) = Uᵀ * (V * Vᵀ) * U := by simp only [Matrix.mul_assoc]
      _ = 1 := by rw [hV', Matrix.mul_one, hU]
  have hΔ : ∀ c b, Δ c b = (w c - s b) * O c b := fun c b => by
    rw [hΔdef, Spectral.eq hB, Spectral.eq hC, diff_components hB.orthogonal hC.orthogonal]
  have hVXV : Vᵀ * X * V = H * Oᵀ := by
    rw [hHdef, hOdef, Matrix.transpose_mul, Matrix.transpose_transpose]
    calc Vᵀ * X * V = Vᵀ * X * (U * Uᵀ) * V := by rw [hU', Matrix.mul_one]
      _ = _ := by simp only [Matrix.mul_assoc]
  have hUXU : Uᵀ * X * U = Oᵀ * H := by
    rw [hHdef, hOdef, Matrix.transpose_mul, Matrix.transpose_transpose]
    calc Uᵀ * X * U = Uᵀ * (V * Vᵀ) * X * U := by rw [hV', Matrix.mul_one]
      _ = _ := by simp only [Matrix.mul_assoc]
  set P : Ten2 ℝ := Matrix.of fun a b => k (w a) (w b) * (Vᵀ * X * V) a b with hP
  set Q : Ten2 ℝ := Matrix.of fun a b => k (s a) (s b) * (Uᵀ * X * U) a b with hQ
  have hrot : Vᵀ * (V * P * Vᵀ - U * Q * Uᵀ) * U = P * O - O * Q := by
    rw [Matrix.mul_sub, Matrix.sub_mul]
    congr 1
    · calc Vᵀ * (V * P * Vᵀ) * U = (Vᵀ * V) * (P * (Vᵀ * U)) := by simp only [Matrix.mul_assoc]
        _ = _ := by rw [hV, Matrix.one_mul]
    · calc Vᵀ * (U * Q * Uᵀ) * U = Vᵀ * U * Q * (Uᵀ * U) := by simp only [Matrix.mul_assoc]
        _ = _ := by rw [hU, Matrix.mul_one]
  have hent : ∀ a b, |(P * O - O * Q) a b| ≤
      |(L • (abs2 H * (abs2 O)ᵀ * abs2 Δ + abs2 Δ * (abs2 O)ᵀ * abs2 H)) a b| := fun a b => by
    have e : (P * O - O * Q) a b = ∑ c, k (w a) (w c) * (∑ d, H a d * O c d) * O c b -
        ∑ d, O a d * ((∑ c, O c d * H c b) * k (s d) (s b)) := by
      rw [Matrix.sub_apply, Matrix.mul_apply, Matrix.mul_apply, hP, hQ, hVXV, hUXU]
      congr 1
      refine Finset.sum_congr rfl fun d _ => ?_
      simp only [Matrix.of_apply, Matrix.mul_apply, Matrix.transpose_apply]
      ring
    rw [e, kernel_split hO (fun a c => k (w a) (w c)) (fun d b => k (s d) (s b)) (fun a b => k (w a) (s b)) a b]
    refine le_trans ?_ (le_abs_self _)
    rw [Matrix.smul_apply, Matrix.add_apply, smul_eq_mul, mul_add]
    refine (abs_sub _ _).trans (add_le_add ?_ ?_)
    · simp only [Matrix.mul_apply, Matrix.transpose_apply, abs2, Finset.mul_sum, Finset.sum_mul]
      refine (Finset.abs_sum_le_sum_abs _ _).trans (Finset.sum_le_sum fun c _ => ?_)
      refine (Finset.abs_sum_le_sum_abs _ _).trans (Finset.sum_le_sum fun d _ => ?_)
      rw [hΔ, abs_mul, abs_mul, abs_mul, abs_mul]
      have := mul_le_mul_of_nonneg_right (h1 a c b) (by positivity : 0 ≤ |H a d| * |O c d| * |O c b|)
      refine this.trans_eq ?_
      ring
    · simp only [Matrix.mul_apply, Matrix.transpose_apply, abs2, Finset.mul_sum, Finset.sum_mul]
      rw [Finset.sum_comm]
      refine (Finset.abs_sum_le_sum_abs _ _).trans (Finset.sum_le_sum fun c _ => ?_)
      refine (Finset.abs_sum_le_sum_abs _ _).trans (Finset.sum_le_sum fun d _ => ?_)
      rw [hΔ, abs_mul, abs_mul, abs_mul, abs_mul, abs_sub_comm (w a)]
      have := mul_le_mul_of_nonneg_right (h2 a d b) (by positivity : 0 ≤ |O a d| * |O c d| * |H c b|)
      refine this.trans_eq ?_
      ring
  have hf := frob_mono hent
  rw [← hrot, frob_rotate hB.orthogonal hC.orthogonal, frob_smul, abs_of_nonneg hL0] at hf
  refine hf.trans ?_
  have hH : frob H = frob X := frob_rotate hB.orthogonal hC.orthogonal X
  have hD : frob Δ = frob (B - C) := frob_rotate hB.orthogonal hC.orthogonal _
  have h3 := frob_orthogonal hO
  have h4 : ∀ Y W : Ten2 ℝ, frob (abs2 Y * (abs2 O)ᵀ * abs2 W) ≤ frob Y * 2 * frob W := fun Y W => by
    refine (frob_mul_le _ _).trans ?_
    rw [frob_abs2]
    refine mul_le_mul_of_nonneg_right ((frob_mul_le _ _).trans ?_) (frob_nonneg _)
    rw [frob_transpose, frob_abs2, frob_abs2]
    exact mul_le_mul_of_nonneg_left h3 (frob_nonneg _)
  have h5 := (frob_add_le (abs2 H * (abs2 O)ᵀ * abs2 Δ) (abs2 Δ * (abs2 O)ᵀ * abs2 H)).trans (add_le_add (h4 H Δ) (h4 Δ H))
  rw [hH, hD] at h5
  refine (mul_le_mul_of_nonneg_left h5 hL0).trans_eq ?_
  ring

end Hel.Rnd
