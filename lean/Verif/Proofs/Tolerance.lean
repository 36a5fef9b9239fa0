import Verif.Spec.Tolerance
import Verif.Props.Stretches
import Mathlib.Analysis.Calculus.MeanValue

/-! Divided differences of principal stress coefficients and their limits. -/

namespace Hel
open Spec Matrix Filter Topology

variable {Z μ : Type}

namespace Stretches

theorem Dmat_eq (l g : Fin 3 → ℝ) (h : Fin 3 → Fin 3 → ℝ) : Dmat l g h = squaredHess l g h := by
  funext a b
  simp only [Dmat, squaredHess, dlC]
  split_ifs with hab
  · congr 1
    rw [div_div]
    congr 1
    ring
  · rfl

/-- the derivative of a principal stress coefficient along a motion of the eigenvalues -/
theorem dlC_hasDerivAt {ret retH} (h : IsHessian3 Positive ret retH) {w : ℝ → Fin 3 → ℝ} {w' : Fin 3 → ℝ} {t₀ : ℝ}
    (hw : ∀ a, HasDerivAt (fun t => w t a) (w' a) t₀) (hpos : ∀ᶠ t in 𝓝 t₀, ∀ a, 0 < w t a) {g : ℝ → Fin 3 → ℝ}
    (hg : ∀ᶠ t in 𝓝 t₀, ret (roots (w t)) (g t)) {H} (hH : retH (roots (w t₀)) H) (a : Fin 3) :
    HasDerivAt (fun t => dlC (roots (w t)) (g t) a) (∑ b, Dmat (roots (w t₀)) (g t₀) H a b * w' b) t₀ := by
  have hp0 := hpos.self_of_nhds
  have hl : Positive (roots (w t₀)) := roots_pos hp0
  have hr : ∀ b, HasDerivAt (fun t => roots (w t) b) (w' b / (2 * roots (w t₀) b)) t₀ := fun b =>
    (hw b).sqrt (hp0 b).ne'
  have h1 := h (fun t => roots (w t)) (fun b => w' b / (2 * roots (w t₀) b)) t₀ g H
    (hpos.mono fun t ht => roots_pos ht) hr hg hH a
  have hne : (2 * roots (w t₀) a) ≠ 0 := by have := hl a; positivity
  have h2 := h1.div ((hr a).const_mul 2) hne
  refine h2.congr_deriv ?_
  rw [← Dmat_sum _ _ _ _ hl]
  have := (hl a).ne'
  field_simp

/-- The divided difference is a value of the second derivatives between the two orders of the eigenvalues. -/
theorem exact_mean {mat : StrMat Z μ} {z : Z} (hs : StrMat.Symmetric mat) (ht : StrMat.Total mat z)
    (hth : StrMat.TotalHess mat z) (h : IsHessian3 Positive (StrMat.Grad mat z) (StrMat.Hess mat z))
    {w g : Fin 3 → ℝ} (hw : ∀ a, 0 < w a) (hg : StrMat.Grad mat z (roots w) g) {a b : Fin 3} (hab : w a ≠ w b) :
    ∃ x g' H', (∀ c, 0 < x c) ∧ StrMat.Grad mat z (roots x) g' ∧ StrMat.Hess mat z (roots x) H' ∧
      (∀ c, |x c - w c| ≤ |w a - w b|) ∧ (∀ m M : ℝ, (∀ c, m ≤ w c ∧ w c ≤ M) → ∀ c, m ≤ x c ∧ x c ≤ M) ∧
      (dlC (roots w) g a - dlC (roots w) g b) / (w a - w b) = Dmat (roots x) g' H' b b - Dmat (roots x) g' H' b a := by
  classical
  have hne : a ≠ b := fun e => hab (by rw [e])
  let d := w a - w b
  have hd : d ≠ 0 := sub_ne_zero.2 hab
  let X : ℝ → Fin 3 → ℝ := fun t c => if c = a then w b + t * d else if c = b then w a - t * d else w c
  let X' : Fin 3 → ℝ := fun c => if c = a then d else if c = b then -d else 0
  have hX : ∀ t c, HasDerivAt (fun t => X t c) (X' c) t := fun t c => by
    simp only [X, X']
    split_ifs
    · simpa using ((hasDerivAt_id t).mul_const d).const_add (w b)
    · simpa using ((hasDerivAt_id t).mul_const d).const_sub (w a)
    · exact hasDerivAt_const _ _
  have hbd : ∀ (m M : ℝ), (∀ c, m ≤ w c ∧ w c ≤ M) → ∀ t, 0 ≤ t → t ≤ 1 → ∀ c, m ≤ X t c ∧ X t c ≤ M := by
    intro m M hm t h0 h1 c
    have ha := hm a
    have hb := hm b
    simp only [X, d]
    split_ifs
    · constructor <;> nlinarith
    · constructor <;> nlinarith
    · exact hm c
  have hXpos : ∀ t, 0 ≤ t → t ≤ 1 → ∀ c, 0 < X t c := by
    intro t h0 h1 c
    have ha := hw a
    have hb := hw b
    simp only [X, d]
    split_ifs
    · rcases h0.eq_or_lt with rfl | h0'
      · simpa using hb
      · nlinarith
    · rcases h0.eq_or_lt with rfl | h0'
      · simpa using ha
      · nlinarith
    · exact hw c
  have hev : ∀ t, 0 ≤ t → t ≤ 1 → ∀ᶠ u in 𝓝 t, ∀ c, 0 < X u c := fun t h0 h1 =>
    positive_eventually (continuousAt_pi.2 fun c => (hX t c).continuousAt) (hXpos t h0 h1)
  choose! γ hγ using fun x => ht x
  have hder : ∀ t, 0 ≤ t → t ≤ 1 → ∀ H, StrMat.Hess mat z (roots (X t)) H → HasDerivAt (fun t => dlC (roots (X t)) (γ (roots (X t))) b)
      (∑ c, Dmat (roots (X t)) (γ (roots (X t))) H b c * X' c) t := fun t h0 h1 H hH =>
    dlC_hasDerivAt h (g := fun t => γ (roots (X t))) (hX t) (hev t h0 h1) ((hev t h0 h1).mono fun u hu => hγ _ (roots_pos hu)) hH b
  choose! η hη using fun x => hth x
  have hη' : ∀ t, 0 ≤ t → t ≤ 1 → StrMat.Hess mat z (roots (X t)) (η (roots (X t))) := fun t h0 h1 =>
    hη _ (roots_pos (hXpos t h0 h1))
  obtain ⟨t, htm, hval⟩ := exists_hasDerivAt_eq_slope (fun t => dlC (roots (X t)) (γ (roots (X t))) b)
    (fun t => ∑ c, Dmat (roots (X t)) (γ (roots (X t))) (η (roots (X t))) b c * X' c) (zero_lt_one' ℝ)
    (fun t ht => (hder t ht.1 ht.2 _ (hη' t ht.1 ht.2)).continuousAt.continuousWithinAt)
    (fun t ht => hder t ht.1.le ht.2.le _ (hη' t ht.1.le ht.2.le))
  have h0 := htm.1.le
  have h1 := htm.2.le
  refine ⟨X t, γ (roots (X t)), η (roots (X t)), hXpos t h0 h1, hγ _ (roots_pos (hXpos t h0 h1)), hη' t h0 h1, ?_, ?_, ?_⟩
  · intro c
    simp only [X]
    split_ifs with hc hc
    · rw [hc, show w b + t * d - w a = -((1 - t) * d) by simp only [d]; ring, abs_neg, abs_mul, abs_of_nonneg (by linarith : 0 ≤ 1 - t)]
      exact mul_le_of_le_one_left (abs_nonneg _) (by linarith)
    · rw [hc, show w a - t * d - w b = (1 - t) * d by simp only [d]; ring, abs_mul, abs_of_nonneg (by linarith : 0 ≤ 1 - t)]
      exact mul_le_of_le_one_left (abs_nonneg _) (by linarith)
    · rw [sub_self, abs_zero]; positivity
  · exact fun m M hm c => hbd m M hm t h0 h1 c
  · have e1 : X 1 = w := by
      funext c
      simp only [X, d]
      split_ifs with hc hc
      · rw [hc]; ring
      · rw [hc]; ring
      · rfl
    have e0 : X 0 = w ∘ Equiv.swap a b := by
      funext c
      simp only [X, d, Function.comp_apply]
      split_ifs with hc hc'
      · rw [hc, Equiv.swap_apply_left]; ring
      · rw [hc', Equiv.swap_apply_right]; ring
      · rw [Equiv.swap_apply_of_ne_of_ne hc hc']
    have hr0 : roots (X 0) = roots w ∘ Equiv.swap a b := by rw [e0, roots_comp]
    have hgs : StrMat.Grad mat z (roots (X 0)) (g ∘ Equiv.swap a b) := by
      rw [hr0]; exact Props.symmetric_grad hs z _ _ _ hg
    have g0 : γ (roots (X 0)) = g ∘ Equiv.swap a b :=
      h.unique (roots_pos (hXpos 0 le_rfl zero_le_one)) (hγ _ (roots_pos (hXpos 0 le_rfl zero_le_one))) hgs
        (hη' 0 le_rfl zero_le_one)
    have g1 : γ (roots (X 1)) = g := by
      have := hη' 1 zero_le_one le_rfl
      have h2 := hγ _ (roots_pos (hXpos 1 zero_le_one le_rfl))
      rw [e1] at this h2 ⊢
      exact h.unique (roots_pos hw) h2 hg this
    have v0 : dlC (roots (X 0)) (γ (roots (X 0))) b = dlC (roots w) g a := by
      rw [g0, hr0]; simp only [dlC, Function.comp_apply, Equiv.swap_apply_right]
    have v1 : dlC (roots (X 1)) (γ (roots (X 1))) b = dlC (roots w) g b := by rw [g1, e1]
    rw [v0, v1, sub_zero, div_one] at hval
    have hsum : ∑ c, Dmat (roots (X t)) (γ (roots (X t))) (η (roots (X t))) b c * X' c =
        (Dmat (roots (X t)) (γ (roots (X t))) (η (roots (X t))) b a - Dmat (roots (X t)) (γ (roots (X t))) (η (roots (X t))) b b) * d := by
      have : ∀ c, Dmat (roots (X t)) (γ (roots (X t))) (η (roots (X t))) b c * X' c =
          (if c = a then Dmat (roots (X t)) (γ (roots (X t))) (η (roots (X t))) b a * d else 0) +
          (if c = b then -(Dmat (roots (X t)) (γ (roots (X t))) (η (roots (X t))) b b * d) else 0) := by
        intro c
        simp only [X']
        by_cases hc : c = a
        · subst hc
          rw [if_pos rfl, if_pos rfl, if_neg hne, add_zero]
        · by_cases hc' : c = b
          · subst hc'
            rw [if_neg hc, if_pos rfl, if_neg hc, if_pos rfl]; ring
          · simp [hc, hc']
      simp only [this, Finset.sum_add_distrib, Finset.sum_ite_eq', Finset.mem_univ, if_true]
      ring
    rw [hsum] at hval
    change _ / d = _
    rw [div_eq_iff hd]
    linarith

end Stretches
end Hel

namespace Hel
open Spec Matrix

/-- entries of a rotated tensor -/
theorem abs_rotate {v K : Ten2 ℝ} (hv : Orthogonal v) {c : ℝ} (hK : ∀ a b, |K a b| ≤ c) (i j : Fin 3) :
    |(v * K * vᵀ) i j| ≤ 3 * c := by
  have c0 : 0 ≤ c := (abs_nonneg _).trans (hK 0 0)
  have hrow : ∀ i, ∑ a, v i a * v i a = 1 := fun i => by
    have := congrFun (congrFun hv.mul_transpose i) i
    rw [Matrix.mul_apply, Matrix.one_apply_eq] at this
    exact this
  have h1 : (v * K * vᵀ) i j = ∑ b, ∑ a, v i a * K a b * v j b := by
    simp only [Matrix.mul_apply, Matrix.transpose_apply, Finset.sum_mul]
  rw [h1]
  calc |∑ b, ∑ a, v i a * K a b * v j b| ≤ ∑ b, ∑ a, |v i a * K a b * v j b| :=
        (Finset.abs_sum_le_sum_abs ..).trans (Finset.sum_le_sum fun b _ => Finset.abs_sum_le_sum_abs ..)
    _ ≤ ∑ b, ∑ a, (v i a * v i a + v j b * v j b) / 2 * c := by
        refine Finset.sum_le_sum fun b _ => Finset.sum_le_sum fun a _ => ?_
        rw [abs_mul, abs_mul]
        have h2 : |v i a| * |v j b| ≤ (v i a * v i a + v j b * v j b) / 2 := by
          nlinarith [sq_nonneg (|v i a| - |v j b|), abs_mul_abs_self (v i a), abs_mul_abs_self (v j b)]
        calc |v i a| * |K a b| * |v j b| = |v i a| * |v j b| * |K a b| := by ring
          _ ≤ (v i a * v i a + v j b * v j b) / 2 * c :=
            mul_le_mul h2 (hK a b) (abs_nonneg _) ((mul_nonneg (abs_nonneg _) (abs_nonneg _)).trans h2)
    _ = 3 * c := by
        have e : ∑ b, ∑ a, (v i a * v i a + v j b * v j b) / 2 * c =
            (3 * (∑ a, v i a * v i a) + 3 * ∑ b, v j b * v j b) / 2 * c := by
          simp only [Fin.sum_univ_three]
          ring
        rw [e, hrow, hrow]
        ring

namespace Stretches

theorem squaresIn {w : Fin 3 → ℝ} {m M : ℝ} (hw : ∀ a, 0 < w a) (h : ∀ a, m ≤ w a ∧ w a ≤ M) : SquaresIn m M (roots w) :=
  ⟨roots_pos hw, fun a => by rw [roots_sq hw]; exact h a⟩

/-- inside the tolerance the factor of the code is close to the divided difference -/
theorem cross_close {mat : StrMat Z μ} {z : Z} (hs : StrMat.Symmetric mat) (ht : StrMat.Total mat z)
    (hth : StrMat.TotalHess mat z) (h : IsHessian3 Positive (StrMat.Grad mat z) (StrMat.Hess mat z)) {m M L : ℝ}
    (hL0 : 0 ≤ L) (hL : StrMat.LipschitzHess mat z m M L) {w g : Fin 3 → ℝ} {H : Fin 3 → Fin 3 → ℝ} (hf : Fixed w g H)
    (hg : StrMat.Grad mat z (roots w) g) (hH : StrMat.Hess mat z (roots w) H) (hm : ∀ a, m ≤ w a ∧ w a ≤ M) (a b : Fin 3) :
    |exact w (dlC (roots w) g) (Dmat (roots w) g H) a b - cross' (roots w) (dlC (roots w) g) (Dmat (roots w) g H) a b| ≤
      2 * L * (1 / 10 ^ 8) := by
  have pos : 0 ≤ 2 * L * (1 / 10 ^ 8) := by positivity
  have key : ∀ a b, w a ≠ w b → |w a - w b| ≤ 1 / 10 ^ 8 → |(dlC (roots w) g a - dlC (roots w) g b) / (w a - w b) -
      (Dmat (roots w) g H b b - Dmat (roots w) g H a b)| ≤ 2 * L * (1 / 10 ^ 8) := by
    intro a b hab hd
    obtain ⟨x, g', H', hx, hg', hH', hxw, hxm, e⟩ := exact_mean hs ht hth h hf.pos hg hab
    have h1 := fun c d => hL _ _ _ _ _ _ (squaresIn hx (hxm m M hm)) (squaresIn hf.pos hm) hg' hH' hg hH (1 / 10 ^ 8)
      (fun c => by rw [roots_sq hx, roots_sq hf.pos]; exact (hxw c).trans hd) c d
    rw [e, Dmat_symm hf a b, Dmat_eq, Dmat_eq]
    have h2 := h1 b b
    have h3 := h1 b a
    rw [abs_le] at h2 h3 ⊢
    constructor <;> linarith [h2.1, h2.2, h3.1, h3.2]
  by_cases hsep : w a = w b ∨ 1 / 10 ^ 8 < |w a - w b|
  · rw [hf.exact_eq hsep, sub_self, abs_zero]; exact pos
  · push Not at hsep
    obtain ⟨hab, hd⟩ := hsep
    have hd' : |w b - w a| ≤ 1 / 10 ^ 8 := by rw [abs_sub_comm]; exact hd
    rw [exact, if_neg hab]
    unfold cross' cross
    rw [if_pos ((isclose_iff hf.pos a b).2 hd), if_pos ((isclose_iff hf.pos b a).2 hd')]
    split_ifs
    · exact key a b hab hd
    · rw [← neg_sub (w b), ← neg_sub (dlC (roots w) g b), neg_div_neg_eq]
      exact key b a (Ne.symm hab) hd'

end Stretches
end Hel

namespace Hel
open Spec Matrix Filter Topology

/-- a straight motion through a diagonal tensor with entries at least one stays positive definite -/
theorem posDef_near {x : Fin 3 → ℝ} (hx : ∀ a, 1 ≤ x a) {X' : Ten2 ℝ} (hX' : X'.IsSymm) :
    ∀ᶠ t in 𝓝 (0 : ℝ), PosDef (diagonal x + t • X') := by
  obtain ⟨K, K0, hK⟩ : ∃ K : ℝ, 0 ≤ K ∧ ∀ i j, |X' i j| ≤ K :=
    ⟨∑ i, ∑ j, |X' i j|, Finset.sum_nonneg fun _ _ => Finset.sum_nonneg fun _ _ => abs_nonneg _, fun i j =>
      (Finset.single_le_sum (f := fun j => |X' i j|) (fun _ _ => abs_nonneg _) (Finset.mem_univ j)).trans
        (Finset.single_le_sum (f := fun i => ∑ j, |X' i j|) (fun _ _ => Finset.sum_nonneg fun _ _ => abs_nonneg _)
          (Finset.mem_univ i))⟩
  have hd : (0 : ℝ) < 1 / (3 * K + 1) := by positivity
  filter_upwards [Metric.ball_mem_nhds (0 : ℝ) hd] with t ht
  rw [Metric.mem_ball, dist_zero_right, Real.norm_eq_abs, lt_div_iff₀ (by positivity)] at ht
  refine ⟨?_, fun u hu => ?_⟩
  · rw [Matrix.IsSymm, Matrix.transpose_add, Matrix.diagonal_transpose, Matrix.transpose_smul, hX'.eq]
  have e : u ⬝ᵥ ((diagonal x + t • X') *ᵥ u) = ∑ a, x a * (u a * u a) + t * ∑ a, ∑ b, X' a b * (u a * u b) := by
    simp only [dotProduct, Matrix.mulVec, Fin.sum_univ_three, Matrix.add_apply, Matrix.smul_apply, smul_eq_mul, diagonal_apply]
    simp
    ring
  rw [e]
  have hs : 0 < ∑ a, u a * u a := by
    obtain ⟨a, ha⟩ := Function.ne_iff.1 hu
    exact Finset.sum_pos' (fun b _ => mul_self_nonneg _) ⟨a, Finset.mem_univ a, mul_self_pos.2 ha⟩
  have h1 : ∑ a, u a * u a ≤ ∑ a, x a * (u a * u a) := Finset.sum_le_sum fun a _ =>
    le_mul_of_one_le_left (mul_self_nonneg _) (hx a)
  have h2 : |∑ a, ∑ b, X' a b * (u a * u b)| ≤ 3 * K * ∑ a, u a * u a := by
    calc |∑ a, ∑ b, X' a b * (u a * u b)| ≤ ∑ a, ∑ b, |X' a b * (u a * u b)| :=
          (Finset.abs_sum_le_sum_abs ..).trans (Finset.sum_le_sum fun b _ => Finset.abs_sum_le_sum_abs ..)
      _ ≤ ∑ a, ∑ b, K * ((u a * u a + u b * u b) / 2) := by
          refine Finset.sum_le_sum fun a _ => Finset.sum_le_sum fun b _ => ?_
          rw [abs_mul]
          refine mul_le_mul (hK a b) ?_ (abs_nonneg _) K0
          rw [abs_mul]
          nlinarith [sq_nonneg (|u a| - |u b|), abs_mul_abs_self (u a), abs_mul_abs_self (u b)]
      _ = 3 * K * ∑ a, u a * u a := by
          simp only [Fin.sum_univ_three]; ring
  have h3 : |t * ∑ a, ∑ b, X' a b * (u a * u b)| < ∑ a, u a * u a := by
    rw [abs_mul]
    calc |t| * |∑ a, ∑ b, X' a b * (u a * u b)| ≤ |t| * (3 * K * ∑ a, u a * u a) :=
          mul_le_mul_of_nonneg_left h2 (abs_nonneg _)
      _ ≤ |t| * (3 * K + 1) * ∑ a, u a * u a := by nlinarith [mul_nonneg (abs_nonneg t) hs.le]
      _ < 1 * ∑ a, u a * u a := mul_lt_mul_of_pos_right ht hs
      _ = _ := one_mul _
  rw [abs_lt] at h3
  linarith [h3.1]

end Hel
