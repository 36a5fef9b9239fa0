import Verif.Spec.Newton
import Verif.Proofs.Frechet
import Mathlib.Analysis.Calculus.MeanValue
import Mathlib.Analysis.Normed.Module.FiniteDimension

/-! # Newton's method with a consistent tangent -/

namespace Hel
open Spec Filter Topology

/-- the entries of a tensor, with the maximum norm -/
abbrev Entries := Fin 3 → Fin 3 → ℝ

/-- the entries of a tensor -/
def entries (U : Ten2 ℝ) : Entries := fun i j => U i j

/-- the linear map of a tangent -/
noncomputable def tangentMap (A : Ten4 ℝ) : Entries →ₗ[ℝ] Entries where
  toFun U := fun i j => ∑ k, ∑ l, A i j k l * U k l
  map_add' U V := by
    funext i j
    simp only [Pi.add_apply, mul_add, Finset.sum_add_distrib]
  map_smul' c U := by
    funext i j
    simp only [Pi.smul_apply, smul_eq_mul, RingHom.id_apply, Finset.mul_sum]
    refine Finset.sum_congr rfl fun k _ => Finset.sum_congr rfl fun l _ => by ring

theorem tangentMap_apply (A : Ten4 ℝ) (U : Ten2 ℝ) (i j : Fin 3) : tangentMap A (entries U) i j = contract42 A U i j := rfl

theorem norm_entries_le {U : Ten2 ℝ} {h : ℝ} (h0 : 0 ≤ h) : ‖entries U‖ ≤ h ↔ ∀ i j, |U i j| ≤ h := by
  rw [pi_norm_le_iff_of_nonneg h0]
  refine forall_congr' fun i => ?_
  rw [pi_norm_le_iff_of_nonneg h0]
  rfl

theorem near_norm {F X : Ten2 ℝ} {h : ℝ} (h0 : 0 ≤ h) : Near F X h ↔ ‖entries (X - F)‖ ≤ h := by
  rw [norm_entries_le h0]; rfl

/-- a regular tangent is bounded below -/
theorem regular_bound {A : Ten4 ℝ} (hA : Regular A) : ∃ K : ℝ, 0 < K ∧ ∀ U : Ten2 ℝ, ‖entries U‖ ≤ K * ‖tangentMap A (entries U)‖ := by
  have hk : LinearMap.ker (tangentMap A) = ⊥ := by
    rw [LinearMap.ker_eq_bot']
    intro U hU
    have := hA (Matrix.of U) fun i j => congrFun (congrFun hU i) j
    funext i j
    exact congrFun (congrFun this i) j
  obtain ⟨K, hK, hlip⟩ := LinearMap.exists_antilipschitzWith (tangentMap A) hk
  refine ⟨K, hK, fun U => ?_⟩
  have := hlip.le_mul_dist (entries U) 0
  simpa [dist_zero_right] using this

/-- `(A' - A) : U` -/
theorem tangentMap_diff {A A' : Ten4 ℝ} {e : ℝ} (h : ∀ i j k l, |A' i j k l - A i j k l| ≤ e) (U : Entries) :
    ‖tangentMap A' U - tangentMap A U‖ ≤ 9 * e * ‖U‖ := by
  have he : 0 ≤ e := (abs_nonneg _).trans (h 0 0 0 0)
  rw [pi_norm_le_iff_of_nonneg (by positivity)]
  intro i
  rw [pi_norm_le_iff_of_nonneg (by positivity)]
  intro j
  change |(∑ k, ∑ l, A' i j k l * U k l) - ∑ k, ∑ l, A i j k l * U k l| ≤ _
  rw [← Finset.sum_sub_distrib]
  refine (Finset.abs_sum_le_sum_abs _ _).trans ?_
  have : ∀ k ∈ Finset.univ, |(∑ l, A' i j k l * U k l) - ∑ l, A i j k l * U k l| ≤ 3 * (e * ‖U‖) := by
    intro k _
    rw [← Finset.sum_sub_distrib]
    refine (Finset.abs_sum_le_sum_abs _ _).trans ?_
    have : ∀ l ∈ Finset.univ, |A' i j k l * U k l - A i j k l * U k l| ≤ e * ‖U‖ := by
      intro l _
      rw [← sub_mul, abs_mul]
      exact mul_le_mul (h i j k l) ((norm_le_pi_norm (U k) l).trans (norm_le_pi_norm U k)) (abs_nonneg _) he
    refine (Finset.sum_le_card_nsmul _ _ _ this).trans (le_of_eq ?_)
    simp
  refine (Finset.sum_le_card_nsmul _ _ _ this).trans (le_of_eq ?_)
  simp
  ring

/-- `P(F) = P(X) + B : (F - X)` up to the square of the distance -/
theorem quadratic_remainder {dom : Ten2 ℝ → Prop} {ret : Ten2 ℝ → Ten2 ℝ → Prop} {retH : Ten2 ℝ → Ten4 ℝ → Prop}
    (h : IsHessian dom ret retH) (htot : ∀ Y, dom Y → ∃ P, ret Y P) (htotH : ∀ Y, dom Y → ∃ A, retH Y A)
    {F X P Q : Ten2 ℝ} {B : Ten4 ℝ} {L d δ : ℝ} (hd : ∀ Y, Near F Y δ → dom Y) (h2 : 2 * d ≤ δ) (hX : Near F X d)
    (hP : ret F P) (hQ : ret X Q) (hB : retH X B) (hL0 : 0 ≤ L)
    (hL : ∀ Y A e, Near F Y δ → Near X Y e → retH Y A → ∀ i j k l, |A i j k l - B i j k l| ≤ L * e) :
    ∀ i j, |P i j - Q i j - contract42 B (F - X) i j| ≤ 9 * L * d ^ 2 := by
  classical
  have d0 := near_pos hX
  -- the straight line
  let Y : ℝ → Ten2 ℝ := fun s => X + s • (F - X)
  have hY : ∀ s i j, Y s i j = X i j + s * (F i j - X i j) := fun s i j => rfl
  have hYF : ∀ s, |1 - s| ≤ 2 → Near F (Y s) δ := by
    intro s hs i j
    have e : Y s i j - F i j = (1 - s) * (X i j - F i j) := by rw [hY]; ring
    rw [e, abs_mul]
    exact (mul_le_mul hs (hX i j) (abs_nonneg _) zero_le_two).trans h2
  have hm : ∀ s, Moves Y (F - X) s := by
    intro s i j
    have := ((hasDerivAt_id' s).mul_const (F i j - X i j)).const_add (X i j)
    rw [one_mul] at this
    exact this
  have hev : ∀ s ∈ Set.Icc (0 : ℝ) 1, ∀ᶠ t in 𝓝 s, dom (Y t) := by
    intro s hs
    have : ∀ᶠ t in 𝓝 s, |t - s| < 1 := by
      have := Metric.ball_mem_nhds s one_pos
      filter_upwards [this] with t ht
      rwa [← Real.dist_eq]
    filter_upwards [this] with t ht
    refine hd _ (hYF t ?_)
    rw [abs_le]
    rw [abs_lt] at ht
    constructor <;> linarith [hs.1, hs.2]
  let R : ℝ → Ten2 ℝ := fun t => if ht : ∃ P, ret (Y t) P then ht.choose else 0
  have hR : ∀ t, dom (Y t) → ret (Y t) (R t) := by
    intro t ht
    have hx := htot _ ht
    have e : R t = hx.choose := dif_pos hx
    rw [e]; exact hx.choose_spec
  have h00 : (0 : ℝ) ∈ Set.Icc (0 : ℝ) 1 := ⟨le_rfl, zero_le_one⟩
  have h11 : (1 : ℝ) ∈ Set.Icc (0 : ℝ) 1 := ⟨zero_le_one, le_rfl⟩
  have hY0 : Y 0 = X := by simp [Y]
  have hY1 : Y 1 = F := by simp [Y]
  have hdX : dom X := by have := (hev 0 h00).self_of_nhds; rwa [hY0] at this
  have hdF : dom F := by have := (hev 1 h11).self_of_nhds; rwa [hY1] at this
  have hR0 : R 0 = Q := h.unique hdX (by have := hR 0 (by rw [hY0]; exact hdX); rwa [hY0] at this) hQ hB
  have hR1 : R 1 = P := by
    obtain ⟨A, hA⟩ := htotH F hdF
    exact h.unique hdF (by have := hR 1 (by rw [hY1]; exact hdF); rwa [hY1] at this) hP hA
  intro i j
  have hder : ∀ s ∈ Set.Icc (0 : ℝ) 1, ∃ c, HasDerivAt (fun t => R t i j - t * contract42 B (F - X) i j) c s ∧ |c| ≤ 9 * L * d ^ 2 := by
    intro s hs
    have hdom := hev s hs
    obtain ⟨A, hA⟩ := htotH _ hdom.self_of_nhds
    have h1 := h Y (F - X) s R A hdom (hm s) (hdom.mono fun t ht => hR t ht) hA i j
    have h3 := h1.sub ((hasDerivAt_id' s).mul_const (contract42 B (F - X) i j))
    rw [one_mul] at h3
    refine ⟨_, h3, ?_⟩
    have hXs : Near X (Y s) d := by
      intro k l
      rw [hY, add_sub_cancel_left, abs_mul, abs_of_nonneg hs.1]
      have := hX k l
      rw [abs_sub_comm] at this
      exact (mul_le_mul hs.2 this (abs_nonneg _) zero_le_one).trans (le_of_eq (one_mul d))
    have hab := hL (Y s) A d (hYF s (by rw [abs_le]; constructor <;> linarith [hs.1, hs.2])) hXs hA
    have h4 := tangentMap_diff hab (entries (F - X))
    have h5 : ‖entries (F - X)‖ ≤ d := by
      rw [norm_entries_le d0]
      intro k l
      have := hX k l
      rw [abs_sub_comm] at this
      exact this
    have h6 := (norm_le_pi_norm (tangentMap A (entries (F - X)) i - tangentMap B (entries (F - X)) i) j).trans
      (norm_le_pi_norm (tangentMap A (entries (F - X)) - tangentMap B (entries (F - X))) i)
    change |contract42 A (F - X) i j - contract42 B (F - X) i j| ≤ _ at h6
    refine (h6.trans h4).trans ?_
    nlinarith [mul_nonneg hL0 d0]
  choose! c hc hcb using hder
  have := Convex.norm_image_sub_le_of_norm_hasDerivWithin_le (f := fun t => R t i j - t * contract42 B (F - X) i j)
    (f' := c) (s := Set.Icc (0 : ℝ) 1) (C := 9 * L * d ^ 2) (x := 0) (y := 1) (fun s hs => (hc s hs).hasDerivWithinAt)
    (fun s hs => hcb s hs) (convex_Icc 0 1) h00 h11
  rw [hR0, hR1] at this
  simp only [Real.norm_eq_abs, sub_zero, one_mul, zero_mul, abs_one, mul_one] at this
  rwa [show P i j - Q i j - contract42 B (F - X) i j = P i j - contract42 B (F - X) i j - Q i j by ring]

/-- a Newton step from close to a regular solution exists and squares the distance -/
theorem newton_core {dom : Ten2 ℝ → Prop} {ret : Ten2 ℝ → Ten2 ℝ → Prop} {retH : Ten2 ℝ → Ten4 ℝ → Prop}
    (h : IsHessian dom ret retH) (htot : ∀ Y, dom Y → ∃ P, ret Y P) (htotH : ∀ Y, dom Y → ∃ A, retH Y A)
    {F P : Ten2 ℝ} {A : Ten4 ℝ} (hd : Inside dom F) (hP : ret F P) (hA : retH F A) (hreg : Regular A)
    (hlip : LipschitzResult retH F) :
    ∃ δ > 0, ∃ c > 0, c * δ ≤ 1 / 2 ∧ ∀ X d, d ≤ δ → Near F X d →
      (∃ Y, NewtonStep ret retH P X Y) ∧ (∀ B, retH X B → Regular B) ∧ dom X ∧
        ∀ Y, NewtonStep ret retH P X Y → Near F Y (c * d ^ 2) := by
  obtain ⟨ρ, hρ, hd⟩ := hd
  obtain ⟨ρ', hρ', L₀, hL⟩ := hlip
  obtain ⟨K, hK, hKA⟩ := regular_bound hreg
  obtain ⟨L, hL0, hLL⟩ : ∃ L, 0 ≤ L ∧ L₀ ≤ L := ⟨max L₀ 0, le_max_right _ _, le_max_left _ _⟩
  let r := min ρ ρ'
  have hr : 0 < r := lt_min hρ hρ'
  let c := 18 * K * L + 1
  have hc : 0 < c := by positivity
  let δ := min (r / 2) (1 / (2 * c))
  have hδ : 0 < δ := by positivity
  have hδr : 2 * δ ≤ r := by have : δ ≤ r / 2 := min_le_left _ _; linarith
  have hcδ : c * δ ≤ 1 / 2 := by
    have h1 : δ ≤ 1 / (2 * c) := min_le_right _ _
    calc c * δ ≤ c * (1 / (2 * c)) := mul_le_mul_of_nonneg_left h1 hc.le
      _ = 1 / 2 := by field_simp
  have mono : ∀ {X Y : Ten2 ℝ} {a b : ℝ}, a ≤ b → Near X Y a → Near X Y b := fun hab hN i j => (hN i j).trans hab
  refine ⟨δ, hδ, c, hc, hcδ, fun X d hdδ hX => ?_⟩
  have d0 := near_pos hX
  have hFF : Near F F r := fun i j => by rw [sub_self, abs_zero]; exact hr.le
  have hXr : Near F X r := mono (by linarith) hX
  have hdX : dom X := hd X (mono (min_le_left _ _) hXr)
  -- every returned tangent at X is bounded below
  have key : ∀ B, retH X B → ∀ U : Ten2 ℝ, ‖entries U‖ ≤ 2 * K * ‖tangentMap B (entries U)‖ := by
    intro B hB U
    have hAB : ∀ i j k l, |B i j k l - A i j k l| ≤ L * d := fun i j k l =>
      (hL F X A B d (mono (min_le_right _ _) hFF) (mono (min_le_right _ _) hXr) hX hA hB i j k l).trans
        (mul_le_mul_of_nonneg_right hLL d0)
    have h1 := tangentMap_diff hAB (entries U)
    have h2 := hKA U
    have h3 : ‖tangentMap A (entries U)‖ ≤ ‖tangentMap B (entries U)‖ + 9 * (L * d) * ‖entries U‖ := by
      have : tangentMap A (entries U) = tangentMap B (entries U) - (tangentMap B (entries U) - tangentMap A (entries U)) := by abel
      rw [this]
      exact (norm_sub_le _ _).trans (add_le_add le_rfl h1)
    have h4 : K * (9 * (L * d)) ≤ 1 / 2 := by
      have : c * d ≤ 1 / 2 := (mul_le_mul_of_nonneg_left hdδ hc.le).trans hcδ
      have h5 : c * d = 18 * K * L * d + d := by ring
      nlinarith
    have h5 : ‖entries U‖ ≤ K * ‖tangentMap B (entries U)‖ + 1 / 2 * ‖entries U‖ := by
      refine h2.trans ((mul_le_mul_of_nonneg_left h3 hK.le).trans ?_)
      rw [mul_add]
      refine add_le_add le_rfl ?_
      calc K * (9 * (L * d) * ‖entries U‖) = K * (9 * (L * d)) * ‖entries U‖ := by ring
        _ ≤ _ := mul_le_mul_of_nonneg_right h4 (norm_nonneg _)
    linarith
  refine ⟨?_, fun B hB U hU => ?_, hdX, ?_⟩
  · obtain ⟨Q, hQ⟩ := htot X hdX
    obtain ⟨B, hB⟩ := htotH X hdX
    have hinj : Function.Injective (tangentMap B) := by
      rw [← LinearMap.ker_eq_bot, LinearMap.ker_eq_bot']
      intro U hU
      have := key B hB (Matrix.of U)
      have e : entries (Matrix.of U) = U := rfl
      rw [e, hU, norm_zero, mul_zero] at this
      exact norm_le_zero_iff.1 this
    obtain ⟨U, hU⟩ := LinearMap.injective_iff_surjective.1 hinj (entries (P - Q))
    refine ⟨X + Matrix.of U, Q, B, hQ, hB, fun i j => ?_⟩
    rw [add_sub_cancel_left]
    have : contract42 B (Matrix.of U) i j = P i j - Q i j := congrFun (congrFun hU i) j
    rw [this]; ring
  · have h1 := key B hB U
    have h2 : tangentMap B (entries U) = 0 := by
      funext i j; exact hU i j
    rw [h2, norm_zero, mul_zero] at h1
    have h3 : entries U = 0 := norm_le_zero_iff.1 h1
    ext i j; exact congrFun (congrFun h3 i) j
  · rintro Y ⟨Q, B, hQ, hB, hstep⟩
    rw [near_norm (by positivity)]
    refine (key B hB (Y - F)).trans ?_
    have hrem := quadratic_remainder h htot htotH (F := F) (X := X) (P := P) (Q := Q) (B := B) (L := L) (d := d) (δ := r)
      (fun Y hY => hd Y (mono (min_le_left _ _) hY)) (by linarith) hX hP hQ hB hL0
      (fun Y' A' e hY' he hA' i j k l => (hL X Y' B A' e (mono (min_le_right _ _) hXr) (mono (min_le_right _ _) hY') he hB hA' i j k l).trans
        (mul_le_mul_of_nonneg_right hLL (near_pos he)))
    have h1 : ‖tangentMap B (entries (Y - F))‖ ≤ 9 * L * d ^ 2 := by
      rw [pi_norm_le_iff_of_nonneg (by positivity)]
      intro i
      rw [pi_norm_le_iff_of_nonneg (by positivity)]
      intro j
      have e : tangentMap B (entries (Y - F)) i j = P i j - Q i j - contract42 B (F - X) i j := by
        have e1 : entries (Y - F) = entries (Y - X) - entries (F - X) := by
          funext k l
          change Y k l - F k l = (Y k l - X k l) - (F k l - X k l)
          ring
        rw [e1, map_sub]
        change contract42 B (Y - X) i j - contract42 B (F - X) i j = _
        rw [← hstep i j]; ring
      rw [e]
      exact hrem i j
    calc 2 * K * ‖tangentMap B (entries (Y - F))‖ ≤ 2 * K * (9 * L * d ^ 2) :=
          mul_le_mul_of_nonneg_left h1 (by positivity)
      _ ≤ c * d ^ 2 := by
          have : (0 : ℝ) ≤ d ^ 2 := sq_nonneg d
          have e : c * d ^ 2 = 18 * K * L * d ^ 2 + d ^ 2 := by ring
          rw [e]; nlinarith

/-- the next iterate is determined when the calls return one stress and one regular tangent -/
theorem newtonStep_unique {ret : Ten2 ℝ → Ten2 ℝ → Prop} {retH : Ten2 ℝ → Ten4 ℝ → Prop} {T X Y Y' : Ten2 ℝ}
    (h1 : ∀ P P', ret X P → ret X P' → P = P') (h2 : ∀ A A', retH X A → retH X A' → A = A')
    (hreg : ∀ A, retH X A → Regular A) (h : NewtonStep ret retH T X Y) (h' : NewtonStep ret retH T X Y') : Y = Y' := by
  obtain ⟨P, A, hP, hA, e⟩ := h
  obtain ⟨P', A', hP', hA', e'⟩ := h'
  obtain rfl := h1 P P' hP hP'
  obtain rfl := h2 A A' hA hA'
  rw [← sub_eq_zero]
  refine hreg A hA _ fun i j => ?_
  have e3 : contract42 A (Y - Y') i j = contract42 A (Y - X) i j - contract42 A (Y' - X) i j := by
    simp only [contract42, Matrix.sub_apply, ← Finset.sum_sub_distrib]
    exact Finset.sum_congr rfl fun k _ => Finset.sum_congr rfl fun l _ => by ring
  rw [e3]; linarith [e i j, e' i j]

/-- a distance which is squared in every step and starts small enough stays small and tends to zero -/
theorem newton_sequence {step : Ten2 ℝ → Ten2 ℝ → Prop} {F : Ten2 ℝ} {δ c : ℝ} (hδ : 0 < δ) (hcδ : c * δ ≤ 1 / 2)
    (h : ∀ X d, d ≤ δ → Near F X d → ∀ Y, step X Y → Near F Y (c * d ^ 2)) {X : ℕ → Ten2 ℝ} (h0 : Near F (X 0) δ)
    (hs : ∀ n, step (X n) (X (n + 1))) (n : ℕ) : Near F (X n) (δ * (1 / 2) ^ (2 ^ n - 1)) := by
  induction n with
  | zero => simpa using h0
  | succ n ih =>
    have h1 : δ * (1 / 2) ^ (2 ^ n - 1) ≤ δ :=
      mul_le_of_le_one_right hδ.le (pow_le_one₀ (by norm_num) (by norm_num))
    refine fun i j => (h _ _ h1 ih _ (hs n) i j).trans ?_
    have h2 : 2 ^ (n + 1) - 1 = 1 + ((2 ^ n - 1) + (2 ^ n - 1)) := by
      have : 1 ≤ 2 ^ n := Nat.one_le_two_pow
      rw [pow_succ]; omega
    rw [h2, pow_add, pow_add, pow_one]
    calc c * (δ * (1 / 2) ^ (2 ^ n - 1)) ^ 2 = c * δ * (δ * ((1 / 2) ^ (2 ^ n - 1) * (1 / 2) ^ (2 ^ n - 1))) := by ring
      _ ≤ 1 / 2 * (δ * ((1 / 2) ^ (2 ^ n - 1) * (1 / 2) ^ (2 ^ n - 1))) := mul_le_mul_of_nonneg_right hcδ (by positivity)
      _ = _ := by ring

end Hel
