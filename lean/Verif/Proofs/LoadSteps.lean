import Verif.Proofs.NewtonApprox
import Mathlib.Analysis.Calculus.InverseFunctionTheorem.ApproximatesLinearOn

/-! # Small load steps: the inverse function theorem and Newton's method for a nearly consistent tangent -/

namespace Hel
open Spec Filter Topology

variable {dom : Ten2 ℝ → Prop} {ret : Ten2 ℝ → Ten2 ℝ → Prop} {retH : Ten2 ℝ → Ten4 ℝ → Prop}

theorem norm_sub_entries {X Y : Ten2 ℝ} : entries X - entries Y = entries (X - Y) := rfl

theorem near_iff_norm {X Y : Ten2 ℝ} {h : ℝ} (h0 : 0 ≤ h) : Near X Y h ↔ ‖entries Y - entries X‖ ≤ h := near_norm h0

theorem near_self_norm (X Y : Ten2 ℝ) : Near X Y ‖entries (Y - X)‖ := (near_norm (norm_nonneg _)).2 le_rfl

theorem tangent_lower {A B : Ten4 ℝ} {K q : ℝ} (hK : 0 < K) (hKA : ∀ U : Ten2 ℝ, ‖entries U‖ ≤ K * ‖tangentMap A (entries U)‖)
    (hd : ∀ i j k l, |B i j k l - A i j k l| ≤ q) (hq : 9 * K * q ≤ 1 / 2) (U : Ten2 ℝ) :
    ‖entries U‖ ≤ 2 * K * ‖tangentMap B (entries U)‖ := by
  have h1 := tangentMap_diff hd (entries U)
  have h2 := hKA U
  have h3 : ‖tangentMap A (entries U)‖ ≤ ‖tangentMap B (entries U)‖ + 9 * q * ‖entries U‖ := by
    have : tangentMap A (entries U) = tangentMap B (entries U) - (tangentMap B (entries U) - tangentMap A (entries U)) := by abel
    rw [this]
    exact (norm_sub_le _ _).trans (add_le_add le_rfl h1)
  have h4 : K * ‖tangentMap A (entries U)‖ ≤ K * ‖tangentMap B (entries U)‖ + 9 * K * q * ‖entries U‖ :=
    (mul_le_mul_of_nonneg_left h3 hK.le).trans (le_of_eq (by ring))
  have h5 := mul_le_mul_of_nonneg_right hq (norm_nonneg (entries U))
  linarith

/-- `P(X) - P(Y) = A : (X - Y)` up to a small multiple of the distance -/
theorem linear_approx (hu : ∀ X P P', dom X → ret X P → ret X P' → P = P') (htot : ∀ Y, dom Y → ∃ P, ret Y P)
    (htotH : ∀ Y, dom Y → ∃ A, retH Y A) {F X Y P Q : Ten2 ℝ} {A : Ten4 ℝ} {L r δ ρ e d : ℝ}
    (h : NearlyConsistent dom ret retH F A δ L e) (hd : ∀ Y, Near F Y ρ → dom Y) (hr0 : 0 ≤ r) (hrρ : 2 * r ≤ ρ) (hr : 2 * r ≤ δ)
    (hX : Near F X r) (hY : Near F Y r) (hXY : Near Y X d) (hP : ret X P) (hQ : ret Y Q) (hL : 0 ≤ L) :
    ∀ i j, |P i j - Q i j - contract42 A (X - Y) i j| ≤ 10 * (2 * L * r + e) * d := by
  classical
  have d0 := near_pos hXY
  let Z : ℝ → Ten2 ℝ := fun s => Y + s • (X - Y)
  have hZ : ∀ s i j, Z s i j - F i j = (1 - s) * (Y i j - F i j) + s * (X i j - F i j) := fun s i j => by
    change Y i j + s * (X i j - Y i j) - F i j = _
    ring
  have hN : ∀ s ∈ Set.Icc (-(1 / 2) : ℝ) (3 / 2), Near F (Z s) (2 * r) := by
    intro s hs i j
    rw [hZ]
    refine (abs_add_le _ _).trans ?_
    rw [abs_mul, abs_mul]
    have h1 := hX i j
    have h2 := hY i j
    rcases le_or_gt 0 s with h0 | h0
    · rcases le_or_gt s 1 with h3 | h3
      · rw [abs_of_nonneg h0, abs_of_nonneg (by linarith : 0 ≤ 1 - s)]
        nlinarith
      · rw [abs_of_nonneg h0, abs_of_neg (by linarith : 1 - s < 0)]
        nlinarith [hs.2]
    · rw [abs_of_neg h0, abs_of_nonneg (by linarith : 0 ≤ 1 - s)]
      nlinarith [hs.1]
  have hdom : ∀ s ∈ Set.Icc (-(1 / 2) : ℝ) (3 / 2), dom (Z s) := fun s hs => hd _ fun i j => (hN s hs i j).trans hrρ
  have hm : ∀ s, Moves Z (X - Y) s := by
    intro s i j
    have := ((hasDerivAt_id' s).mul_const (X i j - Y i j)).const_add (Y i j)
    rw [one_mul] at this
    exact this
  have hev : ∀ s ∈ Set.Icc (0 : ℝ) 1, ∀ᶠ t in 𝓝 s, t ∈ Set.Icc (-(1 / 2) : ℝ) (3 / 2) := fun s hs =>
    Icc_mem_nhds (by linarith [hs.1]) (by linarith [hs.2])
  have hR : ∀ s, ∃ R, s ∈ Set.Icc (-(1 / 2) : ℝ) (3 / 2) → ret (Z s) R := fun s => by
    by_cases hs : s ∈ Set.Icc (-(1 / 2) : ℝ) (3 / 2)
    · obtain ⟨R, hR⟩ := htot _ (hdom s hs)
      exact ⟨R, fun _ => hR⟩
    · exact ⟨0, fun h => absurd h hs⟩
  choose R hR using hR
  have hZ0 : Z 0 = Y := by simp [Z]
  have hZ1 : Z 1 = X := by simp [Z]
  have hR0 : R 0 = Q := hu _ _ _ (hdom 0 (by norm_num)) (hR 0 (by norm_num)) (hZ0 ▸ hQ)
  have hR1 : R 1 = P := hu _ _ _ (hdom 1 (by norm_num)) (hR 1 (by norm_num)) (hZ1 ▸ hP)
  have hle : 0 ≤ 2 * L * r + e := by
    obtain ⟨B, hB⟩ := htotH _ (hd F fun i j => by rw [sub_self, abs_zero]; linarith)
    have := (abs_nonneg _).trans (h.tangent F 0 B (by linarith) (fun i j => by rw [sub_self, abs_zero]) hB 0 0 0 0)
    have : 0 ≤ L * r := mul_nonneg hL hr0
    linarith
  intro i j
  have hder : ∀ s ∈ Set.Icc (0 : ℝ) 1, ∃ c, HasDerivAt (fun t => R t i j - t * contract42 A (X - Y) i j) c s ∧
      ‖c‖ ≤ 10 * (2 * L * r + e) * d := by
    intro s hs
    have hs' := (hev s hs).self_of_nhds
    obtain ⟨B, hB⟩ := htotH _ (hdom s hs')
    obtain ⟨c, hc, hcb⟩ := h.derivative Z (X - Y) s R B (2 * r) d hr (hN s hs') ((hev s hs).mono fun t ht => hdom t ht) (hm s)
      ((hev s hs).mono fun t ht => hR t ht) hB (fun i j => hXY i j) i j
    refine ⟨c - contract42 A (X - Y) i j, (hc.sub ((hasDerivAt_id' s).mul_const _)).congr_deriv (by ring), ?_⟩
    have h1 := tangentMap_diff (h.tangent _ _ B hr (hN s hs') hB) (entries (X - Y))
    have h2 := (norm_le_pi_norm _ j).trans ((norm_le_pi_norm _ i).trans h1)
    have h3 : ‖entries (X - Y)‖ ≤ d := (norm_entries_le d0).2 hXY
    have h4 : |contract42 B (X - Y) i j - contract42 A (X - Y) i j| ≤ 9 * (L * (2 * r) + e) * ‖entries (X - Y)‖ := h2
    have h5 : 9 * (L * (2 * r) + e) * ‖entries (X - Y)‖ ≤ 9 * (L * (2 * r) + e) * d :=
      mul_le_mul_of_nonneg_left h3 (by linarith)
    rw [Real.norm_eq_abs]
    have h6 := abs_add_le (c - contract42 B (X - Y) i j) (contract42 B (X - Y) i j - contract42 A (X - Y) i j)
    rw [sub_add_sub_cancel] at h6
    linarith
  choose! c hc hcb using hder
  have := Convex.norm_image_sub_le_of_norm_hasDerivWithin_le (f := fun t => R t i j - t * contract42 A (X - Y) i j)
    (f' := c) (s := Set.Icc (0 : ℝ) 1) (C := 10 * (2 * L * r + e) * d) (x := 0) (y := 1) (fun s hs => (hc s hs).hasDerivWithinAt)
    (fun s hs => hcb s hs) (convex_Icc 0 1) (by norm_num) (by norm_num)
  rw [hR0, hR1] at this
  simp only [Real.norm_eq_abs, sub_zero, one_mul, zero_mul, abs_one, mul_one] at this
  rwa [show P i j - Q i j - contract42 A (X - Y) i j = P i j - contract42 A (X - Y) i j - Q i j by ring]

/-- **Small load steps.** -/
theorem smallLoadSteps (hu : ∀ X P P', dom X → ret X P → ret X P' → P = P') (htot : ∀ Y, dom Y → ∃ P, ret Y P)
    (htotH : ∀ Y, dom Y → ∃ A, retH Y A) (huH : ∀ X A A', dom X → retH X A → retH X A' → A = A')
    {F P : Ten2 ℝ} {A : Ten4 ℝ} (hd : Inside dom F) (hP : ret F P) {K δ L e : ℝ} (hK : 0 < K)
    (hKA : ∀ U : Ten2 ℝ, ‖entries U‖ ≤ K * ‖tangentMap A (entries U)‖) (hδ : 0 < δ) (hL0 : 0 ≤ L)
    (h : NearlyConsistent dom ret retH F A δ L e) (he : 38 * K * e ≤ 1 / 4) : SmallLoadSteps ret retH F P := by
  classical
  obtain ⟨ρ, hρ, hd⟩ := hd
  obtain ⟨R, hR0, hRρ, hRδ, hRK⟩ : ∃ R : ℝ, 0 < R ∧ 2 * R ≤ ρ ∧ 2 * R ≤ δ ∧ 76 * K * L * R ≤ 1 / 4 := by
    refine ⟨min (min (ρ / 2) (δ / 2)) (1 / (4 * (76 * K * L + 1))), by positivity, ?_, ?_, ?_⟩
    · have := (min_le_left (min (ρ / 2) (δ / 2)) (1 / (4 * (76 * K * L + 1)))).trans (min_le_left _ _)
      linarith
    · have := (min_le_left (min (ρ / 2) (δ / 2)) (1 / (4 * (76 * K * L + 1)))).trans (min_le_right _ _)
      linarith
    · refine (mul_le_mul_of_nonneg_left (min_le_right _ _) (by positivity)).trans ?_
      rw [mul_one_div, div_le_div_iff₀ (by positivity) (by norm_num)]
      have : 0 ≤ K * L := by positivity
      linarith
  obtain ⟨q, hq⟩ : ∃ q, q = 2 * L * R + e := ⟨_, rfl⟩
  have q0 : 0 ≤ q := by
    obtain ⟨B, hB⟩ := htotH _ (hd F fun i j => by rw [sub_self, abs_zero]; linarith)
    have := (abs_nonneg _).trans (h.tangent F 0 B (by linarith) (fun i j => by rw [sub_self, abs_zero]) hB 0 0 0 0)
    have : 0 ≤ L * R := by positivity
    rw [hq]; linarith
  have hKq : 38 * K * q ≤ 1 / 2 := by
    have : 38 * K * q = 76 * K * L * R + 38 * K * e := by rw [hq]; ring
    linarith
  have hKq0 : 0 ≤ K * q := by positivity
  have near0 : Near F F R := fun i j => by rw [sub_self, abs_zero]; exact hR0.le
  have hdom : ∀ {X}, Near F X R → dom X := fun hX => hd _ fun i j => (hX i j).trans (by linarith)
  -- the linear approximation
  have lin : ∀ {X Y P Q : Ten2 ℝ}, Near F X R → Near F Y R → ret X P → ret Y Q →
      ‖tangentMap A (entries (X - Y)) - entries (P - Q)‖ ≤ 10 * q * ‖entries (X - Y)‖ := by
    intro X Y P Q hX hY hP hQ
    have := linear_approx hu htot htotH h hd hR0.le hRρ hRδ hX hY (near_self_norm Y X) hP hQ hL0
    rw [← hq] at this
    rw [pi_norm_le_iff_of_nonneg (by positivity)]
    intro i
    rw [pi_norm_le_iff_of_nonneg (by positivity)]
    intro j
    change |contract42 A (X - Y) i j - (P i j - Q i j)| ≤ _
    rw [abs_sub_comm]
    exact this i j
  have lip : ∀ {S S' T T' : Ten2 ℝ} {η : ℝ}, Near F S R → Near F S' R → ret S T → ret S' T' → Near T T' η → Near S S' (2 * K * η) := by
    intro S S' T T' η hS hS' hT hT' hη
    have η0 := near_pos hη
    have h1 := lin hS' hS hT' hT
    have h2 := hKA (S' - S)
    have h3 : ‖entries (T' - T)‖ ≤ η := (near_norm η0).1 hη
    have h4 : ‖tangentMap A (entries (S' - S))‖ ≤ η + 10 * q * ‖entries (S' - S)‖ := by
      have := norm_add_le (entries (T' - T)) (tangentMap A (entries (S' - S)) - entries (T' - T))
      rw [add_sub_cancel] at this
      linarith
    have h5 : ‖entries (S' - S)‖ ≤ K * η + 10 * (K * q) * ‖entries (S' - S)‖ :=
      h2.trans ((mul_le_mul_of_nonneg_left h4 hK.le).trans (le_of_eq (by ring)))
    have h6 : 10 * (K * q) * ‖entries (S' - S)‖ ≤ 1 / 2 * ‖entries (S' - S)‖ :=
      mul_le_mul_of_nonneg_right (by linarith) (norm_nonneg _)
    refine (near_norm (by positivity)).2 ?_
    linarith
  -- one step
  have step : ∀ {S T X : Ten2 ℝ}, Near F S R → ret S T → Near F X R →
      (∃ Y, NewtonStep ret retH T X Y) ∧ (∀ Y Y', NewtonStep ret retH T X Y → NewtonStep ret retH T X Y' → Y = Y') ∧
      ∀ d Y, Near S X d → NewtonStep ret retH T X Y → Near S Y (d * (1 / 2)) := by
    intro S T X hS hT hX
    have low : ∀ B, retH X B → ∀ U : Ten2 ℝ, ‖entries U‖ ≤ 2 * K * ‖tangentMap B (entries U)‖ := fun B hB =>
      tangent_lower (q := q) hK hKA (fun i j k l => (h.tangent X R B (by linarith) hX hB i j k l).trans (by
        have : 0 ≤ L * R := by positivity
        rw [hq]; linarith)) (by linarith)
    have hreg : ∀ B, retH X B → Regular B := by
      intro B hB U hU
      have h1 := low B hB U
      have h2 : tangentMap B (entries U) = 0 := by
        funext i j; exact hU i j
      rw [h2, norm_zero, mul_zero] at h1
      have h3 : entries U = 0 := norm_le_zero_iff.1 h1
      ext i j; exact congrFun (congrFun h3 i) j
    refine ⟨?_, fun Y Y' hY hY' => newtonStep_unique (fun P P' => hu X P P' (hdom hX)) (fun A A' => huH X A A' (hdom hX)) hreg hY hY', ?_⟩
    · obtain ⟨Q, hQ⟩ := htot X (hdom hX)
      obtain ⟨B, hB⟩ := htotH X (hdom hX)
      have hinj : Function.Injective (tangentMap B) := by
        rw [← LinearMap.ker_eq_bot, LinearMap.ker_eq_bot']
        intro U hU
        have := low B hB (Matrix.of U)
        have e : entries (Matrix.of U) = U := rfl
        rw [e, hU, norm_zero, mul_zero] at this
        exact norm_le_zero_iff.1 this
      obtain ⟨U, hU⟩ := LinearMap.injective_iff_surjective.1 hinj (entries (T - Q))
      refine ⟨X + Matrix.of U, Q, B, hQ, hB, fun i j => ?_⟩
      rw [add_sub_cancel_left]
      have : contract42 B (Matrix.of U) i j = T i j - Q i j := congrFun (congrFun hU i) j
      rw [this]; ring
    · rintro d Y hXd ⟨Q, B, hQ, hB, hstep⟩
      have d0 := near_pos hXd
      have h1 := lin hS hX hT hQ
      have hdn : ‖entries (S - X)‖ ≤ d := by
        have := (near_norm d0).1 hXd
        have e : entries (S - X) = -entries (X - S) := by
          funext i j
          change S i j - X i j = -(X i j - S i j)
          ring
        rwa [e, norm_neg]
      have h2 := tangentMap_diff (e := q) (fun i j k l => (h.tangent X R B (by linarith) hX hB i j k l).trans (by
        have : 0 ≤ L * R := by positivity
        rw [hq]; linarith)) (entries (S - X))
      have e1 : tangentMap B (entries (Y - S)) = -((tangentMap A (entries (S - X)) - entries (T - Q)) +
          (tangentMap B (entries (S - X)) - tangentMap A (entries (S - X)))) := by
        have e2 : entries (Y - S) = entries (Y - X) - entries (S - X) := by
          funext k l
          change Y k l - S k l = (Y k l - X k l) - (S k l - X k l)
          ring
        have e3 : tangentMap B (entries (Y - X)) = entries (T - Q) := by
          funext i j
          change contract42 B (Y - X) i j = T i j - Q i j
          rw [← hstep i j]; ring
        rw [e2, map_sub, e3]
        abel
      have h3 : ‖tangentMap B (entries (Y - S))‖ ≤ 19 * q * d := by
        rw [e1, norm_neg]
        refine (norm_add_le _ _).trans ((add_le_add h1 h2).trans ?_)
        have := mul_le_mul_of_nonneg_left hdn (by positivity : 0 ≤ 19 * q)
        linarith
      refine (near_norm (by positivity)).2 ((low B hB _).trans ((mul_le_mul_of_nonneg_left h3 (by positivity)).trans ?_))
      have := mul_le_mul_of_nonneg_right hKq d0
      linarith
  -- every stress close to `P` is attained
  choose f hf using fun u : Entries => (show ∃ Q, Near F (Matrix.of u) R → ret (Matrix.of u) Q by
    by_cases hN : Near F (Matrix.of u) R
    · obtain ⟨Q, hQ⟩ := htot _ (hdom hN)
      exact ⟨Q, fun _ => hQ⟩
    · exact ⟨0, fun h => absurd h hN⟩)
  have hinj : Function.Injective (tangentMap A) := by
    rw [← LinearMap.ker_eq_bot, LinearMap.ker_eq_bot']
    intro U hU
    have := hKA (Matrix.of U)
    have e : entries (Matrix.of U) = U := rfl
    rw [e, hU, norm_zero, mul_zero] at this
    exact norm_le_zero_iff.1 this
  choose g hg using LinearMap.injective_iff_surjective.1 hinj
  have hball : ∀ {u : Entries} {s : ℝ}, 0 ≤ s → (u ∈ Metric.closedBall (entries F) s ↔ Near F (Matrix.of u) s) := by
    intro u s hs
    rw [Metric.mem_closedBall, dist_eq_norm, near_norm hs]
    rfl
  have happ : ApproximatesLinearOn (fun u => entries (f u)) (tangentMap A).toContinuousLinearMap
      (Metric.closedBall (entries F) R) (10 * q).toNNReal := by
    intro u hu' v hv'
    have := lin ((hball hR0.le).1 hu') ((hball hR0.le).1 hv') (hf u ((hball hR0.le).1 hu')) (hf v ((hball hR0.le).1 hv'))
    rw [Real.coe_toNNReal _ (by positivity), ← norm_neg, neg_sub]
    exact this
  let sym : (tangentMap A).toContinuousLinearMap.NonlinearRightInverse :=
    { toFun := g
      nnnorm := K.toNNReal
      bound' := fun y => by
        rw [Real.coe_toNNReal _ hK.le]
        have := hKA (Matrix.of (g y))
        have e : entries (Matrix.of (g y)) = g y := rfl
        rwa [e, hg] at this
      right_inv' := fun y => hg y }
  have hsurj := happ.surjOn_closedBall_of_nonlinearRightInverse sym (ε := R / 4) (b := entries F) (by positivity)
    (Metric.closedBall_subset_closedBall (by linarith))
  have hFf : f (entries F) = P := hu F _ _ (hdom near0) (hf _ near0) hP
  have hε : 0 < (((K.toNNReal : NNReal) : ℝ)⁻¹ - ((10 * q).toNNReal : NNReal)) * (R / 4) := by
    rw [Real.coe_toNNReal _ hK.le, Real.coe_toNNReal _ (by positivity)]
    refine mul_pos ?_ (by positivity)
    rw [sub_pos, ← one_div, lt_div_iff₀ hK]
    linarith
  have big : ∀ {X}, Near F X (R / 4) → Near F X R := fun hX i j => (hX i j).trans (by linarith)
  refine ⟨R / 4, by positivity, _, hε, 2 * K, fun S S' T T' η hS hS' hT hT' hη => lip (big hS) (big hS') hT hT' hη, fun T hT => ?_⟩
  obtain ⟨u, hu1, hu2⟩ := hsurj (a := entries T) (by
    rw [Metric.mem_closedBall, dist_eq_norm]
    simp only [hFf]
    exact (near_norm hε.le).1 hT)
  have hS : Near F (Matrix.of u) (R / 4) := (hball (by positivity)).1 hu1
  have hST : ret (Matrix.of u) T := by
    have := hf u (big hS)
    have e : f u = T := by
      ext i j; exact congrFun (congrFun hu2 i) j
    rwa [e] at this
  generalize Matrix.of u = S at hS hST
  have tri : ∀ {X : Ten2 ℝ} {s : ℝ}, s ≤ R / 2 → Near S X s → Near F X R := fun hs hX i j => by
    refine le_trans ?_ ((add_le_add (hX i j) (hS i j)).trans (by linarith))
    refine le_trans (le_of_eq (congrArg abs ?_)) (abs_add_le _ _)
    ring
  have pow_le : ∀ n : ℕ, 2 * (R / 4) * (1 / 2 : ℝ) ^ n ≤ R / 2 := fun n => by
    have : (1 / 2 : ℝ) ^ n ≤ 1 := pow_le_one₀ (by norm_num) (by norm_num)
    have := mul_le_mul_of_nonneg_left this (by positivity : 0 ≤ 2 * (R / 4))
    linarith
  refine ⟨S, hS, hST, fun X n hX₀ hs => ?_⟩
  have conv : Near S (X n) (2 * (R / 4) * (1 / 2) ^ n) := by
    induction n with
    | zero =>
      intro i j
      rw [pow_zero, mul_one]
      have h1 := hX₀ i j
      have h2 := hS i j
      rw [abs_sub_comm] at h2
      have := abs_add_le (X 0 i j - F i j) (F i j - S i j)
      rw [sub_add_sub_cancel] at this
      linarith
    | succ n ih =>
      have ih := ih fun k hk => hs k (hk.trans n.lt_succ_self)
      have := (step (big hS) hST (tri (pow_le n) ih)).2.2 _ _ ih (hs n n.lt_succ_self)
      rw [pow_succ, ← mul_assoc]
      exact this
  obtain ⟨⟨Y, hY⟩, hun, -⟩ := step (big hS) hST (tri (pow_le n) conv)
  exact ⟨conv, Y, hY, fun Y' hY' => hun _ _ hY' hY⟩

/-- a relation with exactly one next value for every finite sequence from a start has exactly one infinite sequence from it -/
theorem unique_sequence {α : Type} {step : α → α → Prop} {x₀ : α}
    (h : ∀ (X : ℕ → α) n, X 0 = x₀ → (∀ k < n, step (X k) (X (k + 1))) → ∃! Y, step (X n) Y) :
    ∃! X : ℕ → α, X 0 = x₀ ∧ ∀ n, step (X n) (X (n + 1)) := by
  classical
  have : ∀ x, ∃ y, (∃ y, step x y) → step x y := fun x => by
    by_cases hx : ∃ y, step x y
    · exact ⟨hx.choose, fun _ => hx.choose_spec⟩
    · exact ⟨x, fun h => absurd h hx⟩
  choose g hg using this
  have hs : ∀ n, ∀ k < n, step (g^[k] x₀) (g^[k + 1] x₀) := by
    intro n
    induction n with
    | zero => intro k hk; exact absurd hk (Nat.not_lt_zero k)
    | succ n ih =>
      intro k hk
      rcases Nat.lt_succ_iff_lt_or_eq.1 hk with hk | rfl
      · exact ih k hk
      · rw [Function.iterate_succ_apply']
        exact hg _ (h (fun n => g^[n] x₀) k rfl ih).exists
  refine ⟨fun n => g^[n] x₀, ⟨rfl, fun n => hs (n + 1) n n.lt_succ_self⟩, fun X hX => ?_⟩
  funext n
  induction n with
  | zero => exact hX.1
  | succ n ih =>
    have h1 := hX.2 n
    rw [ih] at h1
    exact (h (fun n => g^[n] x₀) n rfl (hs n)).unique h1 (hs (n + 1) n n.lt_succ_self)

theorem near_trans {X Y Z : Ten2 ℝ} {a b c : ℝ} (hXY : Near X Y a) (hYZ : Near Y Z b) (hc : a + b ≤ c) : Near X Z c := by
  intro i j
  refine le_trans (le_of_eq (congrArg abs ?_)) ((abs_add_le _ _).trans ((add_le_add (hYZ i j) (hXY i j)).trans ?_))
  · ring
  · linarith

theorem near_symm {X Y : Ten2 ℝ} {a : ℝ} (h : Near X Y a) : Near Y X a := fun i j => by
  rw [abs_sub_comm]; exact h i j

/-- small load steps along a continuous path, with the same radius and step size at all of its points -/
theorem uniform_load_steps {F T : ℝ → Ten2 ℝ} (hF : ContinuousOn F (Set.Icc 0 1)) (hT : ContinuousOn T (Set.Icc 0 1))
    (hret : ∀ t ∈ Set.Icc (0 : ℝ) 1, ret (F t) (T t))
    (hsmall : ∀ t ∈ Set.Icc (0 : ℝ) 1, SmallLoadSteps ret retH (F t) (T t)) :
    ∃ η > 0, ∃ r > 0, ∃ C, ∀ s ∈ Set.Icc (0 : ℝ) 1, ∀ t ∈ Set.Icc (0 : ℝ) 1, |t - s| < η → ∀ (X : ℕ → Ten2 ℝ) n,
      Near (F s) (X 0) r → (∀ k < n, NewtonStep ret retH (T t) (X k) (X (k + 1))) →
        Near (F t) (X n) (C * (1 / 2) ^ n) ∧ ∃! Y, NewtonStep ret retH (T t) (X n) Y := by
  have near_ev : ∀ {G : ℝ → Ten2 ℝ}, ContinuousOn G (Set.Icc 0 1) → ∀ t₀ ∈ Set.Icc (0 : ℝ) 1, ∀ ε > 0, ∃ η > 0,
      ∀ t ∈ Set.Icc (0 : ℝ) 1, |t - t₀| < η → Near (G t₀) (G t) ε := by
    intro G hG t₀ ht₀ ε hε
    have h1 : ContinuousWithinAt (fun t => entries (G t)) (Set.Icc 0 1) t₀ := by
      refine continuousWithinAt_pi.2 fun i => continuousWithinAt_pi.2 fun j => ?_
      exact ((continuous_apply j).comp (continuous_apply i)).continuousAt.comp_continuousWithinAt (hG t₀ ht₀)
    obtain ⟨η, hη, h2⟩ := Metric.continuousWithinAt_iff.1 h1 ε hε
    refine ⟨η, hη, fun t ht htη => (near_norm hε.le).2 ?_⟩
    have := (h2 ht (by rwa [Real.dist_eq])).le
    rwa [dist_eq_norm] at this
  refine isCompact_Icc.induction_on (p := fun A => ∃ η > 0, ∃ r > 0, ∃ C, ∀ s ∈ A, ∀ t ∈ Set.Icc (0 : ℝ) 1, |t - s| < η → ∀ (X : ℕ → Ten2 ℝ) n,
      Near (F s) (X 0) r → (∀ k < n, NewtonStep ret retH (T t) (X k) (X (k + 1))) →
        Near (F t) (X n) (C * (1 / 2) ^ n) ∧ ∃! Y, NewtonStep ret retH (T t) (X n) Y) ?_ ?_ ?_ ?_
  · exact ⟨1, one_pos, 1, one_pos, 0, fun s hs => absurd hs (Set.notMem_empty s)⟩
  · rintro A B hAB ⟨η, hη, r, hr, C, h⟩
    exact ⟨η, hη, r, hr, C, fun s hs => h s (hAB hs)⟩
  · rintro A B ⟨η, hη, r, hr, C, h⟩ ⟨η', hη', r', hr', C', h'⟩
    refine ⟨min η η', lt_min hη hη', min r r', lt_min hr hr', max C C', ?_⟩
    rintro s (hs | hs) t ht hst X n h0 hX
    · obtain ⟨h1, h2⟩ := h s hs t ht (hst.trans_le (min_le_left _ _)) X n (fun i j => (h0 i j).trans (min_le_left _ _)) hX
      exact ⟨fun i j => (h1 i j).trans (mul_le_mul_of_nonneg_right (le_max_left _ _) (by positivity)), h2⟩
    · obtain ⟨h1, h2⟩ := h' s hs t ht (hst.trans_le (min_le_right _ _)) X n (fun i j => (h0 i j).trans (min_le_right _ _)) hX
      exact ⟨fun i j => (h1 i j).trans (mul_le_mul_of_nonneg_right (le_max_right _ _) (by positivity)), h2⟩
  · intro t₀ ht₀
    obtain ⟨r, hr, ε, hε, K, hlip, hN⟩ := hsmall t₀ ht₀
    obtain ⟨η₁, hη₁, h1⟩ := near_ev hF t₀ ht₀ (r / 2) (by positivity)
    obtain ⟨η₂, hη₂, h2⟩ := near_ev hT t₀ ht₀ ε hε
    have hη : 0 < min η₁ η₂ / 2 := by positivity
    refine ⟨Set.Icc 0 1 ∩ Metric.ball t₀ (min η₁ η₂ / 2), inter_mem_nhdsWithin _ (Metric.ball_mem_nhds _ hη), min η₁ η₂ / 2, hη,
      r / 2, by positivity, 2 * r, ?_⟩
    rintro s ⟨hs, hs0⟩ t ht hst X n h0 hX
    rw [Metric.mem_ball, Real.dist_eq] at hs0
    have ht0 : |t - t₀| < min η₁ η₂ := by
      have := abs_add_le (t - s) (s - t₀)
      rw [sub_add_sub_cancel] at this
      linarith
    have hs1 : |s - t₀| < η₁ := hs0.trans_le ((half_le_self (by positivity)).trans (min_le_left _ _))
    have hFs := h1 s hs hs1
    have hFt := h1 t ht (ht0.trans_le (min_le_left _ _))
    obtain ⟨S, hS, hST, h3⟩ := hN (T t) (h2 t ht (ht0.trans_le (min_le_right _ _)))
    have e : S = F t := by
      have := hlip S (F t) (T t) (T t) 0 hS (fun i j => (hFt i j).trans (by linarith)) hST (hret t ht) (fun i j => by rw [sub_self, abs_zero])
      ext i j
      have := this i j
      rw [mul_zero] at this
      linarith [abs_nonpos_iff.1 this]
    rw [← e]
    exact h3 X n (near_trans hFs h0 (by linarith)) hX

end Hel
