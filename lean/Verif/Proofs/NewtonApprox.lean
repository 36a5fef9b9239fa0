import Verif.Proofs.Newton

/-! # Newton's method with a tangent which is consistent up to an error -/

namespace Hel
open Spec Filter Topology

/-- The tangents returned near `F` differ from the one at `F`, and from the derivative of the returned stress, by at
most `L` times the distance from `F`, and `e`. -/
structure NearlyConsistent (dom : Ten2 ℝ → Prop) (ret : Ten2 ℝ → Ten2 ℝ → Prop) (retH : Ten2 ℝ → Ten4 ℝ → Prop) (F : Ten2 ℝ)
    (A : Ten4 ℝ) (δ L e : ℝ) : Prop where
  tangent : ∀ X d B, d ≤ δ → Near F X d → retH X B → ∀ i j k l, |B i j k l - A i j k l| ≤ L * d + e
  derivative : ∀ (Y : ℝ → Ten2 ℝ) (V : Ten2 ℝ) s (Q : ℝ → Ten2 ℝ) B d v, d ≤ δ → Near F (Y s) d → (∀ᶠ t in 𝓝 s, dom (Y t)) →
    Moves Y V s → (∀ᶠ t in 𝓝 s, ret (Y t) (Q t)) → retH (Y s) B → (∀ i j, |V i j| ≤ v) →
    ∀ i j, ∃ c, HasDerivAt (fun t => Q t i j) c s ∧ |c - contract42 B V i j| ≤ (L * d + e) * v

theorem approx_remainder {dom : Ten2 ℝ → Prop} {ret : Ten2 ℝ → Ten2 ℝ → Prop} {retH : Ten2 ℝ → Ten4 ℝ → Prop}
    (hu : ∀ X P P', dom X → ret X P → ret X P' → P = P') (htot : ∀ Y, dom Y → ∃ P, ret Y P) (htotH : ∀ Y, dom Y → ∃ A, retH Y A)
    {F X P Q : Ten2 ℝ} {A B : Ten4 ℝ} {L d δ ρ e : ℝ} (h : NearlyConsistent dom ret retH F A δ L e) (hd : ∀ Y, Near F Y ρ → dom Y)
    (h2 : 2 * d ≤ ρ) (hdδ : d ≤ δ) (hX : Near F X d) (hP : ret F P) (hQ : ret X Q) (hB : retH X B) :
    ∀ i j, |P i j - Q i j - contract42 B (F - X) i j| ≤ 19 * (L * d + e) * d := by
  classical
  have d0 := near_pos hX
  -- the straight line
  let Y : ℝ → Ten2 ℝ := fun s => X + s • (F - X)
  have hY : ∀ s i j, Y s i j = X i j + s * (F i j - X i j) := fun s i j => rfl
  have hYF : ∀ s c, |1 - s| ≤ c → Near F (Y s) (c * d) := by
    intro s c hs i j
    have e : Y s i j - F i j = (1 - s) * (X i j - F i j) := by rw [hY]; ring
    rw [e, abs_mul]
    exact mul_le_mul hs (hX i j) (abs_nonneg _) ((abs_nonneg _).trans hs)
  have hm : ∀ s, Moves Y (F - X) s := by
    intro s i j
    have := ((hasDerivAt_id' s).mul_const (F i j - X i j)).const_add (X i j)
    rw [one_mul] at this
    exact this
  have hev : ∀ s ∈ Set.Icc (0 : ℝ) 1, ∀ᶠ t in 𝓝 s, dom (Y t) := by
    intro s hs
    have : ∀ᶠ t in 𝓝 s, |t - s| < 1 := by
      have := Metric.ball_mem_nhds s one_pos
      filter_upwards [this] with t ht
      rwa [← Real.dist_eq]
    filter_upwards [this] with t ht
    refine hd _ fun i j => (hYF t 2 ?_ i j).trans h2
    rw [abs_le]
    rw [abs_lt] at ht
    constructor <;> linarith [hs.1, hs.2]
  let R : ℝ → Ten2 ℝ := fun t => if ht : ∃ P, ret (Y t) P then ht.choose else 0
  have hR : ∀ t, dom (Y t) → ret (Y t) (R t) := by
    intro t ht
    have hx := htot _ ht
    have e : R t = hx.choose := dif_pos hx
    rw [e]; exact hx.choose_spec
  have h00 : (0 : ℝ) ∈ Set.Icc (0 : ℝ) 1 := ⟨le_rfl, zero_le_one⟩
  have h11 : (1 : ℝ) ∈ Set.Icc (0 : ℝ) 1 := ⟨zero_le_one, le_rfl⟩
  have hY0 : Y 0 = X := by simp [Y]
  have hY1 : Y 1 = F := by simp [Y]
  have hdX : dom X := by have := (hev 0 h00).self_of_nhds; rwa [hY0] at this
  have hdF : dom F := by have := (hev 1 h11).self_of_nhds; rwa [hY1] at this
  have hR0 : R 0 = Q := hu _ _ _ hdX (by have := hR 0 (by rw [hY0]; exact hdX); rwa [hY0] at this) hQ
  have hR1 : R 1 = P := hu _ _ _ hdF (by have := hR 1 (by rw [hY1]; exact hdF); rwa [hY1] at this) hP
  have hv : ∀ i j, |(F - X) i j| ≤ d := fun i j => by
    have := hX i j
    rw [abs_sub_comm] at this
    exact this
  have h5 : ‖entries (F - X)‖ ≤ d := by rw [norm_entries_le d0]; exact hv
  intro i j
  have hder : ∀ s ∈ Set.Icc (0 : ℝ) 1, ∃ c, HasDerivAt (fun t => R t i j - t * contract42 B (F - X) i j) c s ∧
      |c| ≤ 19 * (L * d + e) * d := by
    intro s hs
    have hdom := hev s hs
    have hNs : Near F (Y s) d := by
      have := hYF s 1 (by rw [abs_le]; constructor <;> linarith [hs.1, hs.2])
      rwa [one_mul] at this
    obtain ⟨Bs, hBs⟩ := htotH _ hdom.self_of_nhds
    obtain ⟨c, h1, hc⟩ := h.derivative Y (F - X) s R Bs d d hdδ hNs hdom (hm s) (hdom.mono fun t ht => hR t ht) hBs hv i j
    have h3 := h1.sub ((hasDerivAt_id' s).mul_const (contract42 B (F - X) i j))
    rw [one_mul] at h3
    refine ⟨_, h3, ?_⟩
    have hab : ∀ i j k l, |Bs i j k l - B i j k l| ≤ 2 * (L * d + e) := fun i j k l => by
      have t1 := h.tangent _ _ _ hdδ hNs hBs i j k l
      have t2 := h.tangent _ _ _ hdδ hX hB i j k l
      rw [abs_sub_comm] at t2
      have := abs_add_le (Bs i j k l - A i j k l) (A i j k l - B i j k l)
      rw [sub_add_sub_cancel] at this
      linarith
    have h4 := tangentMap_diff hab (entries (F - X))
    have h6 := (norm_le_pi_norm (tangentMap Bs (entries (F - X)) i - tangentMap B (entries (F - X)) i) j).trans
      (norm_le_pi_norm (tangentMap Bs (entries (F - X)) - tangentMap B (entries (F - X))) i)
    change |contract42 Bs (F - X) i j - contract42 B (F - X) i j| ≤ _ at h6
    have hle : 0 ≤ L * d + e := (abs_nonneg _).trans (h.tangent _ _ _ hdδ hX hB 0 0 0 0)
    have h7 : 9 * (2 * (L * d + e)) * ‖entries (F - X)‖ ≤ 18 * (L * d + e) * d := by
      have := mul_le_mul_of_nonneg_left h5 (by positivity : 0 ≤ 9 * (2 * (L * d + e)))
      linarith
    have h8 := abs_add_le (c - contract42 Bs (F - X) i j) (contract42 Bs (F - X) i j - contract42 B (F - X) i j)
    rw [sub_add_sub_cancel] at h8
    have h9 := h6.trans (h4.trans h7)
    linarith
  choose! c hc hcb using hder
  have := Convex.norm_image_sub_le_of_norm_hasDerivWithin_le (f := fun t => R t i j - t * contract42 B (F - X) i j)
    (f' := c) (s := Set.Icc (0 : ℝ) 1) (C := 19 * (L * d + e) * d) (x := 0) (y := 1) (fun s hs => (hc s hs).hasDerivWithinAt)
    (fun s hs => hcb s hs) (convex_Icc 0 1) h00 h11
  rw [hR0, hR1] at this
  simp only [Real.norm_eq_abs, sub_zero, one_mul, zero_mul, abs_one, mul_one] at this
  rwa [show P i j - Q i j - contract42 B (F - X) i j = P i j - contract42 B (F - X) i j - Q i j by ring]

/-- A Newton step from close to a regular solution exists; it multiplies the distance with a multiple of the distance,
and of the error of the tangent. -/
theorem newton_approx {dom : Ten2 ℝ → Prop} {ret : Ten2 ℝ → Ten2 ℝ → Prop} {retH : Ten2 ℝ → Ten4 ℝ → Prop}
    (hu : ∀ X P P', dom X → ret X P → ret X P' → P = P') (htot : ∀ Y, dom Y → ∃ P, ret Y P) (htotH : ∀ Y, dom Y → ∃ A, retH Y A)
    {F P : Ten2 ℝ} {A : Ten4 ℝ} (hd : Inside dom F) (hP : ret F P) {K δ₀ L e : ℝ} (hK : 0 < K)
    (hKA : ∀ U : Ten2 ℝ, ‖entries U‖ ≤ K * ‖tangentMap A (entries U)‖) (hδ₀ : 0 < δ₀) (hL0 : 0 ≤ L)
    (h : NearlyConsistent dom ret retH F A δ₀ L e) (he : 38 * K * e ≤ 1 / 4) :
    ∃ δ > 0, ∃ c > 0, c * δ ≤ 1 / 4 ∧ ∀ X d, d ≤ δ → Near F X d →
      (∃ Y, NewtonStep ret retH P X Y) ∧ (∀ B, retH X B → Regular B) ∧ dom X ∧
        ∀ Y, NewtonStep ret retH P X Y → Near F Y ((c * d + 38 * K * e) * d) := by
  obtain ⟨ρ, hρ, hd⟩ := hd
  let c := 38 * K * L + 1
  have hc : 0 < c := by positivity
  let δ := min (min δ₀ (ρ / 2)) (1 / (4 * c))
  have hδ : 0 < δ := by positivity
  have hδ0 : δ ≤ δ₀ := (min_le_left _ _).trans (min_le_left _ _)
  have hδr : 2 * δ ≤ ρ := by have : δ ≤ ρ / 2 := (min_le_left _ _).trans (min_le_right _ _); linarith
  have hcδ : c * δ ≤ 1 / 4 := by
    have h1 : δ ≤ 1 / (4 * c) := min_le_right _ _
    calc c * δ ≤ c * (1 / (4 * c)) := mul_le_mul_of_nonneg_left h1 hc.le
      _ = 1 / 4 := by field_simp
  refine ⟨δ, hδ, c, hc, hcδ, fun X d hdδ hX => ?_⟩
  have d0 := near_pos hX
  have hdX : dom X := hd X fun i j => (hX i j).trans (by linarith)
  -- every returned tangent at X is bounded below
  have key : ∀ B, retH X B → ∀ U : Ten2 ℝ, ‖entries U‖ ≤ 2 * K * ‖tangentMap B (entries U)‖ := by
    intro B hB U
    have h1 := tangentMap_diff (h.tangent X d B (hdδ.trans hδ0) hX hB) (entries U)
    have h2 := hKA U
    have h3 : ‖tangentMap A (entries U)‖ ≤ ‖tangentMap B (entries U)‖ + 9 * (L * d + e) * ‖entries U‖ := by
      have : tangentMap A (entries U) = tangentMap B (entries U) - (tangentMap B (entries U) - tangentMap A (entries U)) := by abel
      rw [this]
      exact (norm_sub_le _ _).trans (add_le_add le_rfl h1)
    have h4 : K * (9 * (L * d + e)) ≤ 1 / 2 := by
      have : c * d ≤ 1 / 4 := (mul_le_mul_of_nonneg_left hdδ hc.le).trans hcδ
      have h5 : c * d = 38 * (K * L * d) + d := by simp only [c]; ring
      have h6 : 0 ≤ K * L * d := by positivity
      have h7 : K * (9 * (L * d + e)) = 9 * (K * L * d) + 9 * (K * e) := by ring
      have h8 : 38 * K * e = 38 * (K * e) := by ring
      rw [h8] at he
      rw [h7]
      linarith
    have h5 : ‖entries U‖ ≤ K * ‖tangentMap B (entries U)‖ + 1 / 2 * ‖entries U‖ := by
      refine h2.trans ((mul_le_mul_of_nonneg_left h3 hK.le).trans ?_)
      rw [mul_add]
      refine add_le_add le_rfl ?_
      calc K * (9 * (L * d + e) * ‖entries U‖) = K * (9 * (L * d + e)) * ‖entries U‖ := by ring
        _ ≤ _ := mul_le_mul_of_nonneg_right h4 (norm_nonneg _)
    linarith
  refine ⟨?_, fun B hB U hU => ?_, hdX, ?_⟩
  · obtain ⟨Q, hQ⟩ := htot X hdX
    obtain ⟨B, hB⟩ := htotH X hdX
    have hinj : Function.Injective (tangentMap B) := by
      rw [← LinearMap.ker_eq_bot, LinearMap.ker_eq_bot']
      intro U hU
      have := key B hB (Matrix.of U)
      have e : entries (Matrix.of U) = U := rfl
      rw [e, hU, norm_zero, mul_zero] at this
      exact norm_le_zero_iff.1 this
    obtain ⟨U, hU⟩ := LinearMap.injective_iff_surjective.1 hinj (entries (P - Q))
    refine ⟨X + Matrix.of U, Q, B, hQ, hB, fun i j => ?_⟩
    rw [add_sub_cancel_left]
    have : contract42 B (Matrix.of U) i j = P i j - Q i j := congrFun (congrFun hU i) j
    rw [this]; ring
  · have h1 := key B hB U
    have h2 : tangentMap B (entries U) = 0 := by
      funext i j; exact hU i j
    rw [h2, norm_zero, mul_zero] at h1
    have h3 : entries U = 0 := norm_le_zero_iff.1 h1
    ext i j; exact congrFun (congrFun h3 i) j
  · rintro Y ⟨Q, B, hQ, hB, hstep⟩
    have hle : 0 ≤ L * d + e := (abs_nonneg _).trans (h.tangent _ _ _ (hdδ.trans hδ0) hX hB 0 0 0 0)
    have hrem := approx_remainder hu htot htotH h hd (by linarith) (hdδ.trans hδ0) hX hP hQ hB
    have h1 : ‖tangentMap B (entries (Y - F))‖ ≤ 19 * (L * d + e) * d := by
      rw [pi_norm_le_iff_of_nonneg (by positivity)]
      intro i
      rw [pi_norm_le_iff_of_nonneg (by positivity)]
      intro j
      have e : tangentMap B (entries (Y - F)) i j = P i j - Q i j - contract42 B (F - X) i j := by
        have e1 : entries (Y - F) = entries (Y - X) - entries (F - X) := by
          funext k l
          change Y k l - F k l = (Y k l - X k l) - (F k l - X k l)
          ring
        rw [e1, map_sub]
        change contract42 B (Y - X) i j - contract42 B (F - X) i j = _
        rw [← hstep i j]; ring
      rw [e]
      exact hrem i j
    have hfin : 2 * K * ‖tangentMap B (entries (Y - F))‖ ≤ (c * d + 38 * K * e) * d := by
      calc 2 * K * ‖tangentMap B (entries (Y - F))‖ ≤ 2 * K * (19 * (L * d + e) * d) :=
            mul_le_mul_of_nonneg_left h1 (by positivity)
        _ ≤ (c * d + 38 * K * e) * d := by
            have : (0 : ℝ) ≤ d ^ 2 := sq_nonneg d
            have e1 : (c * d + 38 * K * e) * d = 2 * K * (19 * (L * d + e) * d) + d ^ 2 := by simp only [c]; ring
            rw [e1]; linarith
    have hbound := (key B hB (Y - F)).trans hfin
    rw [near_norm ((norm_nonneg _).trans hbound)]
    exact hbound

end Hel
