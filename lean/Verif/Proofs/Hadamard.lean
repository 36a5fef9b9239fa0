import Verif.Spec.Energies
import Mathlib.Analysis.Calculus.Deriv.Pi
import Mathlib.Analysis.Calculus.Deriv.Slope

/-! Derivatives along all curves control difference quotients along arbitrary filters. -/

namespace Spec
open Filter Topology Set

variable {E : Type*} [NormedAddCommGroup E] [NormedSpace ℝ E]

theorem exists_curve {l : Filter ℝ} {t₀ : ℝ} (hl : l ≤ 𝓝[≠] t₀) {x : ℝ → E} {x0 x' : E}
    (h : Tendsto (fun t => (t - t₀)⁻¹ • (x t - x0)) l (𝓝 x')) {B : Set ℝ} (hB : ∃ᶠ t in l, t ∈ B) :
    ∃ u : ℕ → ℝ, Tendsto u atTop (𝓝[≠] t₀) ∧ (∀ n, u n ∈ B) ∧ t₀ ∉ range u ∧
      ∀ y : ℝ → E, (∀ t ∈ range u, y t = x t) → (∀ t, t ∉ range u → y t = x0 + (t - t₀) • x') →
        HasDerivAt y x' t₀ := by
  have hn : ∀ n : ℕ, ∃ t ∈ B, t ≠ t₀ ∧ |t - t₀| < 1 / ((n : ℝ) + 1) ∧ ‖(t - t₀)⁻¹ • (x t - x0) - x'‖ < 1 / ((n : ℝ) + 1) := by
    intro n
    have hpos : (0 : ℝ) < 1 / ((n : ℝ) + 1) := by positivity
    have h1 : ∀ᶠ t in l, t ≠ t₀ ∧ |t - t₀| < 1 / ((n : ℝ) + 1) := by
      refine hl ?_
      filter_upwards [self_mem_nhdsWithin, nhdsWithin_le_nhds (Metric.ball_mem_nhds t₀ hpos)] with t h1 h2
      exact ⟨h1, h2⟩
    have h2 : ∀ᶠ t in l, ‖(t - t₀)⁻¹ • (x t - x0) - x'‖ < 1 / ((n : ℝ) + 1) := by
      have := h (Metric.ball_mem_nhds x' hpos)
      filter_upwards [this] with t ht
      simpa [dist_eq_norm] using ht
    obtain ⟨t, ht, h3, h4⟩ := (hB.and_eventually (h1.and h2)).exists
    exact ⟨t, ht, h3.1, h3.2, h4⟩
  choose u hu using hn
  have hlim : Tendsto (fun n : ℕ => 1 / ((n : ℝ) + 1)) atTop (𝓝 0) := tendsto_one_div_add_atTop_nhds_zero_nat
  have ht0 : t₀ ∉ range u := by
    rintro ⟨n, hn⟩
    exact (hu n).2.1 hn
  refine ⟨u, ?_, fun n => (hu n).1, ht0, fun y hy1 hy2 => ?_⟩
  · refine tendsto_nhdsWithin_iff.2 ⟨?_, .of_forall fun n => (hu n).2.1⟩
    rw [tendsto_iff_dist_tendsto_zero]
    exact squeeze_zero (fun n => dist_nonneg) (fun n => (hu n).2.2.1.le) hlim
  · have hy0 : y t₀ = x0 := by rw [hy2 t₀ ht0]; simp
    rw [hasDerivAt_iff_tendsto_slope, Metric.tendsto_nhds]
    intro ε hε
    obtain ⟨N, hN⟩ := exists_nat_one_div_lt hε
    have hfin : (u '' (Set.Iio N)).Finite := (Set.finite_Iio N).image u
    have hmem : (u '' (Set.Iio N))ᶜ ∈ 𝓝 t₀ := hfin.isClosed.isOpen_compl.mem_nhds (by
      rintro ⟨n, -, hn⟩; exact (hu n).2.1 hn)
    filter_upwards [self_mem_nhdsWithin, nhdsWithin_le_nhds hmem] with t ht htc
    rw [slope_def_module, hy0]
    by_cases hr : t ∈ range u
    · rw [hy1 t hr]
      obtain ⟨n, rfl⟩ := hr
      have hnN : N ≤ n := by
        by_contra hlt
        exact htc ⟨n, not_le.1 hlt, rfl⟩
      rw [dist_eq_norm]
      refine (hu n).2.2.2.trans_le (le_trans ?_ hN.le)
      have : (N : ℝ) ≤ n := by exact_mod_cast hnN
      gcongr
    · rw [hy2 t hr, add_sub_cancel_left, smul_smul, inv_mul_cancel₀ (sub_ne_zero.2 ht), one_smul, dist_self]
      exact hε

theorem positive_eventually {y : ℝ → Fin 3 → ℝ} {t₀ : ℝ} (hy : ContinuousAt y t₀) (h : Positive (y t₀)) :
    ∀ᶠ t in 𝓝 t₀, Positive (y t) := by
  have : ∀ a, ∀ᶠ t in 𝓝 t₀, 0 < y t a := fun a =>
    ((continuousAt_pi.1 hy a).eventually (lt_mem_nhds (h a)))
  filter_upwards [eventually_all.2 this] with t ht a using ht a

/-- Difference quotients of an energy along a filter. -/
theorem IsGradient3.along {ψ : (Fin 3 → ℝ) → ℝ} {ret} (h : IsGradient3 Positive ψ ret) {x0 g : Fin 3 → ℝ}
    (h0 : Positive x0) (hg : ret x0 g) {l : Filter ℝ} {t₀ : ℝ} (hl : l ≤ 𝓝[≠] t₀) {x : ℝ → Fin 3 → ℝ} {x' : Fin 3 → ℝ}
    (hx : Tendsto (fun t => (t - t₀)⁻¹ • (x t - x0)) l (𝓝 x')) :
    Tendsto (fun t => (t - t₀)⁻¹ * (ψ (x t) - ψ x0)) l (𝓝 (∑ a, g a * x' a)) := by
  classical
  by_contra hnot
  rw [not_tendsto_iff_exists_frequently_notMem] at hnot
  obtain ⟨s, hs, hB⟩ := hnot
  obtain ⟨u, hu, huB, ht0, hy⟩ := exists_curve hl hx hB
  let y : ℝ → Fin 3 → ℝ := fun t => if t ∈ range u then x t else x0 + (t - t₀) • x'
  have hyd : HasDerivAt y x' t₀ := hy y (fun t ht => if_pos ht) (fun t ht => if_neg ht)
  have hy0 : y t₀ = x0 := by simp only [y]; rw [if_neg ht0]; simp
  have h1 := h y x' t₀ g (positive_eventually hyd.continuousAt (hy0 ▸ h0)) (hasDerivAt_pi.1 hyd) (hy0 ▸ hg)
  rw [hasDerivAt_iff_tendsto_slope] at h1
  obtain ⟨n, hn⟩ := ((h1.comp hu).eventually hs).exists
  refine huB n ?_
  simp only [Function.comp, slope_def_module, hy0, smul_eq_mul] at hn
  have : y (u n) = x (u n) := if_pos ⟨n, rfl⟩
  rwa [this] at hn

/-- Difference quotients of a gradient along a filter. -/
theorem IsHessian3.along {ret retH} (h : IsHessian3 Positive ret retH) (htot : ∀ x, Positive x → ∃ g, ret x g)
    {x0 g0 : Fin 3 → ℝ} {H : Fin 3 → Fin 3 → ℝ} (h0 : Positive x0) (hg : ret x0 g0) (hH : retH x0 H) {l : Filter ℝ} {t₀ : ℝ}
    (hl : l ≤ 𝓝[≠] t₀) {x g : ℝ → Fin 3 → ℝ} {x' : Fin 3 → ℝ}
    (hx : Tendsto (fun t => (t - t₀)⁻¹ • (x t - x0)) l (𝓝 x')) (hgx : ∀ᶠ t in l, ret (x t) (g t)) (a : Fin 3) :
    Tendsto (fun t => (t - t₀)⁻¹ * (g t a - g0 a)) l (𝓝 (∑ b, H a b * x' b)) := by
  classical
  by_contra hnot
  rw [not_tendsto_iff_exists_frequently_notMem] at hnot
  obtain ⟨s, hs, hB⟩ := hnot
  obtain ⟨u, hu, huB, ht0, hy⟩ := exists_curve hl hx (B := {t | (t - t₀)⁻¹ * (g t a - g0 a) ∉ s ∧ ret (x t) (g t)})
    (hB.and_eventually hgx)
  let y : ℝ → Fin 3 → ℝ := fun t => if t ∈ range u then x t else x0 + (t - t₀) • x'
  have hyd : HasDerivAt y x' t₀ := hy y (fun t ht => if_pos ht) (fun t ht => if_neg ht)
  have hy0 : y t₀ = x0 := by simp only [y]; rw [if_neg ht0]; simp
  have hpos := positive_eventually hyd.continuousAt (hy0 ▸ h0)
  let k : ℝ → Fin 3 → ℝ := fun t => if t ∈ range u then g t else if t = t₀ then g0 else
    if hp : Positive (y t) then (htot (y t) hp).choose else 0
  have hk : ∀ᶠ t in 𝓝 t₀, ret (y t) (k t) := by
    filter_upwards [hpos] with t ht
    by_cases hr : t ∈ range u
    · have e1 : y t = x t := if_pos hr
      have e2 : k t = g t := if_pos hr
      rw [e1, e2]
      obtain ⟨n, rfl⟩ := hr
      exact (huB n).2
    · simp only [k]
      rw [if_neg hr]
      by_cases htt : t = t₀
      · rw [if_pos htt, htt, hy0]; exact hg
      · rw [if_neg htt, dif_pos ht]
        exact (htot (y t) ht).choose_spec
  have h1 := h y x' t₀ k H hpos (hasDerivAt_pi.1 hyd) hk (hy0 ▸ hH) a
  rw [hasDerivAt_iff_tendsto_slope] at h1
  obtain ⟨n, hn⟩ := ((h1.comp hu).eventually hs).exists
  refine (huB n).1 ?_
  have hk0 : k t₀ = g0 := by simp only [k]; rw [if_neg ht0]; simp
  have hkn : k (u n) = g (u n) := if_pos ⟨n, rfl⟩
  simp only [Function.comp, slope_def_module, hk0, hkn, smul_eq_mul] at hn
  exact hn

end Spec
