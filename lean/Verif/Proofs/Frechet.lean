import Verif.Spec.Prediction
import Verif.Proofs.InvFramework
import Mathlib.Topology.Algebra.Order.LiminfLimsup
import Mathlib.Topology.Order.Compact
import Mathlib.Analysis.Calculus.Deriv.Slope
import Mathlib.Analysis.Calculus.Deriv.Pow
import Mathlib.Topology.Instances.Matrix

/-!
# Derivatives along all motions are derivatives in all directions at once
-/

namespace Hel
open Spec Filter Topology

/-- A sequence of counterexamples closer and closer to a point lies on a motion through it. -/
theorem exists_motion {F : Ten2 ℝ} {Bad : Ten2 ℝ → ℝ → Prop}
    (hB : ∀ δ > 0, ∃ h, 0 < h ∧ h ≤ δ ∧ ∃ Y, Near F Y h ∧ Bad Y h) :
    ∃ X D, X 0 = F ∧ Moves X D 0 ∧ ∃ᶠ t in 𝓝[≠] (0 : ℝ), 0 < t ∧ Bad (X t) t := by
  classical
  choose h0 hpos0 hle0 Y0 hN0 hB0 using fun n : ℕ => hB (1 / ((n : ℝ) + 1)) (by positivity)
  -- directions
  let D0 : ℕ → Fin 3 → Fin 3 → ℝ := fun n i j => (Y0 n i j - F i j) / h0 n
  have hc : ∀ n, D0 n ∈ Set.Icc (fun _ _ => (-1 : ℝ)) (fun _ _ => 1) := by
    intro n
    rw [Set.mem_Icc, Pi.le_def, Pi.le_def]
    have := fun i j => abs_le.1 (hN0 n i j)
    constructor <;> intro i <;> rw [Pi.le_def] <;> intro j
    · change -1 ≤ (Y0 n i j - F i j) / h0 n
      rw [le_div_iff₀ (hpos0 n)]; linarith [(this i j).1]
    · change (Y0 n i j - F i j) / h0 n ≤ 1
      rw [div_le_iff₀ (hpos0 n)]; linarith [(this i j).2]
  obtain ⟨D, -, φ, hφ, hD⟩ := isCompact_Icc.tendsto_subseq hc
  obtain ⟨h, hh⟩ : ∃ h : ℕ → ℝ, h = fun n => h0 (φ n) := ⟨_, rfl⟩
  obtain ⟨Y, hY⟩ : ∃ Y : ℕ → Ten2 ℝ, Y = fun n => Y0 (φ n) := ⟨_, rfl⟩
  have hpos : ∀ n, 0 < h n := fun n => by rw [hh]; exact hpos0 _
  have hlim : Tendsto h atTop (𝓝 0) := by
    have h1 : Tendsto h0 atTop (𝓝 0) :=
      squeeze_zero (fun n => (hpos0 n).le) hle0 tendsto_one_div_add_atTop_nhds_zero_nat
    rw [hh]; exact h1.comp hφ.tendsto_atTop
  have hdir : ∀ i j, Tendsto (fun n => (Y n i j - F i j) / h n) atTop (𝓝 (D i j)) := by
    intro i j
    have := tendsto_pi_nhds.1 (tendsto_pi_nhds.1 hD i) j
    rw [hh, hY]; exact this
  have hbad : ∀ n, Bad (Y n) (h n) := fun n => by rw [hh, hY]; exact hB0 _
  let X : ℝ → Ten2 ℝ := fun t => if ht : ∃ n, h n = t then Y ht.choose else F + t • Matrix.of D
  have hX0 : X 0 = F := by
    have : ¬ ∃ n, h n = 0 := by rintro ⟨n, hn⟩; exact (hpos n).ne' hn
    have e : X 0 = F + (0 : ℝ) • Matrix.of D := dif_neg this
    rw [e, zero_smul, add_zero]
  refine ⟨X, D, hX0, fun i j => ?_, ?_⟩
  · -- derivative at 0
    rw [hasDerivAt_iff_tendsto_slope_zero]
    rw [Metric.tendsto_nhds]
    intro ε hε
    obtain ⟨N, hN⟩ := (Metric.tendsto_atTop.1 (hdir i j)) ε hε
    have hsmall : ∀ᶠ t in 𝓝 (0 : ℝ), ∀ n ∈ Finset.range N, t ≠ h n :=
      (Filter.eventually_all_finset _).2 fun n _ => eventually_ne_nhds (hpos n).ne
    filter_upwards [hsmall.filter_mono nhdsWithin_le_nhds, self_mem_nhdsWithin] with t ht ht0
    have ht0 : t ≠ 0 := ht0
    rw [zero_add, hX0, smul_eq_mul]
    by_cases hx : ∃ n, h n = t
    · have e : X t = Y hx.choose := dif_pos hx
      have e2 := hx.choose_spec
      rw [e]
      generalize hx.choose = n at e2
      have hn : N ≤ n := by
        by_contra hlt
        exact ht n (Finset.mem_range.2 (not_le.1 hlt)) e2.symm
      have := hN n hn
      rw [e2] at this
      rwa [inv_mul_eq_div]
    · have e : X t = F + t • Matrix.of D := dif_neg hx
      have e : X t i j = F i j + t * D i j := by rw [e]; rfl
      rw [e, add_sub_cancel_left, inv_mul_cancel_left₀ ht0, dist_self]
      exact hε
  · have h1 : Tendsto h atTop (𝓝[≠] 0) :=
      tendsto_nhdsWithin_iff.2 ⟨hlim, .of_forall fun n => (hpos n).ne'⟩
    refine h1.frequently (Frequently.of_forall fun n => ⟨hpos n, ?_⟩)
    have hx : ∃ m, h m = h n := ⟨n, rfl⟩
    have e : X (h n) = Y hx.choose := dif_pos hx
    have e2 := hx.choose_spec
    have := hbad hx.choose
    rwa [e2, ← e] at this

/-- motions of the argument are eventually inside -/
theorem inside_eventually {dom : Ten2 ℝ → Prop} {F : Ten2 ℝ} (h : Inside dom F) {X : ℝ → Ten2 ℝ} {D : Ten2 ℝ}
    (hX : X 0 = F) (hm : Moves X D 0) : ∀ᶠ t in 𝓝 (0 : ℝ), dom (X t) := by
  obtain ⟨ρ, hρ, h⟩ := h
  have h1 : ∀ᶠ t in 𝓝 (0 : ℝ), ∀ i j, |X t i j - F i j| ≤ ρ := by
    rw [eventually_all]; intro i
    rw [eventually_all]; intro j
    have := (hm i j).continuousAt
    rw [Metric.continuousAt_iff'] at this
    filter_upwards [this ρ hρ] with t ht
    rw [Real.dist_eq, hX] at ht
    exact ht.le
  exact h1.mono fun t ht => h _ ht

theorem near_pos {F Y : Ten2 ℝ} {h : ℝ} (hN : Near F Y h) : 0 ≤ h := (abs_nonneg _).trans (hN 0 0)

theorem near_zero {F Y : Ten2 ℝ} {h : ℝ} (hN : Near F Y h) (h0 : ¬ 0 < h) : Y = F := by
  ext i j
  have := hN i j
  have e : h = 0 := le_antisymm (not_lt.1 h0) (near_pos hN)
  rw [e, abs_nonpos_iff, sub_eq_zero] at this
  exact this

/-- a linear function of the increment moves -/
theorem moves_linear {X : ℝ → Ten2 ℝ} {D F : Ten2 ℝ} (hm : Moves X D 0) (c : Ten2 ℝ) :
    HasDerivAt (fun t => contract22 c (X t - F)) (contract22 c D) 0 := by
  unfold contract22
  refine HasDerivAt.fun_sum fun i _ => HasDerivAt.fun_sum fun j _ => ?_
  exact ((hm i j).sub_const _).const_mul _

/-- eventually small against the time -/
theorem eventually_small {f : ℝ → ℝ} (hf : HasDerivAt f 0 0) (h0 : f 0 = 0) {ε : ℝ} (hε : 0 < ε) :
    ∀ᶠ t in 𝓝 (0 : ℝ), |f t| ≤ ε * |t| := by
  have := hf.isLittleO.def hε
  filter_upwards [this] with t ht
  simpa [h0] using ht

/-- the gradient along motions predicts the energy in all directions at once -/
theorem IsGradient.predicts {dom : Ten2 ℝ → Prop} {ψ : Ten2 ℝ → ℝ} {ret : Ten2 ℝ → Ten2 ℝ → Prop}
    (h : IsGradient dom ψ ret) {F P : Ten2 ℝ} (hd : Inside dom F) (hP : ret F P) : PredictsEnergy ψ F P := by
  intro ε hε
  by_contra hcon
  push Not at hcon
  obtain ⟨X, D, hX, hm, hfr⟩ := exists_motion (F := F)
    (Bad := fun Y t => ε * t < |ψ Y - ψ F - contract22 P (Y - F)|) (by
      intro δ hδ
      obtain ⟨t, ht, Y, hN, hb⟩ := hcon δ hδ
      refine ⟨t, ?_, ht, Y, hN, hb⟩
      by_contra h0
      have e := near_zero hN h0
      have e2 : t = 0 := le_antisymm (not_lt.1 h0) (near_pos hN)
      rw [e, e2] at hb
      simp [contract22] at hb)
  have h1 := h X D 0 P (inside_eventually hd hX hm) hm (by rw [hX]; exact hP)
  have h2 := (h1.sub_const (ψ F)).sub (moves_linear (F := F) hm P)
  rw [sub_self] at h2
  have h3 := eventually_small h2 (by simp [hX, contract22]) hε
  refine hfr ?_
  filter_upwards [h3.filter_mono nhdsWithin_le_nhds] with t ht ⟨h0, hb⟩
  rw [abs_of_pos h0] at ht
  exact absurd ht (not_le.2 hb)

theorem moves_linear42 {X : ℝ → Ten2 ℝ} {D F : Ten2 ℝ} (hm : Moves X D 0) (A : Ten4 ℝ) (i j : Fin 3) :
    HasDerivAt (fun t => contract42 A (X t - F) i j) (contract42 A D i j) 0 := by
  unfold contract42
  refine HasDerivAt.fun_sum fun k _ => HasDerivAt.fun_sum fun l _ => ?_
  exact ((hm k l).sub_const _).const_mul _

open Classical in
/-- the hessian along motions predicts the gradient in all directions at once -/
theorem IsHessian.predicts {dom : Ten2 ℝ → Prop} {ret : Ten2 ℝ → Ten2 ℝ → Prop} {retH : Ten2 ℝ → Ten4 ℝ → Prop}
    (h : IsHessian dom ret retH) {F P : Ten2 ℝ} {A : Ten4 ℝ} (hd : Inside dom F) (htot : ∀ Y, dom Y → ∃ P, ret Y P)
    (hP : ret F P) (hA : retH F A) : PredictsStress ret F P A := by
  have hF : dom F := by
    obtain ⟨ρ, hρ, h⟩ := hd
    exact h F fun i j => by simpa using hρ.le
  intro ε hε
  by_contra hcon
  push Not at hcon
  obtain ⟨X, D, hX, hm, hfr⟩ := exists_motion (F := F)
    (Bad := fun Y t => ∃ P', ret Y P' ∧ ∃ i j, ε * t < |P' i j - P i j - contract42 A (Y - F) i j|) (by
      intro δ hδ
      obtain ⟨t, ht, Y, P', hN, hr, hb⟩ := hcon δ hδ
      refine ⟨t, ?_, ht, Y, hN, P', hr, hb⟩
      by_contra h0
      have e := near_zero hN h0
      have e2 : t = 0 := le_antisymm (not_lt.1 h0) (near_pos hN)
      obtain ⟨i, j, hb⟩ := hb
      rw [e] at hr
      rw [h.unique hF hr hP hA, e, e2] at hb
      simp [contract42] at hb)
  have hdom := inside_eventually hd hX hm
  let R : ℝ → Ten2 ℝ := fun t =>
    if hb : ∃ P', ret (X t) P' ∧ ∃ i j, ε * t < |P' i j - P i j - contract42 A (X t - F) i j| then hb.choose
    else if ht : ∃ P', ret (X t) P' then ht.choose else 0
  have hR : ∀ᶠ t in 𝓝 (0 : ℝ), ret (X t) (R t) := by
    filter_upwards [hdom] with t ht
    by_cases hb : ∃ P', ret (X t) P' ∧ ∃ i j, ε * t < |P' i j - P i j - contract42 A (X t - F) i j|
    · have e : R t = hb.choose := dif_pos hb
      rw [e]; exact hb.choose_spec.1
    · have ht := htot _ ht
      have e : R t = ht.choose := (dif_neg hb).trans (dif_pos ht)
      rw [e]; exact ht.choose_spec
  have hA' : retH (X 0) A := by rw [hX]; exact hA
  have hR0 : R 0 = P := h.unique hF (by have := hR.self_of_nhds; rwa [hX] at this) hP hA
  have h1 := h X D 0 R A hdom hm hR hA'
  have h3 : ∀ᶠ t in 𝓝 (0 : ℝ), ∀ i j, |R t i j - P i j - contract42 A (X t - F) i j| ≤ ε * |t| := by
    rw [eventually_all]; intro i
    rw [eventually_all]; intro j
    have h2 := ((h1 i j).sub_const (P i j)).sub (moves_linear42 (F := F) hm A i j)
    rw [sub_self] at h2
    exact eventually_small h2 (by simp [hX, hR0, contract42]) hε
  refine hfr ?_
  filter_upwards [h3.filter_mono nhdsWithin_le_nhds] with t ht ⟨h0, hb⟩
  rw [abs_of_pos h0] at ht
  have e : R t = hb.choose := dif_pos hb
  obtain ⟨-, i, j, hlt⟩ := hb.choose_spec
  rw [← e] at hlt
  exact absurd (ht i j) (not_le.2 hlt)

/-- results which are continuous along every motion are continuous -/
theorem continuous_of_motions {F : Ten2 ℝ} {ret : Ten2 ℝ → Ten2 ℝ → Prop} {γ : Ten2 ℝ → Ten2 ℝ} {dom : Ten2 ℝ → Prop}
    (hd : Inside dom F) (hu : ∀ Y P, dom Y → ret Y P → P = γ Y)
    (hc : ∀ X X', X 0 = F → Moves X X' 0 → ContinuousAt (fun t => γ (X t)) 0) : ContinuousResult ret F := by
  have hF : dom F := by
    obtain ⟨ρ, hρ, h⟩ := hd
    exact h F fun i j => by simpa using hρ.le
  intro P hP ε hε
  by_contra hcon
  push Not at hcon
  obtain ⟨X, D, hX, hm, hfr⟩ := exists_motion (F := F)
    (Bad := fun Y t => ∃ P', ret Y P' ∧ ¬ Near P P' ε) (by
      intro δ hδ
      obtain ⟨Y, P', hN, hr, hb⟩ := hcon δ hδ
      exact ⟨δ, hδ, le_rfl, Y, hN, P', hr, hb⟩)
  have h1 := hc X D hX hm
  have h3 : ∀ᶠ t in 𝓝 (0 : ℝ), ∀ i j, |γ (X t) i j - P i j| ≤ ε := by
    rw [eventually_all]; intro i
    rw [eventually_all]; intro j
    have h2 : ContinuousAt (fun t => γ (X t) i j) 0 :=
      (continuousAt_pi.1 (continuousAt_pi.1 h1 i) j)
    rw [Metric.continuousAt_iff'] at h2
    filter_upwards [h2 ε hε] with t ht
    rw [Real.dist_eq, hX, ← hu F P hF hP] at ht
    exact ht.le
  refine hfr ?_
  filter_upwards [h3.filter_mono nhdsWithin_le_nhds, (inside_eventually hd hX hm).filter_mono nhdsWithin_le_nhds] with t ht hdt ⟨_, P', hr, hb⟩
  refine hb fun i j => ?_
  rw [hu _ _ hdt hr]
  exact ht i j

end Hel
