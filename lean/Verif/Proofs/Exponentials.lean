import Mathlib.Analysis.Calculus.LocalExtr.Rolle
import Mathlib.Analysis.SpecialFunctions.ExpDeriv
import Mathlib.Analysis.SpecialFunctions.Pow.Real
import Mathlib.Data.Finset.Sort
import Mathlib.Tactic.Linarith

/-! Sums of exponential functions have few zeros. -/

namespace Hel

/-- Between the zeros of a function there are zeros of its derivative. -/
theorem zeros_deriv {g g' : ℝ → ℝ} (hg : ∀ x, HasDerivAt g (g' x) x) (T : Finset ℝ) (hT : ∀ t ∈ T, g t = 0) :
    ∃ T' : Finset ℝ, T.card ≤ T'.card + 1 ∧ ∀ t ∈ T', g' t = 0 := by
  obtain h0 | h0 := Nat.eq_zero_or_pos T.card
  · exact ⟨∅, by omega, by simp⟩
  obtain ⟨m, hm⟩ : ∃ m, T.card = m + 1 := ⟨T.card - 1, by omega⟩
  let t := T.orderEmbOfFin hm
  have hlt : ∀ i : Fin m, t i.castSucc < t i.succ := fun i => t.strictMono (Fin.castSucc_lt_succ)
  have hz : ∀ i, g (t i) = 0 := fun i => hT _ (Finset.orderEmbOfFin_mem T hm i)
  have hR : ∀ i : Fin m, ∃ z ∈ Set.Ioo (t i.castSucc) (t i.succ), g' z = 0 := fun i =>
    exists_hasDerivAt_eq_zero (hlt i) (fun x _ => (hg x).continuousAt.continuousWithinAt) ((hz _).trans (hz _).symm)
      fun x _ => hg x
  choose z hz1 hz2 using hR
  have hmono : StrictMono z := by
    intro i j hij
    have h1 : t i.succ ≤ t j.castSucc := t.monotone (by
      rw [Fin.le_def, Fin.val_succ, Fin.val_castSucc]
      exact hij)
    exact ((hz1 i).2.trans_le h1).trans (hz1 j).1
  refine ⟨Finset.univ.image z, ?_, ?_⟩
  · rw [Finset.card_image_of_injective _ hmono.injective, Finset.card_univ, Fintype.card_fin, hm]
  · intro x hx
    obtain ⟨i, -, rfl⟩ := Finset.mem_image.1 hx
    exact hz2 i

/-- A sum of exponential functions with different exponents which has as many zeros as terms vanishes. -/
theorem exp_sum_zero (S : Finset ℝ) : ∀ (c : ℝ → ℝ) (T : Finset ℝ), S.card ≤ T.card →
    (∀ t ∈ T, ∑ r ∈ S, c r * Real.exp (r * t) = 0) → ∀ r ∈ S, c r = 0 := by
  induction S using Finset.induction_on with
  | empty => intro c T _ _ r hr; simp at hr
  | @insert r₀ S hr₀ ih =>
    intro c T hc hT
    rw [Finset.card_insert_of_notMem hr₀] at hc
    have hg : ∀ x, HasDerivAt (fun t => c r₀ + ∑ r ∈ S, c r * Real.exp ((r - r₀) * t))
        (∑ r ∈ S, c r * (r - r₀) * Real.exp ((r - r₀) * x)) x := by
      intro x
      refine (HasDerivAt.fun_sum fun r _ => ?_).const_add _
      have h1 : HasDerivAt (fun t => (r - r₀) * t) (r - r₀) x := by simpa using (hasDerivAt_id x).const_mul (r - r₀)
      have h2 := (h1.exp).const_mul (c r)
      exact h2.congr_deriv (by ring)
    obtain ⟨T', hT1, hT2⟩ := zeros_deriv hg T fun t ht => by
      have h1 := hT t ht
      rw [Finset.sum_insert hr₀] at h1
      have h2 : Real.exp (r₀ * t) * (c r₀ + ∑ r ∈ S, c r * Real.exp ((r - r₀) * t)) = 0 := by
        rw [← h1, mul_add, Finset.mul_sum]
        congr 1
        · ring
        · refine Finset.sum_congr rfl fun r _ => ?_
          rw [mul_left_comm, ← Real.exp_add]
          congr 2
          ring
      exact (mul_eq_zero.1 h2).resolve_left (Real.exp_ne_zero _)
    have hS : ∀ r ∈ S, c r = 0 := by
      intro r hr
      have := ih (fun r => c r * (r - r₀)) T' (by omega) (fun t ht => by
        have h1 := hT2 t ht
        have h2 : Real.exp (r₀ * t) * ∑ r ∈ S, c r * (r - r₀) * Real.exp ((r - r₀) * t) = 0 := by rw [h1, mul_zero]
        rw [Finset.mul_sum] at h2
        rw [← h2]
        refine Finset.sum_congr rfl fun r _ => ?_
        rw [mul_left_comm, ← Real.exp_add]
        congr 2
        ring) r hr
      refine (mul_eq_zero.1 this).resolve_right fun e => hr₀ ?_
      rwa [← sub_eq_zero.1 e]
    intro r hr
    rcases Finset.mem_insert.1 hr with rfl | hr
    · obtain ⟨t, ht⟩ : T.Nonempty := Finset.card_pos.1 (by omega)
      have h1 := hT t ht
      rw [Finset.sum_insert hr₀, Finset.sum_eq_zero fun r hr => by rw [hS r hr, zero_mul], add_zero] at h1
      exact (mul_eq_zero.1 h1).resolve_right (Real.exp_ne_zero _)
    · exact hS r hr

/-- The same for powers. -/
theorem rpow_sum_zero (S : Finset ℝ) (c : ℝ → ℝ) (T : Finset ℝ) (hc : S.card ≤ T.card) (hp : ∀ t ∈ T, 0 < t)
    (hT : ∀ t ∈ T, ∑ r ∈ S, c r * t ^ r = 0) : ∀ r ∈ S, c r = 0 := by
  refine exp_sum_zero S c (T.image Real.log) ?_ ?_
  · rw [Finset.card_image_of_injOn]
    · exact hc
    · intro x hx y hy h
      exact Real.log_injOn_pos (hp x hx) (hp y hy) h
  · intro s hs
    obtain ⟨t, ht, rfl⟩ := Finset.mem_image.1 hs
    rw [← hT t ht]
    refine Finset.sum_congr rfl fun r _ => ?_
    rw [Real.rpow_def_of_pos (hp t ht), mul_comm r]

end Hel
