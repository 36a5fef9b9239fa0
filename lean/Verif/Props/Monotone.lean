import Verif.Spec.Monotone
import Verif.Props.Fit
import Verif.Props.LabOgden

/-! # Property C77: increasing load curves -/

namespace Props
open Spec Hel

variable {Z : Type}

/-! ### functions with a dip at one -/

/-- Zero at one, decreasing before, increasing afterwards. -/
structure Dip (g : ℝ → ℝ) : Prop where
  zero : g 1 = 0
  anti : StrictAntiOn g (Set.Ioc 0 1)
  mono : StrictMonoOn g (Set.Ici 1)

theorem Dip.nonneg {g : ℝ → ℝ} (h : Dip g) {l : ℝ} (hl : 0 < l) : 0 ≤ g l := by
  rcases lt_trichotomy l 1 with h1 | h1 | h1
  · have := h.anti ⟨hl, h1.le⟩ ⟨one_pos, le_rfl⟩ h1
    rw [h.zero] at this; exact this.le
  · rw [h1, h.zero]
  · have := h.mono (Set.mem_Ici.2 le_rfl) (Set.mem_Ici.2 h1.le) h1
    rw [h.zero] at this; exact this.le

theorem Dip.pos {g : ℝ → ℝ} (h : Dip g) {l : ℝ} (hl : 0 < l) (h1 : l ≠ 1) : 0 < g l := by
  rcases lt_or_gt_of_ne h1 with h1 | h1
  · have := h.anti ⟨hl, h1.le⟩ ⟨one_pos, le_rfl⟩ h1
    rwa [h.zero] at this
  · have := h.mono (Set.mem_Ici.2 le_rfl) (Set.mem_Ici.2 h1.le) h1
    rwa [h.zero] at this

theorem strictMono_mul {f g : ℝ → ℝ} (hf : StrictMonoOn f (Set.Ioi 0)) (h0 : f 1 = 0) (hg : Dip g) :
    StrictMonoOn (fun l => f l * g l) (Set.Ioi 0) := by
  intro a ha b hb hab
  have ha' : 0 < a := ha
  have hb' : 0 < b := hb
  have hfab := hf ha hb hab
  simp only
  rcases le_or_gt b 1 with h1 | h1
  · have hga := hg.anti ⟨ha', (hab.trans_le h1).le⟩ ⟨hb', h1⟩ hab
    have hfb : f b ≤ 0 := by rw [← h0]; exact hf.monotoneOn hb (Set.mem_Ioi.2 one_pos) h1
    have := hg.nonneg hb'
    nlinarith
  · have hfb : 0 < f b := by rw [← h0]; exact hf (Set.mem_Ioi.2 one_pos) hb h1
    have hgb := hg.pos hb' h1.ne'
    rcases le_or_gt a 1 with h2 | h2
    · have hfa : f a ≤ 0 := by rw [← h0]; exact hf.monotoneOn ha (Set.mem_Ioi.2 one_pos) h2
      have := hg.nonneg ha'
      have h3 : 0 < f b * g b := mul_pos hfb hgb
      have h4 : f a * g a ≤ 0 := mul_nonpos_of_nonpos_of_nonneg hfa this
      linarith
    · have hfa : 0 < f a := by rw [← h0]; exact hf (Set.mem_Ioi.2 one_pos) ha h2
      have hga := hg.mono (Set.mem_Ici.2 h2.le) (Set.mem_Ici.2 h1.le) hab
      have := hg.pos ha' h2.ne'
      nlinarith

theorem Dip.sq {g : ℝ → ℝ} (h : Dip g) : Dip fun l => g l ^ 2 where
  zero := by simp [h.zero]
  anti a ha b hb hab := pow_lt_pow_left₀ (h.anti ha hb hab) (h.nonneg hb.1) two_ne_zero
  mono a ha b hb hab := pow_lt_pow_left₀ (h.mono ha hb hab) (h.nonneg (one_pos.trans_le ha)) two_ne_zero

/-- A function whose difference quotients are positive above one and negative below. -/
theorem Dip.of_quotient {q : ℝ → ℝ → ℝ} {f : ℝ → ℝ} (h0 : f 1 = 0)
    (hq : ∀ a b, 0 < a → 0 < b → f b - f a = (b - a) * q a b) (h1 : ∀ a b, 1 ≤ a → a < b → 0 < q a b)
    (h2 : ∀ a b, 0 < a → a < b → b ≤ 1 → q a b < 0) : Dip f where
  zero := h0
  anti a ha b hb hab := by
    have := hq a b ha.1 hb.1
    have := mul_neg_of_pos_of_neg (sub_pos.2 hab) (h2 a b ha.1 hab hb.2)
    linarith
  mono a ha b hb hab := by
    have := hq a b (one_pos.trans_le ha) (one_pos.trans_le hb)
    have := mul_pos (sub_pos.2 hab) (h1 a b ha hab)
    linarith

theorem dip_u1 : Dip fun l : ℝ => l ^ 2 + 2 / l - 3 := by
  refine Dip.of_quotient (q := fun a b => b + a - 2 / (a * b)) (by norm_num)
    (fun a b ha hb => by field_simp; ring) (fun a b ha hab => ?_) fun a b ha hab hb => ?_
  · have h1 : 1 < a * b := by nlinarith
    have : 2 / (a * b) < 2 := by rw [div_lt_iff₀ (by linarith)]; linarith
    linarith
  · have hb0 : 0 < b := ha.trans hab
    have h0 : 0 < a * b := by positivity
    have h1 : a * b < 1 := by nlinarith
    have : 2 < 2 / (a * b) := by rw [lt_div_iff₀ h0]; linarith
    linarith

theorem dip_u2 : Dip fun l : ℝ => 2 * l + 1 / l ^ 2 - 3 := by
  refine Dip.of_quotient (q := fun a b => 2 - (a + b) / (a ^ 2 * b ^ 2)) (by norm_num)
    (fun a b ha hb => by field_simp; ring) (fun a b ha hab => ?_) fun a b ha hab hb => ?_
  · have h0 : 0 < a := by linarith
    have hb0 : 0 < b := h0.trans hab
    have h1 : 1 < a * b := by nlinarith
    have : (a + b) / (a ^ 2 * b ^ 2) < 2 := by
      rw [div_lt_iff₀ (by positivity)]
      have h2 : a + b < 2 * (a * b) := by nlinarith
      nlinarith
    linarith
  · have hb0 : 0 < b := ha.trans hab
    have h0 : 0 < a * b := by positivity
    have h1 : a * b < 1 := by nlinarith
    have : 2 < (a + b) / (a ^ 2 * b ^ 2) := by
      rw [lt_div_iff₀ (by positivity)]
      have h2 : 2 * (a * b) < a + b := by nlinarith
      nlinarith
    linarith

theorem dip_p : Dip fun l : ℝ => l ^ 2 + 1 / l ^ 2 + 1 - 3 := by
  refine Dip.of_quotient (q := fun a b => (a + b) * (1 - 1 / (a ^ 2 * b ^ 2))) (by norm_num)
    (fun a b ha hb => by field_simp; ring) (fun a b ha hab => ?_) fun a b ha hab hb => ?_
  · have h0 : 0 < a := by linarith
    have hb0 : 0 < b := h0.trans hab
    have h1 : 1 < a * b := by nlinarith
    have : 1 / (a ^ 2 * b ^ 2) < 1 := by
      rw [div_lt_iff₀ (by positivity)]
      nlinarith
    exact mul_pos (by positivity) (by linarith)
  · have hb0 : 0 < b := ha.trans hab
    have h0 : 0 < a * b := by positivity
    have h1 : a * b < 1 := by nlinarith
    have : 1 < 1 / (a ^ 2 * b ^ 2) := by
      rw [lt_div_iff₀ (by positivity)]
      nlinarith
    exact mul_neg_of_pos_of_neg (by positivity) (by linarith)

theorem Dip.comp_sq {g : ℝ → ℝ} (h : Dip g) : Dip fun l => g (l ^ 2) where
  zero := by simp [h.zero]
  anti a ha b hb hab := h.anti ⟨by have := ha.1; positivity, pow_le_one₀ ha.1.le ha.2⟩
    ⟨by have := hb.1; positivity, pow_le_one₀ hb.1.le hb.2⟩ (pow_lt_pow_left₀ hab ha.1.le two_ne_zero)
  mono a ha b hb hab := h.mono (Set.mem_Ici.2 (one_le_pow₀ ha)) (Set.mem_Ici.2 (one_le_pow₀ hb))
    (pow_lt_pow_left₀ hab (zero_le_one.trans ha) two_ne_zero)

theorem Dip.congr {f g : ℝ → ℝ} (h : Dip f) (he : ∀ l, 0 < l → g l = f l) : Dip g where
  zero := by rw [he 1 one_pos, h.zero]
  anti a ha b hb hab := by rw [he a ha.1, he b hb.1]; exact h.anti ha hb hab
  mono a ha b hb hab := by
    rw [he a (one_pos.trans_le ha), he b (one_pos.trans_le hb)]; exact h.mono ha hb hab

/-- The first two invariants along the load cases. -/
theorem dip_invariants (k : LoadKind) : Dip (fun l => invariants (cauchyGreen (k.F l)) 0 - 3) ∧
    Dip (fun l => invariants (cauchyGreen (k.F l)) 1 - 3) := by
  cases k
  · exact ⟨dip_u1.congr fun l hl => by rw [(C42_invariants hl).1]; rfl,
      dip_u2.congr fun l hl => by rw [(C42_invariants hl).1]; rfl⟩
  · exact ⟨dip_p.congr fun l hl => by rw [(C42_invariants hl).2.1]; rfl,
      dip_p.congr fun l hl => by rw [(C42_invariants hl).2.1]; rfl⟩
  · refine ⟨dip_u2.comp_sq.congr fun l hl => ?_, dip_u1.comp_sq.congr fun l hl => ?_⟩
    · rw [(C42_invariants hl).2.2]
      simp only [Matrix.cons_val_zero, ← pow_mul]
    · rw [(C42_invariants hl).2.2]
      simp only [Matrix.cons_val_one, Matrix.cons_val_zero, ← pow_mul]

theorem strictMono_neg_inv (m : ℕ) : MonotoneOn (fun l : ℝ => -(1 / l ^ m)) (Set.Ioi 0) := by
  intro a ha b hb hab
  have ha' : 0 < a := ha
  exact neg_le_neg (one_div_le_one_div_of_le (by positivity) (pow_le_pow_left₀ ha'.le hab m))

theorem factor_mono (k : LoadKind) : StrictMonoOn (factor k) (Set.Ioi 0) := by
  have key : ∀ m : ℕ, StrictMonoOn (fun l : ℝ => 2 * (l - 1 / l ^ m)) (Set.Ioi 0) := by
    intro m a ha b hb hab
    have := strictMono_neg_inv m ha hb hab.le
    simp only at this ⊢
    linarith
  cases k <;> exact key _

theorem factor_weight_mono (k : LoadKind) : StrictMonoOn (fun l => factor k l * k.weight l) (Set.Ioi 0) := by
  intro a ha b hb hab
  have ha' : 0 < a := ha
  have hb' : 0 < b := hb
  cases k
  · have e : ∀ l : ℝ, 0 < l → factor .uniaxial l * LoadKind.uniaxial.weight l = 2 * (1 - 1 / l ^ 3) := by
      intro l hl
      simp only [factor, LoadKind.weight]
      field_simp
    simp only [e a ha', e b hb']
    have := one_div_lt_one_div_of_lt (by positivity) (pow_lt_pow_left₀ hab ha'.le three_ne_zero)
    linarith
  · simp only [LoadKind.weight, mul_one]
    exact factor_mono .planar ha hb hab
  · have e : ∀ l : ℝ, 0 < l → factor .biaxial l * LoadKind.biaxial.weight l = 2 * (l ^ 3 - 1 / l ^ 3) := by
      intro l hl
      simp only [factor, LoadKind.weight]
      field_simp
    simp only [e a ha', e b hb']
    have h1 := pow_lt_pow_left₀ hab ha'.le three_ne_zero
    have := one_div_lt_one_div_of_lt (by positivity) h1
    linarith

theorem stressAt_split (labels : List String) (k : LoadKind) (l : ℝ) (p : List ℝ) :
    stressAt labels k l p =
      coef labels p "C10" * factor k l + coef labels p "C01" * (factor k l * k.weight l) +
      coef labels p "C11" * (factor k l * (invariants (cauchyGreen (k.F l)) 1 - 3) +
        factor k l * k.weight l * (invariants (cauchyGreen (k.F l)) 0 - 3)) +
      2 * coef labels p "C20" * (factor k l * (invariants (cauchyGreen (k.F l)) 0 - 3)) +
      3 * coef labels p "C30" * (factor k l * (invariants (cauchyGreen (k.F l)) 0 - 3) ^ 2) := by
  rw [stressAt_eq, W1_eq _ _ _ _ _ rfl, W2_eq _ _ _ _ _ rfl]
  ring

/-- Nonnegative coefficients. -/
theorem stressAt_mono {labels : List String} {p : List ℝ} (k : LoadKind)
    (h : ∀ name ∈ ["C10", "C01", "C11", "C20", "C30"], 0 ≤ coef labels p name)
    (hne : ∃ name ∈ ["C10", "C01", "C11", "C20", "C30"], coef labels p name ≠ 0) :
    StrictMonoOn (fun l => stressAt labels k l p) (Set.Ioi 0) := by
  obtain ⟨v1, v2⟩ := dip_invariants k
  have f1 := factor_one k
  have f2 : factor k 1 * k.weight 1 = 0 := by rw [f1, zero_mul]
  have m10 := factor_mono k
  have m01 := factor_weight_mono k
  have m11a := strictMono_mul m10 f1 v2
  have m11b := strictMono_mul m01 f2 v1
  have m20 := strictMono_mul m10 f1 v1
  have m30 := strictMono_mul m10 f1 v1.sq
  have c10 := h "C10" (by simp)
  have c01 := h "C01" (by simp)
  have c11 := h "C11" (by simp)
  have c20 := h "C20" (by simp)
  have c30 := h "C30" (by simp)
  intro a ha b hb hab
  simp only [stressAt_split]
  have d10 := m10 ha hb hab
  have d01 := m01 ha hb hab
  have d11a := m11a ha hb hab
  have d11b := m11b ha hb hab
  have d20 := m20 ha hb hab
  have d30 := m30 ha hb hab
  simp only at d10 d01 d11a d11b d20 d30
  have e10 := mul_le_mul_of_nonneg_left d10.le c10
  have e01 := mul_le_mul_of_nonneg_left d01.le c01
  have e11 := mul_le_mul_of_nonneg_left (add_lt_add d11a d11b).le c11
  have e20 := mul_le_mul_of_nonneg_left d20.le (mul_nonneg zero_le_two c20)
  have e30 := mul_le_mul_of_nonneg_left d30.le (mul_nonneg zero_le_three c30)
  obtain ⟨name, hname, hn0⟩ := hne
  have hpos := lt_of_le_of_ne (h name hname) hn0.symm
  simp only [List.mem_cons, List.not_mem_nil, or_false] at hname
  rcases hname with rfl | rfl | rfl | rfl | rfl
  · have := mul_lt_mul_of_pos_left d10 hpos; linarith
  · have := mul_lt_mul_of_pos_left d01 hpos; linarith
  · have := mul_lt_mul_of_pos_left (add_lt_add d11a d11b) hpos; linarith
  · have := mul_lt_mul_of_pos_left d20 (mul_pos two_pos hpos); linarith
  · have := mul_lt_mul_of_pos_left d30 (mul_pos three_pos hpos); linarith

theorem increasing_of_map {sim : Simulation Z} {p : List ℝ} {f : ℝ → ℝ} (hf : StrictMonoOn f (Set.Ioi 0))
    (h : ∀ x : List ℝ, x ≠ [] → (∀ l ∈ x, 0 < l) → sim.stressCurveFit x p = .ok (x.map f)) : IncreasingCurve sim p := by
  intro x hne hx
  refine ⟨_, h x hne hx, by simp, fun i j hi hj hij => ?_⟩
  simp only [List.getD_eq_getElem?_getD, List.getElem?_map, List.getElem?_eq_getElem hi, List.getElem?_eq_getElem hj,
    Option.map_some, Option.getD_some]
  exact hf (hx _ (List.getElem_mem hi)) (hx _ (List.getElem_mem hj)) hij

/-! ### C77 -/

/-- With nonnegative parameters, not all zero, the load curves of third-order-deformation materials
are strictly increasing. -/
theorem C77_increasing (sim : Simulation Z) (k : LoadKind) (ht : TodTest sim k) (p : List ℝ)
    (hn : sim.labels.Nodup) (hlen : p.length = sim.labels.length) (hp : ∀ c ∈ p, 0 ≤ c) (hne : ∃ c ∈ p, c ≠ 0) :
    IncreasingCurve sim p := by
  have key := assigned_zip hn (p := p)
  refine increasing_of_map (f := fun l => stressAt sim.labels k l p) (stressAt_mono k (fun name _ => ?_) ?_)
    fun x _ hx => tod_curve ht p x hx
  · unfold coef
    by_cases hname : name ∈ sim.labels.take p.length
    · obtain ⟨i, hi, rfl⟩ := List.getElem_of_mem hname
      rw [List.length_take] at hi
      rw [List.getElem_take, key.1 i (by omega) (by omega)]
      exact hp _ (List.getElem_mem _)
    · rw [key.2 name hname]; rfl
  · obtain ⟨c, hc, hc0⟩ := hne
    obtain ⟨i, hi, rfl⟩ := List.getElem_of_mem hc
    refine ⟨sim.labels[i]'(by omega), ht.2.2 _ (List.getElem_mem _), ?_⟩
    rw [coef, key.1 i (by omega) hi]
    exact hc0

/-- If moreover `C10` is positive: to every stress belongs exactly one stretch. -/
theorem C77_invertible (sim : Simulation Z) (k : LoadKind) (ht : TodTest sim k) (p : List ℝ)
    (hp : ∀ name ∈ ["C10", "C01", "C11", "C20", "C30"], 0 ≤ coef sim.labels p name) (h0 : 0 < coef sim.labels p "C10")
    (σ : ℝ) : ∃! l, 0 < l ∧ sim.stressCurveFit [l] p = .ok [σ] := by
  have hmono := stressAt_mono k hp ⟨"C10", by simp, h0.ne'⟩
  have hcurve : ∀ l, 0 < l → (sim.stressCurveFit [l] p = .ok [σ] ↔ stressAt sim.labels k l p = σ) := by
    intro l hl
    rw [tod_curve ht p [l] (by simpa using hl)]
    simp
  -- lower and upper bounds
  have hsign : ∀ l, 0 < l → (1 ≤ l → coef sim.labels p "C10" * factor k l ≤ stressAt sim.labels k l p) ∧
      (l ≤ 1 → stressAt sim.labels k l p ≤ coef sim.labels p "C10" * factor k l) := by
    intro l hl
    obtain ⟨v1, v2⟩ := dip_invariants k
    have g1 := v1.nonneg hl
    have g2 := v2.nonneg hl
    have hw : 0 ≤ k.weight l := by cases k <;> simp only [LoadKind.weight] <;> positivity
    have c01 := hp "C01" (by simp)
    have c11 := hp "C11" (by simp)
    have c20 := hp "C20" (by simp)
    have c30 := hp "C30" (by simp)
    have hrest : 0 ≤ coef sim.labels p "C01" * k.weight l +
        coef sim.labels p "C11" * ((invariants (cauchyGreen (k.F l)) 1 - 3) +
          k.weight l * (invariants (cauchyGreen (k.F l)) 0 - 3)) +
        2 * coef sim.labels p "C20" * (invariants (cauchyGreen (k.F l)) 0 - 3) +
        3 * coef sim.labels p "C30" * (invariants (cauchyGreen (k.F l)) 0 - 3) ^ 2 := by
      positivity
    have hm := (factor_mono k).monotoneOn
    have f1 := factor_one k
    rw [stressAt_split]
    constructor
    · intro h1
      have hf : 0 ≤ factor k l := by rw [← f1]; exact hm (Set.mem_Ioi.2 one_pos) hl h1
      have := mul_nonneg hf hrest
      linarith
    · intro h1
      have hf : factor k l ≤ 0 := by rw [← f1]; exact hm hl (Set.mem_Ioi.2 one_pos) h1
      have := mul_nonpos_of_nonpos_of_nonneg hf hrest
      linarith
  have hbig : ∀ M : ℝ, ∃ l, 1 ≤ l ∧ M ≤ factor k l := by
    intro M
    refine ⟨|M| + 1, by linarith [abs_nonneg M], ?_⟩
    have key : ∀ m : ℕ, M ≤ 2 * ((|M| + 1) - 1 / (|M| + 1) ^ m) := by
      intro m
      have h1 : 1 / (|M| + 1) ^ m ≤ 1 := by
        rw [div_le_one (by positivity)]
        exact one_le_pow₀ (by linarith [abs_nonneg M])
      linarith [le_abs_self M, abs_nonneg M]
    cases k <;> exact key _
  have hsmall : ∀ M : ℝ, ∃ l, 0 < l ∧ l ≤ 1 ∧ factor k l ≤ M := by
    intro M
    have h1 : 1 ≤ |M| + 2 := by linarith [abs_nonneg M]
    refine ⟨1 / (|M| + 2), by positivity, by rw [div_le_one (by positivity)]; exact h1, ?_⟩
    have key : ∀ m : ℕ, 1 ≤ m → 2 * (1 / (|M| + 2) - 1 / (1 / (|M| + 2)) ^ m) ≤ M := by
      intro m hm
      have h2 : 1 / (|M| + 2) ≤ 1 := by rw [div_le_one (by positivity)]; exact h1
      have h3 : 1 / (1 / (|M| + 2)) ^ m = (|M| + 2) ^ m := by rw [one_div_pow, one_div_one_div]
      have h4 : |M| + 2 ≤ (|M| + 2) ^ m := le_self_pow₀ h1 (by omega)
      rw [h3]
      linarith [neg_abs_le M]
    cases k <;> exact key _ (by norm_num)
  have hcont : ContinuousOn (fun l => stressAt sim.labels k l p) (Set.Ioi 0) := by
    have hw : ContinuousOn (factor k) (Set.Ioi 0) := by
      have : ∀ m : ℕ, ContinuousOn (fun l : ℝ => 2 * (l - 1 / l ^ m)) (Set.Ioi 0) := fun m =>
        continuousOn_const.mul (continuousOn_id.sub (continuousOn_const.div (continuousOn_id.pow m)
          fun l hl => (pow_pos hl m).ne'))
      cases k <;> exact this _
    have hi : ContinuousOn (fun l => invariants (cauchyGreen (k.F l)) 0) (Set.Ioi 0) ∧
        ContinuousOn (fun l => invariants (cauchyGreen (k.F l)) 1) (Set.Ioi 0) ∧
        ContinuousOn k.weight (Set.Ioi 0) := by
      have hne : ∀ l ∈ Set.Ioi (0 : ℝ), l ≠ 0 := fun l hl => (Set.mem_Ioi.1 hl).ne'
      have hne' : ∀ m : ℕ, ∀ l ∈ Set.Ioi (0 : ℝ), l ^ m ≠ 0 := fun m l hl => (pow_pos (Set.mem_Ioi.1 hl) m).ne'
      have hid : ContinuousOn (fun l : ℝ => l) (Set.Ioi 0) := continuousOn_id
      cases k
      · refine ⟨ContinuousOn.congr ((hid.pow 2).add (continuousOn_const.div hid hne) : ContinuousOn (fun l : ℝ => l ^ 2 + 2 / l) _)
            fun l hl => by simp only [(C42_invariants hl).1]; rfl,
          ContinuousOn.congr ((continuousOn_const.mul hid).add (continuousOn_const.div (hid.pow 2) (hne' 2)) :
            ContinuousOn (fun l : ℝ => 2 * l + 1 / l ^ 2) _) fun l hl => by simp only [(C42_invariants hl).1]; rfl, ?_⟩
        exact continuousOn_const.div hid hne
      · refine ⟨ContinuousOn.congr (((hid.pow 2).add (continuousOn_const.div (hid.pow 2) (hne' 2))).add continuousOn_const :
            ContinuousOn (fun l : ℝ => l ^ 2 + 1 / l ^ 2 + 1) _) fun l hl => by simp only [(C42_invariants hl).2.1]; rfl,
          ContinuousOn.congr (((hid.pow 2).add (continuousOn_const.div (hid.pow 2) (hne' 2))).add continuousOn_const :
            ContinuousOn (fun l : ℝ => l ^ 2 + 1 / l ^ 2 + 1) _) fun l hl => by simp only [(C42_invariants hl).2.1]; rfl, ?_⟩
        exact continuousOn_const
      · refine ⟨ContinuousOn.congr ((continuousOn_const.mul (hid.pow 2)).add (continuousOn_const.div (hid.pow 4) (hne' 4)) :
            ContinuousOn (fun l : ℝ => 2 * l ^ 2 + 1 / l ^ 4) _) fun l hl => by simp only [(C42_invariants hl).2.2]; rfl,
          ContinuousOn.congr ((hid.pow 4).add (continuousOn_const.div (hid.pow 2) (hne' 2)) :
            ContinuousOn (fun l : ℝ => l ^ 4 + 2 / l ^ 2) _) fun l hl => by simp only [(C42_invariants hl).2.2]; rfl, ?_⟩
        exact hid.pow 2
    obtain ⟨i0, i1, iw⟩ := hi
    have j0 := i0.sub (continuousOn_const (c := (3 : ℝ)))
    have j1 := i1.sub (continuousOn_const (c := (3 : ℝ)))
    refine ContinuousOn.congr (((((continuousOn_const (c := coef sim.labels p "C10")).mul hw).add
      ((continuousOn_const (c := coef sim.labels p "C01")).mul (hw.mul iw))).add
      ((continuousOn_const (c := coef sim.labels p "C11")).mul ((hw.mul j1).add ((hw.mul iw).mul j0)))).add
      ((continuousOn_const (c := 2 * coef sim.labels p "C20")).mul (hw.mul j0)) |>.add
      ((continuousOn_const (c := 3 * coef sim.labels p "C30")).mul (hw.mul (j0.pow 2)))) fun l _ => ?_
    exact stressAt_split _ _ _ _
  obtain ⟨u, hu1, hu⟩ := hbig (σ / coef sim.labels p "C10")
  obtain ⟨d, hd0, hd1, hd⟩ := hsmall (σ / coef sim.labels p "C10")
  have hdu : d ≤ u := hd1.trans hu1
  have e1 : stressAt sim.labels k d p ≤ σ := by
    refine ((hsign d hd0).2 hd1).trans ?_
    rw [le_div_iff₀ h0] at hd
    linarith
  have e2 : σ ≤ stressAt sim.labels k u p := by
    refine le_trans ?_ ((hsign u (hd0.trans_le hdu)).1 hu1)
    rw [div_le_iff₀ h0] at hu
    linarith
  obtain ⟨l, hl, hσ⟩ := intermediate_value_Icc hdu (hcont.mono fun x hx => hd0.trans_le hx.1) ⟨e1, e2⟩
  refine ⟨l, ⟨hd0.trans_le hl.1, (hcurve l (hd0.trans_le hl.1)).2 hσ⟩, ?_⟩
  rintro l' ⟨hl'0, hl'⟩
  rw [hcurve l' hl'0] at hl'
  exact hmono.injOn hl'0 (Set.mem_Ioi.2 (hd0.trans_le hl.1)) (hl'.trans hσ.symm)

/-- Tension needs a tensile stress, compression a compressive one. -/
theorem C77_sign (sim : Simulation Z) (k : LoadKind) (ht : TodTest sim k) (p : List ℝ)
    (hp : ∀ name ∈ ["C10", "C01", "C11", "C20", "C30"], 0 ≤ coef sim.labels p name)
    (hne : ∃ name ∈ ["C10", "C01", "C11", "C20", "C30"], coef sim.labels p name ≠ 0) (l σ : ℝ) (hl : 0 < l)
    (h : sim.stressCurveFit [l] p = .ok [σ]) : (0 < σ ↔ 1 < l) ∧ (σ < 0 ↔ l < 1) := by
  have hmono := stressAt_mono k hp hne
  rw [tod_curve ht p [l] (by simpa using hl)] at h
  simp only [List.map_cons, List.map_nil, Except.ok.injEq, List.cons.injEq, and_true] at h
  have h1 : stressAt sim.labels k 1 p = 0 := by rw [stressAt_eq, factor_one, zero_mul]
  subst h
  constructor
  · rw [← hmono.lt_iff_lt (Set.mem_Ioi.2 one_pos) hl]
    simp only [h1]
  · rw [← hmono.lt_iff_lt hl (Set.mem_Ioi.2 one_pos)]
    simp only [h1]

/-- Negative parameters may give curves which are not increasing. -/
theorem C77_needs_nonnegative : ∃ (sim : Simulation Unit) (p : List ℝ), TodTest sim .uniaxial ∧ sim.labels.Nodup ∧
    p.length = sim.labels.length ∧ (∃ c ∈ p, 0 < c) ∧ ¬ IncreasingCurve sim p := by
  refine ⟨⟨uniaxial none, [], ["C10", "C20", "C30"], todDeformation⟩, [1, -1, 0], ⟨⟨none, rfl⟩, Or.inl rfl, ?_⟩,
    by simp, rfl, ⟨1, by simp, one_pos⟩, fun h => ?_⟩
  · intro n hn
    simp only [List.mem_cons, List.not_mem_nil, or_false] at hn ⊢
    tauto
  · have ht : TodTest (Z := Unit) ⟨uniaxial none, [], ["C10", "C20", "C30"], todDeformation⟩ .uniaxial := by
      refine ⟨⟨none, rfl⟩, Or.inl rfl, ?_⟩
      intro n hn
      simp only [List.mem_cons, List.not_mem_nil, or_false] at hn ⊢
      tauto
    obtain ⟨y, hy, -, hlt⟩ := h [1, 2] (by simp) (by simp)
    rw [tod_curve ht _ _ (by simp)] at hy
    cases hy
    have := hlt 0 1 (by simp) (by simp) (by simp)
    simp only [yeoh_stress, List.map_cons, List.map_nil, List.getD_cons_zero, List.getD_cons_succ, factor_one,
      (C42_invariants two_pos).1] at this
    simp [factor] at this
    norm_num at this

/-! ### Ogden -/

theorem rpow_mono_pos {c : ℝ} (hc : 0 ≤ c) : MonotoneOn (fun l : ℝ => l ^ c) (Set.Ioi 0) := fun a ha b _ hab =>
  Real.rpow_le_rpow (le_of_lt ha) hab hc

theorem rpow_anti_neg {c : ℝ} (hc : c < 0) : StrictAntiOn (fun l : ℝ => l ^ c) (Set.Ioi 0) := fun a ha b _ hab =>
  Real.rpow_lt_rpow_of_neg ha hab hc

theorem ogdenCurve_mono (k : LoadKind) {mu alpha : ℝ} (hmu : 0 < mu) (ha : k.Admits alpha) :
    StrictMonoOn (ogdenCurve k mu alpha) (Set.Ioi 0) := by
  have key : ∀ c : ℝ, 0 < c → (1 ≤ alpha ∨ alpha < 0 ∧ 0 ≤ -c * alpha - 1) →
      StrictMonoOn (fun l : ℝ => 2 * mu / alpha * (l ^ (alpha - 1) - l ^ (-c * alpha - 1))) (Set.Ioi 0) := by
    intro c hc h a ha b hb hab
    simp only
    rcases h with h | ⟨h1, h2⟩
    · have h3 := rpow_mono_pos (c := alpha - 1) (by linarith) ha hb hab.le
      have h4 := rpow_anti_neg (c := -c * alpha - 1) (by nlinarith) ha hb hab
      simp only at h3 h4
      have h5 : 0 < 2 * mu / alpha := by positivity
      exact mul_lt_mul_of_pos_left (by linarith) h5
    · have h3 := rpow_anti_neg (c := alpha - 1) (by linarith) ha hb hab
      have h4 := rpow_mono_pos h2 ha hb hab.le
      simp only at h3 h4
      have h5 : 2 * mu / alpha < 0 := div_neg_of_pos_of_neg (by positivity) h1
      exact mul_lt_mul_of_neg_left (by linarith) h5
  cases k
  · have := key (1 / 2) (by norm_num) (ha.imp_right fun h => ⟨by linarith, by linarith⟩)
    refine this.congr fun l _ => ?_
    simp only [ogdenCurve]
    congr 3
    ring
  · have := key 1 one_pos (ha.imp_right fun h => ⟨by linarith, by linarith⟩)
    refine this.congr fun l _ => ?_
    simp only [ogdenCurve]
    congr 3
    ring
  · have := key 2 two_pos (ha.imp_right fun h => ⟨by linarith, by linarith⟩)
    refine this.congr fun l _ => ?_
    simp only [ogdenCurve]

/-- The load curves of Ogden's model, with positive moduli and admissible exponents, are strictly
increasing. -/
theorem C77_ogden (lapack : Eigh) (hl : EighValid lapack) (mu alpha : List ℝ) (hne : mu.zip alpha ≠ [])
    (sim : Simulation Z) (k : LoadKind) (lab : Option String) (hk : sim.loadcase = k.case lab) (p : List ℝ)
    (hmu : ∀ m ∈ mu, 0 < m) (ha : ∀ a ∈ alpha, k.Admits a)
    (hm : sim.material (Kwargs.ofList (sim.labels.zip p)) = .ok (ogdenDeformation lapack mu alpha) ∨
      sim.material (Kwargs.ofList (sim.labels.zip p)) = .ok (ogdenDistortional lapack mu alpha)) :
    IncreasingCurve sim p := by
  refine increasing_of_map ?_ fun x hx0 hx => C42_ogden lapack hl mu alpha (fun a h => ?_) sim k lab hk p hm x hx0 hx
  · have h2 : ∀ e ∈ mu.zip alpha, StrictMonoOn (ogdenCurve k e.1 e.2) (Set.Ioi 0) := fun e he =>
      ogdenCurve_mono k (hmu _ (List.of_mem_zip (a := e.1) (b := e.2) he).1)
        (ha _ (List.of_mem_zip (a := e.1) (b := e.2) he).2)
    clear hm ha hmu
    revert hne h2
    generalize mu.zip alpha = L
    intro hne h2
    intro a ha b hb hab
    simp only
    refine List.sum_lt_sum_of_ne_nil hne _ _ fun e he => h2 e he ha hb hab
  · have := ha a h
    rintro rfl
    cases k <;> rcases this with h | h <;> norm_num at h

/-- One term of Ogden's model with a positive modulus: the load curve is increasing exactly for the
admissible exponents. -/
theorem C77_ogden_exponents (lapack : Eigh) (hl : EighValid lapack) (mu alpha : ℝ) (hmu : 0 < mu) (ha : alpha ≠ 0)
    (sim : Simulation Z) (k : LoadKind) (lab : Option String) (hk : sim.loadcase = k.case lab) (p : List ℝ)
    (hm : sim.material (Kwargs.ofList (sim.labels.zip p)) = .ok (ogdenDeformation lapack [mu] [alpha]) ∨
      sim.material (Kwargs.ofList (sim.labels.zip p)) = .ok (ogdenDistortional lapack [mu] [alpha])) :
    IncreasingCurve sim p ↔ k.Admits alpha := by
  refine ⟨fun h => ?_, fun h => C77_ogden lapack hl [mu] [alpha] (by simp) sim k lab hk p (by simpa using hmu)
    (by simpa using h) hm⟩
  by_contra hno
  -- both powers tend to zero
  have key : ∀ c : ℝ, 0 < c → alpha - 1 < 0 → -c * alpha - 1 < 0 →
      ∃ l, 2 < l ∧ 2 * mu / alpha * (l ^ (alpha - 1) - l ^ (-c * alpha - 1)) ≤
        2 * mu / alpha * ((2 : ℝ) ^ (alpha - 1) - 2 ^ (-c * alpha - 1)) := by
    intro c hc h1 h2
    have hpos : 0 < 2 * mu / alpha * ((2 : ℝ) ^ (alpha - 1) - 2 ^ (-c * alpha - 1)) := by
      rcases lt_or_gt_of_ne ha with hn | hp
      · have h5 : 2 * mu / alpha < 0 := div_neg_of_pos_of_neg (by positivity) hn
        have h6 : (2 : ℝ) ^ (alpha - 1) < 2 ^ (-c * alpha - 1) :=
          Real.rpow_lt_rpow_of_exponent_lt (by norm_num) (by nlinarith)
        exact mul_pos_of_neg_of_neg h5 (by linarith)
      · have h5 : 0 < 2 * mu / alpha := by positivity
        have h6 : (2 : ℝ) ^ (-c * alpha - 1) < 2 ^ (alpha - 1) :=
          Real.rpow_lt_rpow_of_exponent_lt (by norm_num) (by nlinarith)
        exact mul_pos h5 (by linarith)
    have t1 : Filter.Tendsto (fun l : ℝ => l ^ (alpha - 1)) Filter.atTop (nhds 0) := by
      have := tendsto_rpow_neg_atTop (y := -(alpha - 1)) (by linarith)
      simpa using this
    have t2 : Filter.Tendsto (fun l : ℝ => l ^ (-c * alpha - 1)) Filter.atTop (nhds 0) := by
      have := tendsto_rpow_neg_atTop (y := -(-c * alpha - 1)) (by linarith)
      simpa only [neg_neg] using this
    have t3 := (t1.sub t2).const_mul (2 * mu / alpha)
    rw [sub_zero, mul_zero] at t3
    obtain ⟨l, h3, h4⟩ := ((t3.eventually (gt_mem_nhds hpos)).and (Filter.eventually_gt_atTop 2)).exists
    exact ⟨l, h4, h3.le⟩
  obtain ⟨l, h2, hle⟩ : ∃ l, 2 < l ∧ ogdenCurve k mu alpha l ≤ ogdenCurve k mu alpha 2 := by
    cases k
    · simp only [LoadKind.Admits, not_or, not_le] at hno
      obtain ⟨l, h1, h2⟩ := key (1 / 2) (by norm_num) (by linarith) (by linarith)
      refine ⟨l, h1, ?_⟩
      simp only [ogdenCurve]
      rwa [show -alpha / 2 - 1 = -(1 / 2) * alpha - 1 by ring]
    · simp only [LoadKind.Admits, not_or, not_le] at hno
      obtain ⟨l, h1, h2⟩ := key 1 one_pos (by linarith) (by linarith)
      refine ⟨l, h1, ?_⟩
      simp only [ogdenCurve]
      rwa [show -alpha - 1 = -1 * alpha - 1 by ring]
    · simp only [LoadKind.Admits, not_or, not_le] at hno
      obtain ⟨l, h1, h2⟩ := key 2 two_pos (by linarith) (by linarith)
      exact ⟨l, h1, h2⟩
  obtain ⟨y, hy, -, hlt⟩ := h [2, l] (by simp) (by
    intro u hu
    simp only [List.mem_cons, List.not_mem_nil, or_false] at hu
    rcases hu with rfl | rfl <;> linarith)
  rw [C42_ogden lapack hl [mu] [alpha] (by simpa using ha) sim k lab hk p hm [2, l] (by simp) (by
    intro u hu
    simp only [List.mem_cons, List.not_mem_nil, or_false] at hu
    rcases hu with rfl | rfl <;> linarith)] at hy
  cases hy
  have := hlt 0 1 (by simp) (by simp) (by simpa using h2)
  simp at this
  linarith

/-- The hypotheses are met. -/
example : ∃ (sim : Simulation Unit) (p : List ℝ), TodTest sim .biaxial ∧ sim.labels.Nodup ∧
    p.length = sim.labels.length ∧ (∀ c ∈ p, 0 ≤ c) ∧ (∃ c ∈ p, c ≠ 0) ∧ 0 < coef sim.labels p "C10" := by
  refine ⟨⟨biaxial none, [], ["C01", "C10"], todDistortional⟩, [0, 2], ⟨⟨none, rfl⟩, Or.inr rfl, ?_⟩, by simp, rfl, by simp,
    ⟨2, by simp, two_ne_zero⟩, by simp [coef, assigned]⟩
  intro n hn
  simp only [List.mem_cons, List.not_mem_nil, or_false] at hn ⊢
  tauto

example : ∃ (lapack : Eigh) (sim : Simulation Unit), EighValid lapack ∧ sim.loadcase = LoadKind.planar.case none ∧
    sim.material (Kwargs.ofList (sim.labels.zip [3])) = .ok (ogdenDeformation lapack [3, 4] [3 / 2, -1]) ∧
    ∀ a ∈ [(3 / 2 : ℝ), -1], LoadKind.planar.Admits a := by
  obtain ⟨lapack, hl⟩ := exists_eigh
  refine ⟨lapack, ⟨LoadKind.planar.case none, [1, 2], ["a"], fun kw =>
    .ok (ogdenDeformation lapack [(kw.get "a").getD 0, 4] [3 / 2, -1])⟩, hl, rfl, ?_, ?_⟩
  · simp [Kwargs.ofList, Kwargs.set, Kwargs.get, List.lookup]
  · intro a ha
    simp only [List.mem_cons, List.not_mem_nil, or_false] at ha
    rcases ha with rfl | rfl <;> norm_num [LoadKind.Admits]

end Props
