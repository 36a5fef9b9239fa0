import Verif.Spec.Optimize
import Verif.Proofs.PyM
import Verif.Proofs.Lab
import Mathlib.Tactic.Linarith
import Mathlib.Tactic.Positivity

/-! Masks select the documented positions; runs of the optimizer. -/

namespace Props
open Spec Hel

variable {Z : Type}

/-! ### masks -/

theorem mem_progression_pos {a b d : Int} (ha : 0 ≤ a) (hd : 0 < d) (p : ℕ) :
    (∃ k < (if a < b then (b - a - 1) / d + 1 else 0).toNat, (a + (k : Int) * d).toNat = p) ↔
    a ≤ p ∧ (p : Int) < b ∧ d ∣ p - a := by
  constructor
  · rintro ⟨k, hk, rfl⟩
    split_ifs at hk with h
    · have h0 : 0 ≤ (k : Int) * d := mul_nonneg (Int.natCast_nonneg k) hd.le
      rw [Int.toNat_of_nonneg (by omega)]
      refine ⟨by omega, ?_, ⟨k, by ring⟩⟩
      have h1 : (k : Int) ≤ (b - a - 1) / d := by omega
      have h2 : (k : Int) * d ≤ (b - a - 1) / d * d := mul_le_mul_of_nonneg_right h1 hd.le
      have h3 := Int.ediv_mul_le (b - a - 1) hd.ne'
      omega
    · simp at hk
  · rintro ⟨h1, h2, c, hc⟩
    have hc0 : 0 ≤ c := by
      by_contra h
      have : d * c < 0 := mul_neg_of_pos_of_neg hd (by omega)
      omega
    refine ⟨c.toNat, ?_, ?_⟩
    · rw [if_pos (by omega)]
      have : c ≤ (b - a - 1) / d := by
        rw [Int.le_ediv_iff_mul_le hd, mul_comm]
        omega
      omega
    · rw [Int.toNat_of_nonneg hc0, mul_comm, ← hc]
      omega

theorem mem_progression_neg {a b d : Int} (hb : -1 ≤ b) (hd : d < 0) (p : ℕ) :
    (∃ k < (if b < a then (a - b - 1) / (-d) + 1 else 0).toNat, (a + (k : Int) * d).toNat = p) ↔
    p ≤ a ∧ b < (p : Int) ∧ d ∣ p - a := by
  have hd' : 0 < -d := by omega
  constructor
  · rintro ⟨k, hk, rfl⟩
    split_ifs at hk with h
    · have h0 : 0 ≤ (k : Int) * (-d) := mul_nonneg (Int.natCast_nonneg k) hd'.le
      have h1 : (k : Int) ≤ (a - b - 1) / (-d) := by omega
      have h2 : (k : Int) * (-d) ≤ (a - b - 1) / (-d) * (-d) := mul_le_mul_of_nonneg_right h1 hd'.le
      have h3 := Int.ediv_mul_le (a - b - 1) hd'.ne'
      have h4 : (k : Int) * (-d) = -((k : Int) * d) := by ring
      rw [Int.toNat_of_nonneg (by omega)]
      refine ⟨by omega, by omega, ⟨k, by ring⟩⟩
    · simp at hk
  · rintro ⟨h1, h2, c, hc⟩
    have hc0 : 0 ≤ c := by
      by_contra h
      have : 0 < d * c := mul_pos_of_neg_of_neg hd (by omega)
      omega
    refine ⟨c.toNat, ?_, ?_⟩
    · rw [if_pos (by omega)]
      have : c ≤ (a - b - 1) / (-d) := by
        rw [Int.le_ediv_iff_mul_le hd']
        have : c * -d = -(d * c) := by ring
        omega
      omega
    · rw [Int.toNat_of_nonneg hc0, mul_comm, ← hc]
      omega

theorem progression_neg_bound {a b d : Int} (hd : d < 0) {k : ℕ}
    (hk : k < (if b < a then (a - b - 1) / (-d) + 1 else 0).toNat) : b < a + (k : Int) * d := by
  have hd' : 0 < -d := by omega
  split_ifs at hk with h
  · have h1 : (k : Int) ≤ (a - b - 1) / (-d) := by omega
    have h2 : (k : Int) * (-d) ≤ (a - b - 1) / (-d) * (-d) := mul_le_mul_of_nonneg_right h1 hd'.le
    have h3 := Int.ediv_mul_le (a - b - 1) hd'.ne'
    have h4 : (k : Int) * (-d) = -((k : Int) * d) := by ring
    omega
  · simp at hk

theorem slice_picks {n : ℕ} {start stop step : Option Int} {ps : List ℕ}
    (h : slicePositions n start stop step = .ok ps) : Picks n (.slice start stop step) ps := by
  unfold slicePositions at h
  simp only [Picks]
  generalize step.getD 1 = d at h ⊢
  rcases lt_trichotomy d 0 with hd | rfl | hd
  · rw [if_neg (by omega), if_pos hd]
    simp only [hd.ne, hd, if_true, if_false] at h
    cases h
    set a : Int := start.elim ((n : Int) - 1) (fun i => if i < 0 then max (i + n) (-1) else min i ((n : Int) - 1)) with ha
    set b : Int := stop.elim (-1) (fun i => if i < 0 then max (i + n) (-1) else min i ((n : Int) - 1)) with hb
    have hb1 : -1 ≤ b := by rw [hb]; rcases stop with _ | i <;> simp only [Option.elim] <;> (try split_ifs) <;> omega
    refine ⟨?_, fun p => ?_⟩
    · rw [List.pairwise_map]
      refine List.Pairwise.imp_of_mem ?_ List.pairwise_lt_range
      intro k l hk hl hkl
      have hl' := progression_neg_bound (a := a) (b := b) hd (List.mem_range.1 hl)
      have h1 : (l : Int) * d < k * d := mul_lt_mul_of_neg_right (by exact_mod_cast hkl) hd
      omega
    · have := mem_progression_neg (a := a) hb1 hd p
      simp only [List.mem_map, List.mem_range]
      rw [this]
      have ea : (p : Int) ≤ a ↔ p < n ∧ (p : Int) ≤ min ((n : Int) - 1) ((start.map (fromEnd n)).getD n) := by
        rcases start with _ | i <;> simp only [ha, fromEnd, Option.elim, Option.map_none, Option.map_some, Option.getD_none,
          Option.getD_some] <;> (try split_ifs) <;> omega
      have eb : b < p ∧ p < n ↔ (stop.map (fromEnd n)).getD (-1) < p ∧ p < n := by
        rcases stop with _ | i <;> simp only [hb, fromEnd, Option.elim, Option.map_none, Option.map_some, Option.getD_none,
          Option.getD_some] <;> (try split_ifs) <;> omega
      have ed : (p : Int) ≤ a → a = min ((n : Int) - 1) ((start.map (fromEnd n)).getD n) := by
        rcases start with _ | i <;> simp only [ha, fromEnd, Option.elim, Option.map_none, Option.map_some, Option.getD_none,
          Option.getD_some] <;> (try split_ifs) <;> omega
      constructor
      · rintro ⟨h1, h2, h3⟩
        have h4 := ea.1 h1
        have h5 := eb.1 ⟨h2, h4.1⟩
        exact ⟨h4.1, h4.2, h5.1, ed h1 ▸ h3⟩
      · rintro ⟨h1, h2, h3, h4⟩
        have h5 := ea.2 ⟨h1, h2⟩
        refine ⟨h5, (eb.2 ⟨h3, h1⟩).1, ?_⟩
        rw [ed h5]; exact h4
  · simp at h
  · rw [if_pos hd]
    simp only [hd.ne', not_lt.2 hd.le, if_false] at h
    cases h
    set a : Int := start.elim (0) (fun i => if i < 0 then max (i + n) 0 else min i (n : Int)) with ha
    set b : Int := stop.elim ((n : Int)) (fun i => if i < 0 then max (i + n) 0 else min i (n : Int)) with hb
    have ha0 : 0 ≤ a := by rw [ha]; rcases start with _ | i <;> simp only [Option.elim] <;> (try split_ifs) <;> omega
    refine ⟨?_, fun p => ?_⟩
    · rw [List.pairwise_map]
      refine List.Pairwise.imp_of_mem ?_ List.pairwise_lt_range
      intro k l hk hl hkl
      have h0 : 0 ≤ (k : Int) * d := mul_nonneg (Int.natCast_nonneg k) hd.le
      have h1 : (k : Int) * d < l * d := mul_lt_mul_of_pos_right (by exact_mod_cast hkl) hd
      omega
    · have := mem_progression_pos (b := b) ha0 hd p
      simp only [List.mem_map, List.mem_range]
      rw [this]
      have eb : (p : Int) < b ↔ p < n ∧ (p : Int) < (stop.map (fromEnd n)).getD n := by
        rcases stop with _ | i <;> simp only [hb, fromEnd, Option.elim, Option.map_none, Option.map_some, Option.getD_none,
          Option.getD_some] <;> (try split_ifs) <;> omega
      have ea : a ≤ p ∧ p < n ↔ max 0 (fromEnd n (start.getD 0)) ≤ p ∧ p < n := by
        rcases start with _ | i <;> simp only [ha, fromEnd, Option.elim, Option.getD_none,
          Option.getD_some] <;> (try split_ifs) <;> omega
      have ed : a ≤ p → p < n → a = max 0 (fromEnd n (start.getD 0)) := by
        rcases start with _ | i <;> simp only [ha, fromEnd, Option.elim, Option.getD_none,
          Option.getD_some] <;> (try split_ifs) <;> omega
      constructor
      · rintro ⟨h1, h2, h3⟩
        have h4 := eb.1 h2
        have h5 := ea.1 ⟨h1, h4.1⟩
        exact ⟨h4.1, h5.1, h4.2, ed h1 h4.1 ▸ h3⟩
      · rintro ⟨h1, h2, h3, h4⟩
        have h5 := ea.2 ⟨h2, h1⟩
        refine ⟨h5.1, eb.2 ⟨h1, h3⟩, ?_⟩
        rw [ed h5.1 h1]; exact h4

theorem mapM_ok_iff {α β : Type} (f : α → Res β) (l : List α) (r : List β) :
    l.mapM f = .ok r ↔ List.Forall₂ (fun a b => f a = .ok b) l r := by
  induction l generalizing r with
  | nil => simp [pure, Except.pure]
  | cons a l ih =>
    rw [List.mapM_cons]
    rcases h1 : f a with e | b
    · constructor
      · intro h; cases h
      · intro h; cases h with | cons h _ => rw [h1] at h; cases h
    · change (l.mapM f >>= fun bs => pure (b :: bs)) = .ok r ↔ _
      rcases h2 : l.mapM f with e | bs
      · constructor
        · intro h; cases h
        · intro h
          cases h with | cons _ h => rw [← ih, h2] at h; cases h
      · change Except.ok (b :: bs) = .ok r ↔ _
        constructor
        · intro h; cases h; exact .cons h1 ((ih _).1 h2)
        · intro h
          cases h with
          | cons h3 h4 =>
            rw [h1] at h3; cases h3
            rw [← ih, h2] at h4; cases h4; rfl

theorem positions_picks {n : ℕ} {m : Mask} {ps : List ℕ} (h : m.positions n = .ok ps) : Picks n m ps := by
  cases m with
  | slice start stop step => exact slice_picks h
  | bools b =>
    simp only [Mask.positions] at h
    split_ifs at h with hn
    cases h
    refine ⟨hn, List.Pairwise.filter _ List.pairwise_lt_range, fun p => ?_⟩
    rw [List.mem_filter, List.mem_range]
    simp only [List.getD_eq_getElem?_getD]
    rcases hp : b[p]? with _ | v
    · simp
    · have : p < b.length := (List.getElem?_eq_some_iff.1 hp).1
      simp [← hn, this]
  | index is =>
    refine ((mapM_ok_iff _ _ _).1 h).imp fun i p hip => ?_
    unfold indexPosition at hip
    unfold fromEnd
    split_ifs at hip with h1 h2 <;> cases hip
    · rw [if_neg (by omega)]; omega
    · rw [if_pos h2.2]; omega

theorem picks_lt {n : ℕ} {m : Mask} {ps : List ℕ} (h : Picks n m ps) : ∀ p ∈ ps, p < n := by
  cases m with
  | slice start stop step =>
    simp only [Picks] at h
    split_ifs at h
    · exact fun p hp => ((h.2 p).1 hp).1
    · exact fun p hp => ((h.2 p).1 hp).1
  | bools b => exact fun p hp => h.1 ▸ (List.getElem?_eq_some_iff.1 ((h.2.2 p).1 hp)).1
  | index is =>
    have h : List.Forall₂ (fun i (p : ℕ) => p < n ∧ fromEnd n i = (p : Int)) is ps := h
    intro p hp
    obtain ⟨i, hi, rfl⟩ := List.getElem_of_mem hp
    have := (List.forall₂_iff_get.1 h).2 i ((List.forall₂_iff_get.1 h).1 ▸ hi) hi
    exact this.1

theorem pairwise_ext {r : ℕ → ℕ → Prop} (hi : ∀ a, ¬ r a a) (ht : ∀ a b, r a b → ¬ r b a) {l m : List ℕ}
    (hl : l.Pairwise r) (hm : m.Pairwise r) (h : ∀ p, p ∈ l ↔ p ∈ m) : l = m := by
  have h1 : l.Nodup := hl.imp fun {a b} hab (e : a = b) => hi a (by rw [← e] at hab; exact hab)
  have h2 : m.Nodup := hm.imp fun {a b} hab (e : a = b) => hi a (by rw [← e] at hab; exact hab)
  exact (List.Perm.eq_of_pairwise (fun a b _ _ hab hba => absurd hba (ht a b hab)) hl hm
    ((List.perm_ext_iff_of_nodup h1 h2).2 h))

/-- A mask selects at most one list of positions. -/
theorem picks_unique {n : ℕ} {m : Mask} {ps qs : List ℕ} (h1 : Picks n m ps) (h2 : Picks n m qs) : ps = qs := by
  cases m with
  | slice start stop step =>
    simp only [Picks] at h1 h2
    split_ifs at h1 h2
    · exact pairwise_ext (fun a => lt_irrefl a) (fun a b h => lt_asymm h) h1.1 h2.1 fun p => (h1.2 p).trans (h2.2 p).symm
    · exact pairwise_ext (r := (· > ·)) (fun a => lt_irrefl a) (fun a b h => lt_asymm h) h1.1 h2.1
        fun p => (h1.2 p).trans (h2.2 p).symm
  | bools b =>
    exact pairwise_ext (fun a => lt_irrefl a) (fun a b h => lt_asymm h) h1.2.1 h2.2.1
      fun p => (h1.2.2 p).trans (h2.2.2 p).symm
  | index is =>
    have h1 : List.Forall₂ (fun i (p : ℕ) => p < n ∧ fromEnd n i = (p : Int)) is ps := h1
    have h2 : List.Forall₂ (fun i (p : ℕ) => p < n ∧ fromEnd n i = (p : Int)) is qs := h2
    clear * - h1 h2
    induction h1 generalizing qs with
    | nil => cases h2; rfl
    | cons h3 h4 ih =>
      cases h2 with
      | cons h5 h6 =>
        rw [ih h6]
        congr 1
        have := h3.2.symm.trans h5.2
        exact_mod_cast this

/-- Masks raise only if they select nothing meaningful. -/
theorem positions_of_picks {n : ℕ} {m : Mask} {ps : List ℕ} (h : Picks n m ps) : m.positions n = .ok ps := by
  have hex : ∃ qs, m.positions n = .ok qs := by
    cases m with
    | slice start stop step =>
      simp only [Picks] at h
      refine ⟨_, by
        rw [Mask.positions, slicePositions]
        dsimp only
        rw [if_neg]
        intro h0
        rw [h0] at h
        simp at h⟩
    | bools b => exact ⟨_, by rw [Mask.positions, if_pos h.1]⟩
    | index is =>
      refine ⟨ps, (mapM_ok_iff _ _ _).2 (List.Forall₂.imp ?_ h)⟩
      intro i p hip
      unfold fromEnd at hip
      unfold indexPosition
      split_ifs at hip with h0
      · rw [if_neg (by omega), if_pos (by omega)]
        congr 1; omega
      · rw [if_pos (by omega)]
        congr 1; omega
  obtain ⟨qs, hq⟩ := hex
  rw [hq, picks_unique (positions_picks hq) h]

theorem select_iff (m : Mask) (a l : List ℝ) : m.select a = .ok l ↔ Selected m a l := by
  unfold Mask.select
  have key : ∀ ps, Picks a.length m ps → ∀ l, List.Forall₂ (fun p v => a[p]? = some v) ps l ↔
      ps.map (fun p => a.getD p 0) = l := by
    intro ps hps l
    have h := picks_lt hps
    clear hps
    induction ps generalizing l with
    | nil => cases l <;> simp
    | cons p ps ih =>
      cases l with
      | nil => simp
      | cons v l =>
        have e : List.Forall₂ (fun p v => a[p]? = some v) ps l ↔ ps.map (fun p => a.getD p 0) = l :=
          ih l fun q hq => h q (List.mem_cons_of_mem _ hq)
        rw [List.forall₂_cons, e, List.map_cons, List.cons.injEq]
        have hp : p < a.length := h p (by simp)
        rw [List.getD_eq_getElem?_getD, List.getElem?_eq_getElem hp]
        simp
  constructor
  · intro h
    rcases hp : m.positions a.length with e | ps
    · rw [hp] at h; cases h
    · rw [hp] at h
      cases h
      exact ⟨ps, positions_picks hp, (key ps (positions_picks hp) _).2 rfl⟩
  · rintro ⟨ps, hp, hl⟩
    rw [positions_of_picks hp]
    change Except.ok _ = _
    rw [(key ps hp l).1 hl]

theorem selectAll_iff (data : Experiment → List ℝ) (op : Optimizer) (xs : List (List ℝ)) :
    selectAll data op = .ok xs ↔
    List.Forall₂ (fun e x => Selected e.1 (data e.2) x) (op.mask.zip op.experiments) xs := by
  rw [selectAll, mapM_ok_iff]
  simp only [select_iff]

theorem fitData_iff (op : Optimizer) (xs ys : List (List ℝ)) :
    (selectAll (·.stretch) op = .ok xs ∧ selectAll (·.stress) op = .ok ys) ↔ FitData op xs ys := by
  rw [selectAll_iff, selectAll_iff]
  rfl

/-! ### worlds -/

theorem read_run {σ α : Type} (f : σ → α) (s : σ) : (PyM.read f : PyM σ α) s = (.ok (f s), s) := rfl

namespace World

@[simp] theorem setOpt_opts (w : World Z) (o : ℕ) (f : Optimizer → Optimizer) : (w.setOpt o f).opts o = f (w.opts o) :=
  Function.update_self ..

theorem setOpt_opts_ne (w : World Z) {o o' : ℕ} (h : o' ≠ o) (f : Optimizer → Optimizer) :
    (w.setOpt o f).opts o' = w.opts o' := Function.update_of_ne h ..

@[simp] theorem setOpt_params (w : World Z) (o : ℕ) (f : Optimizer → Optimizer) : (w.setOpt o f).params = w.params := rfl
@[simp] theorem setOpt_sims (w : World Z) (o : ℕ) (f : Optimizer → Optimizer) : (w.setOpt o f).sims = w.sims := rfl

@[simp] theorem setOpt_setOpt (w : World Z) (o : ℕ) (f g : Optimizer → Optimizer) :
    (w.setOpt o f).setOpt o g = w.setOpt o fun op => g (f op) := by
  simp only [World.setOpt, Function.update_self, Function.update_idem]

@[simp] theorem setParam_opts (w : World Z) (r : ℕ) (v : ParamObj) : (w.setParam r v).opts = w.opts := rfl
@[simp] theorem setParam_sims (w : World Z) (r : ℕ) (v : ParamObj) : (w.setParam r v).sims = w.sims := rfl
@[simp] theorem setParam_params (w : World Z) (r : ℕ) (v : ParamObj) : (w.setParam r v).params r = v :=
  Function.update_self ..

theorem setParam_self (w : World Z) (r : ℕ) (v : ParamObj) (h : w.params r = v) : w.setParam r v = w := by
  subst h
  simp only [World.setParam, Function.update_eq_self]

/-- All simulations of a list hold the parameter object `r`. -/
def bindAll (w : World Z) (l : List ℕ) (r : ℕ) : World Z := l.foldl (fun w s => w.bindSim s r) w

@[simp] theorem bindAll_params (w : World Z) (l : List ℕ) (r : ℕ) : (bindAll w l r).params = w.params := by
  induction l generalizing w with
  | nil => rfl
  | cons s l ih => exact ih (w.bindSim s r)

@[simp] theorem bindAll_opts (w : World Z) (l : List ℕ) (r : ℕ) : (bindAll w l r).opts = w.opts := by
  induction l generalizing w with
  | nil => rfl
  | cons s l ih => exact ih (w.bindSim s r)

theorem bindSim_sims (w : World Z) (s r t : ℕ) :
    (w.bindSim s r).sims t = if t = s then { w.sims s with parameters := r } else w.sims t := by
  simp only [World.bindSim, Function.update_apply]

theorem bindAll_sims (w : World Z) (l : List ℕ) (r t : ℕ) : (bindAll w l r).sims t =
    if t ∈ l then { w.sims t with parameters := r } else w.sims t := by
  induction l generalizing w with
  | nil => simp [bindAll]
  | cons s l ih =>
    change (bindAll (w.bindSim s r) l r).sims t = _
    rw [ih, bindSim_sims]
    by_cases h : t = s
    · subst h; simp
    · simp [h]

@[simp] theorem bindAll_sim (w : World Z) (l : List ℕ) (r t : ℕ) : ((bindAll w l r).sims t).sim = (w.sims t).sim := by
  rw [bindAll_sims]; split_ifs <;> rfl

theorem evaluate_congr {w w' : World Z} (h : ∀ s, (w'.sims s).sim = (w.sims s).sim) (f : List ℕ) (x : List (List ℝ))
    (p : List ℝ) : w'.evaluate f x p = w.evaluate f x p := by
  unfold World.evaluate
  simp only [h]

theorem evaluate_iff (w : World Z) (f : List ℕ) (x : List (List ℝ)) (p v : List ℝ) : w.evaluate f x p = .ok v ↔
    ∃ vs, vs ≠ [] ∧ List.Forall₂ (fun e v => (w.sims e.1).sim.stressCurveFit e.2 p = .ok v) (f.zip x) vs ∧
      v = vs.flatten := by
  unfold World.evaluate
  constructor
  · intro h
    rcases hr : (f.zip x).mapM (fun e => (w.sims e.1).sim.stressCurveFit e.2 p) with e | vs
    · rw [hr] at h; cases h
    · rw [hr] at h
      change npConcatenate vs = _ at h
      unfold npConcatenate at h
      split_ifs at h with h0
      cases h
      exact ⟨vs, h0, (mapM_ok_iff _ _ _).1 hr, rfl⟩
  · rintro ⟨vs, h0, h1, rfl⟩
    rw [(mapM_ok_iff _ _ _).2 h1]
    change npConcatenate vs = _
    rw [npConcatenate, if_neg h0]

end World

theorem stressCurveFit_length {sim : Simulation Z} {x p y : List ℝ} (h : sim.stressCurveFit x p = .ok y) :
    y.length = x.length := by
  rw [stressCurveFit_eq] at h
  revert h
  rcases sim.material (Kwargs.ofList (sim.labels.zip p)) with e | B
  · intro h; cases h
  · simp only
    rcases B.gradient x.length (sim.loadcase.defgrad x.length x.get) none with e | ⟨P | P, z⟩
    · intro h; cases h
    · simp only
      split_ifs with hx
      · intro h; cases h; subst hx; rfl
      · intro h; cases h
    · intro h; cases h; simp

theorem evaluate_length {w : World Z} {f : List ℕ} {x : List (List ℝ)} {p v q u : List ℝ}
    (h1 : w.evaluate f x p = .ok v) (h2 : w.evaluate f x q = .ok u) : v.length = u.length := by
  obtain ⟨vs, -, hv, rfl⟩ := (World.evaluate_iff ..).1 h1
  obtain ⟨us, -, hu, rfl⟩ := (World.evaluate_iff ..).1 h2
  rw [List.length_flatten, List.length_flatten]
  congr 1
  have key : ∀ {p : List ℝ} {vs : List (List ℝ)}, List.Forall₂ (fun (e : ℕ × List ℝ) v =>
      (w.sims e.1).sim.stressCurveFit e.2 p = .ok v) (f.zip x) vs → vs.map List.length = (f.zip x).map fun e => e.2.length := by
    intro p vs h
    generalize f.zip x = l at h ⊢
    induction h with
    | nil => rfl
    | cons h1 _ ih => rw [List.map_cons, List.map_cons, ih, stressCurveFit_length h1]
  rw [key hv, key hu]

theorem npSub_length {a b a' b' d d' : List ℝ} (ha : a.length = a'.length) (hb : b.length = b'.length)
    (h : npSub a b = .ok d) (h' : npSub a' b' = .ok d') : d.length = d'.length := by
  unfold npSub at h h'
  rw [ha, hb] at h
  split_ifs at h h' <;> cases h <;> cases h' <;> simp [ha, hb]

theorem npSub_ok {a b a' b' d : List ℝ} (ha : a.length = a'.length) (hb : b.length = b'.length)
    (h : npSub a b = .ok d) : ∃ d', npSub a' b' = .ok d' := by
  unfold npSub at h ⊢
  rw [ha, hb] at h
  split_ifs at h ⊢ <;> exact ⟨_, rfl⟩

theorem npFill_self {α : Type} (l : List α) : npFill l.length l = .ok l := by
  unfold npFill
  simp

/-! ### `init_curve_fit` -/

/-- The state after a completed `init_curve_fit`. -/
def prepared (w : World Z) (o : ℕ) (x y : List (List ℝ)) (d : List ℝ) : World Z :=
  World.bindAll (w.setOpt o fun op => { op with
    f := some op.simulations
    x := some x
    y := some y
    errors := some (List.replicate (w.params op.parameters).vals.length none)
    residuals := some d }) (w.opts o).simulations (w.opts o).parameters

/-- What `init_curve_fit` needs to succeed. -/
structure Prep (w : World Z) (o : ℕ) (x y : List (List ℝ)) (f0 d : List ℝ) : Prop where
  hx : selectAll (·.stretch) (w.opts o) = .ok x
  hy : selectAll (·.stress) (w.opts o) = .ok y
  hf : w.evaluate (w.opts o).simulations x (w.params (w.opts o).parameters).vals = .ok f0
  hc : npConcatenate y = .ok y.flatten
  hd : npSub f0 y.flatten = .ok d

theorem npConcatenate_eq {α : Type} {l : List (List α)} {v : List α} (h : npConcatenate l = .ok v) :
    v = l.flatten ∧ npConcatenate l = .ok l.flatten := by
  unfold npConcatenate at h ⊢
  split_ifs at h ⊢
  cases h
  exact ⟨rfl, rfl⟩

theorem selectAll_f (data : Experiment → List ℝ) (op : Optimizer) (f : Option (List ℕ)) :
    selectAll data { op with f := f } = selectAll data op := rfl

theorem init_cases (w : World Z) (o : ℕ) :
    (∃ e f x y errs, initCurveFit o w = (.error e, w.setOpt o fun op => { op with f := f, x := x, y := y, errors := errs }) ∧
      ¬ ∃ x y f0 d, Prep w o x y f0 d) ∨
    ∃ x y f0 d, Prep w o x y f0 d ∧ initCurveFit o w = (.ok (w.opts o).parameters, prepared w o x y d) := by
  unfold initCurveFit
  simp only [PyM.bind_run, PyM.assign_run, read_run, PyM.lift_run, World.setOpt_opts, World.setOpt_setOpt, id,
    World.setOpt_params, PyM.pure_run, selectAll_f]
  rcases hx : selectAll (fun e => e.stretch) (w.opts o) with e | x
  · left
    refine ⟨e, some (w.opts o).simulations, (w.opts o).x, (w.opts o).y, (w.opts o).errors, ?_, ?_⟩
    · simp only [World.setOpt]
    · rintro ⟨x, y, f0, d, h⟩
      cases hx.symm.trans h.hx
  simp only [World.setOpt_setOpt, World.setOpt_params]
  rcases hy : selectAll (fun e => e.stress) (w.opts o) with e | y
  · left
    refine ⟨e, some (w.opts o).simulations, some x, (w.opts o).y, (w.opts o).errors, ?_, ?_⟩
    · simp only [World.setOpt]
    rintro ⟨x, y, f0, d, h⟩
    cases hy.symm.trans h.hy
  simp only [World.setOpt_setOpt, World.setOpt_params]
  have hev : ∀ f : Optimizer → Optimizer, (w.setOpt o f).evaluate = w.evaluate := fun f => by
    funext a b c; exact World.evaluate_congr (fun _ => rfl) _ _ _
  rw [hev]
  rcases hf : w.evaluate (w.opts o).simulations x (w.params (w.opts o).parameters).vals with e | f0
  · left
    refine ⟨e, some (w.opts o).simulations, some x, some y, (w.opts o).errors, ?_, ?_⟩
    · simp only [World.setOpt]
    rintro ⟨x', y', f0, d, h⟩
    have : x = x' := Except.ok.inj (hx.symm.trans h.hx)
    subst this
    cases hf.symm.trans h.hf
  simp only [World.setOpt_setOpt, World.setOpt_params]
  rcases hc : npConcatenate y with e | yc
  · left
    refine ⟨e, some (w.opts o).simulations, some x, some y, some (List.replicate (w.params (w.opts o).parameters).vals.length none), ?_, ?_⟩
    · simp only [World.setOpt]
    rintro ⟨x', y', f0, d, h⟩
    have : y = y' := Except.ok.inj (hy.symm.trans h.hy)
    subst this
    cases hc.symm.trans h.hc
  obtain ⟨rfl, hc⟩ := npConcatenate_eq hc
  simp only [World.setOpt_setOpt, World.setOpt_params]
  rcases hd : npSub f0 y.flatten with e | d
  · left
    refine ⟨e, some (w.opts o).simulations, some x, some y, some (List.replicate (w.params (w.opts o).parameters).vals.length none), ?_, ?_⟩
    · simp only [World.setOpt]
    rintro ⟨x', y', f0', d, h⟩
    have : x = x' := Except.ok.inj (hx.symm.trans h.hx)
    subst this
    have : y = y' := Except.ok.inj (hy.symm.trans h.hy)
    subst this
    have : f0 = f0' := Except.ok.inj (hf.symm.trans h.hf)
    subst this
    cases hd.symm.trans h.hd
  · right
    exact ⟨x, y, f0, d, ⟨hx, hy, hf, hc, hd⟩, by simp only [prepared, World.bindAll, World.setOpt_setOpt]⟩

/-! ### `curve_fit` -/

theorem truncate_idem (v : ℝ) : truncate (truncate v) = truncate v := by
  unfold truncate
  by_cases h : 0 ≤ v
  · have : (0 : ℝ) ≤ (⌊v⌋ : ℝ) := by exact_mod_cast Int.floor_nonneg.2 h
    simp [h]
  · simp only [h, if_false]
    split_ifs <;> simp

theorem npFill_length {α : Type} {n : ℕ} {src v : List α} (h : npFill n src = .ok v) : v.length = n := by
  unfold npFill at h
  split_ifs at h with h0
  · cases h; exact h0
  · split at h
    · cases h; simp
    · cases h

theorem setAll_idem {a b : ParamObj} {src : List ℝ} (h : a.setAll src = .ok b) : b.setAll b.vals = .ok b := by
  obtain ⟨k, v⟩ := a
  cases k
  · cases h
  · cases h; rfl
  · simp only [ParamObj.setAll] at h
    rcases hv : npFill v.length src with e | u
    · rw [hv] at h; cases h
    · rw [hv] at h; cases h
      simp only [ParamObj.setAll, npFill_self]
      rfl
  · simp only [ParamObj.setAll] at h
    rcases hv : npFill v.length src with e | u
    · rw [hv] at h; cases h
    · rw [hv] at h; cases h
      simp only [ParamObj.setAll, npFill_self]
      change Except.ok _ = _
      simp only [List.map_map]
      congr 3
      funext t
      exact truncate_idem t

theorem syncSims_run {v : World Z} {r : ℕ} {l : List ℕ} (hl : ∀ s ∈ l, (v.sims s).parameters = r)
    (hr : (v.params r).setAll (v.params r).vals = .ok (v.params r)) : syncSims r l v = (.ok (), v) := by
  induction l with
  | nil => rfl
  | cons s l ih =>
    simp only [syncSims, PyM.bind_run, read_run, id, PyM.lift_run, PyM.assign_run, hl s List.mem_cons_self, hr]
    rw [World.setParam_self _ _ _ rfl]
    exact ih fun t ht => hl t (List.mem_cons_of_mem _ ht)

theorem npDiag_length {n : ℕ} {m : List (List Num)} (h1 : m.length = n) (h2 : ∀ row ∈ m, row.length = n) :
    (npDiag m).length = n := by
  unfold npDiag
  have : ∀ (l : List (List Num)) (k : ℕ), (∀ row ∈ l, k + l.length ≤ row.length) →
      ((l.zipIdx k).filterMap fun e => e.1[e.2]?).length = l.length := by
    intro l
    induction l with
    | nil => intro k _; rfl
    | cons row l ih =>
      intro k h
      have hk : k < row.length := by have := h row List.mem_cons_self; simp at this; omega
      rw [List.zipIdx_cons, List.filterMap_cons]
      simp only [List.getElem?_eq_getElem hk, List.length_cons]
      rw [ih (k + 1) fun row' hr => by have := h row' (List.mem_cons_of_mem _ hr); simp at this; omega]
  rw [this m 0 fun row hr => by rw [h1, h2 row hr]; omega, h1]

/-- The state after a successful `curve_fit`. -/
def fitted (w1 : World Z) (o r : ℕ) (obj : ParamObj) (errs : List Num) (d : List ℝ) : World Z :=
  (w1.setParam r obj).setOpt o fun op => { op with errors := some errs, residuals := some d }

/-- The function passed to the solver. -/
noncomputable def objective (w : World Z) (o : ℕ) (x : List (List ℝ)) : List ℝ → List ℝ → Res (List ℝ) :=
  fun _ p => w.evaluate (w.opts o).simulations x p

theorem prepared_opt (w : World Z) (o : ℕ) (x y : List (List ℝ)) (d : List ℝ) : (prepared w o x y d).opts o =
    { w.opts o with
      f := some (w.opts o).simulations
      x := some x
      y := some y
      errors := some (List.replicate (w.params (w.opts o).parameters).vals.length none)
      residuals := some d } := by
  simp [prepared]

theorem prepared_params (w : World Z) (o : ℕ) (x y : List (List ℝ)) (d : List ℝ) :
    (prepared w o x y d).params = w.params := by
  simp [prepared]

theorem prepared_sim (w : World Z) (o : ℕ) (x y : List (List ℝ)) (d : List ℝ) (s : ℕ) :
    ((prepared w o x y d).sims s).sim = (w.sims s).sim := by
  simp [prepared]

theorem prepared_sims (w : World Z) (o : ℕ) (x y : List (List ℝ)) (d : List ℝ) (s : ℕ)
    (hs : s ∈ (w.opts o).simulations) : ((prepared w o x y d).sims s).parameters = (w.opts o).parameters := by
  simp [prepared, World.bindAll_sims, hs]

theorem Prep.x_ne {w : World Z} {o : ℕ} {x y : List (List ℝ)} {f0 d : List ℝ} (h : Prep w o x y f0 d) : x ≠ [] := by
  rintro rfl
  obtain ⟨vs, h1, h2, -⟩ := (World.evaluate_iff ..).1 h.hf
  rw [List.zip_nil_right] at h2
  cases h2
  exact h1 rfl

/-- The run of `curve_fit` up to the call of the solver, for every solver. -/
theorem fit_cases {w : World Z} {o : ℕ} {x y : List (List ℝ)} {f0 d : List ℝ} (h : Prep w o x y f0 d)
    (hi : initCurveFit o w = (.ok (w.opts o).parameters, prepared w o x y d)) (solver : Solver) (hs : Solver.WellFormed solver) :
    (∃ e, curveFit o solver w = (.error e, prepared w o x y d) ∧
      (solver (objective w o x) x.flatten y.flatten (w.params (w.opts o).parameters).vals = .error e ∨
      ∃ popt pcov, solver (objective w o x) x.flatten y.flatten (w.params (w.opts o).parameters).vals = .ok (popt, pcov) ∧
        (w.evaluate (w.opts o).simulations x popt = .error e ∨
          (∃ fopt, w.evaluate (w.opts o).simulations x popt = .ok fopt) ∧
            (w.params (w.opts o).parameters).setAll popt = .error e))) ∨
    ∃ popt pcov fopt obj d', solver (objective w o x) x.flatten y.flatten (w.params (w.opts o).parameters).vals =
        .ok (popt, pcov) ∧ w.evaluate (w.opts o).simulations x popt = .ok fopt ∧
      (w.params (w.opts o).parameters).setAll popt = .ok obj ∧ npSub fopt y.flatten = .ok d' ∧
      curveFit o solver w = (.ok ((w.opts o).parameters, pcov),
        fitted (prepared w o x y d) o (w.opts o).parameters obj ((npDiag pcov).map npSqrt) d') := by
  set w1 := prepared w o x y d with hw1
  set r := (w.opts o).parameters with hr
  have hev : w1.evaluate = w.evaluate := by
    funext a b c; exact World.evaluate_congr (fun s => prepared_sim w o x y d s) _ _ _
  unfold curveFit
  simp only [PyM.bind_run, hi, read_run, id, PyM.attr_run, hw1 ▸ prepared_opt w o x y d, PyM.lift_run,
    hw1 ▸ prepared_params w o x y d, concatenateCurveFit, hev, ← hr]
  have hcx : npConcatenate x = .ok x.flatten := by rw [npConcatenate, if_neg h.x_ne]
  rw [hcx]
  simp only [bind, Except.bind, h.hc]
  have hob : (fun (_ : List ℝ) p => w.evaluate (w.opts o).simulations x p) = objective w o x := rfl
  rw [hob]
  rcases hsol : solver (objective w o x) x.flatten y.flatten (w.params r).vals with e | ⟨popt, pcov⟩
  · left; exact ⟨e, rfl, Or.inl rfl⟩
  simp only
  rcases hfo : w.evaluate (w.opts o).simulations x popt with e | fopt
  · left; exact ⟨e, rfl, Or.inr ⟨popt, pcov, rfl, Or.inl hfo⟩⟩
  simp only
  rcases hobj : (w.params r).setAll popt with e | obj
  · left; exact ⟨e, rfl, Or.inr ⟨popt, pcov, rfl, Or.inr ⟨⟨fopt, hfo⟩, hobj⟩⟩⟩
  right
  obtain ⟨hl1, hl2, hl3⟩ := hs _ _ _ _ _ _ hsol
  obtain ⟨d', hd'⟩ := npSub_ok (evaluate_length h.hf hfo) rfl h.hd
  have hd2 : d'.length = d.length := npSub_length (evaluate_length hfo h.hf) rfl hd' h.hd
  refine ⟨popt, pcov, fopt, obj, d', rfl, hfo, hobj, hd', ?_⟩
  have hdi : ((npDiag pcov).map npSqrt).length = (w.params r).vals.length := by
    rw [List.length_map, npDiag_length hl2 hl3]
  have hopt := prepared_opt w o x y d
  rw [← hw1] at hopt
  simp only [PyM.assign_run, World.setParam_opts, hopt, List.length_replicate, ← hr, ← hdi, npFill_self,
    World.setOpt_opts, hd', ← hd2, World.setOpt_setOpt]
  rw [syncSims_run]
  · rfl
  · intro s hs
    exact prepared_sims w o x y d s hs
  · rw [World.setOpt_params, World.setParam_params]
    exact setAll_idem hobj

end Props
