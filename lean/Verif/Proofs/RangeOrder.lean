import Verif.Spec.Range
import Verif.Model.Range
import Verif.Proofs.RangeNear
import Verif.Proofs.RoundingOrder

/-! Sums of products with overflow and underflow, computed in any order. -/

namespace Spec
open Hel.Rnd

variable {O : RangeOps}

/-- One operation. -/
theorem Rounds.near {x w m E B : ℝ} {r : Option ℝ} (h : Near O.η w x m E B) (hr : Rounds O.u O.η O.Ω w r)
    {E' B' : ℝ} (hE : (1 + O.u) * E ≤ E') (hB : B + 1 ≤ B') (hΩ : 2 * (E' * B') ≤ O.Ω) :
    ∃ v, r = some v ∧ Near O.η v x m E' B' := by
  have hu : 1 ≤ 1 + O.u := le_add_of_nonneg_right O.u_nonneg
  have h1 := h.oneE
  have h2 := h.oneB
  have h3 : 0 ≤ E' := le_trans (by have := O.u_nonneg; positivity) hE
  obtain ⟨v, hv, hvn⟩ := hr (h.range hu (by
    refine le_trans ?_ hΩ
    gcongr))
  exact ⟨v, hv, (h.round hu (by simpa using hvn)).mono hE hB⟩

/-- The product of the factors, with factors below one replaced by one. -/
noncomputable def bigProd (l : List ℝ) : ℝ := (l.map fun x => max 1 |x|).prod

/-- The sum of these products. -/
noncomputable def bigSum (ts : List (List ℝ)) : ℝ := (ts.map bigProd).sum

theorem one_le_bigProd (l : List ℝ) : 1 ≤ bigProd l := by
  induction l with
  | nil => simp [bigProd]
  | cons a l ih =>
    simp only [bigProd, List.map_cons, List.prod_cons] at *
    exact one_le_mul_of_one_le_of_one_le (le_max_left _ _) ih

theorem abs_prod_le (l : List ℝ) : |l.prod| ≤ bigProd l := by
  induction l with
  | nil => simp [bigProd]
  | cons a l ih =>
    simp only [bigProd, List.map_cons, List.prod_cons, abs_mul] at *
    have : 1 ≤ max 1 |a| := le_max_left _ _
    exact mul_le_mul (le_max_right _ _) ih (abs_nonneg _) (by linarith)

theorem bigSum_nonneg (ts : List (List ℝ)) : 0 ≤ bigSum ts := by
  refine List.sum_nonneg ?_
  simp only [List.mem_map]
  rintro _ ⟨l, -, rfl⟩
  linarith [one_le_bigProd l]

theorem one_le_bigSum {ts : List (List ℝ)} (h : ts ≠ []) : 1 ≤ bigSum ts := by
  cases ts with
  | nil => exact absurd rfl h
  | cons t ts =>
    have h1 := one_le_bigProd t
    have h2 := bigSum_nonneg ts
    simp only [bigSum, List.map_cons, List.sum_cons] at *
    linarith

/-- The relative and the absolute error of `n` operations. -/
theorem fitsIn {n n' : ℕ} {B B' : ℝ} (hB : 0 ≤ B) (hn : n ≤ n') (hB' : B ≤ B') (h : 2 * ((1 + O.u) ^ n' * B') ≤ O.Ω) :
    2 * ((1 + O.u) ^ n * B) ≤ O.Ω := by
  have hu : 1 ≤ 1 + O.u := le_add_of_nonneg_right O.u_nonneg
  have := pow_le_pow_right₀ hu hn
  have h0 : 0 ≤ (1 + O.u) ^ n' := by linarith [one_le_pow₀ hu (n := n')]
  refine le_trans ?_ h
  gcongr

theorem ProductIn.near {l : List ℝ} {x : Option ℝ} (h : ProductIn O.mul l x) :
    2 * ((1 + O.u) ^ (l.length - 1) * (4 ^ (l.length - 1) * bigProd l)) ≤ O.Ω →
    ∃ v, x = some v ∧ Near O.η v l.prod |l.prod| ((1 + O.u) ^ (l.length - 1)) (4 ^ (l.length - 1) * bigProd l) := by
  have hu : 1 ≤ 1 + O.u := le_add_of_nonneg_right O.u_nonneg
  have hη := O.η_nonneg
  induction h with
  | empty => exact fun _ => ⟨1, rfl, hη, O.η_le, by simp, by simp [bigProd], by simp, by simp [bigProd], by simp [bigProd, hη]⟩
  | single a =>
    intro _
    have : 1 ≤ max 1 |a| := le_max_left _ _
    exact ⟨a, rfl, hη, O.η_le, by simp, by simp [bigProd], by simp, by simp [bigProd], by simp [bigProd]; positivity⟩
  | @mul l l' x y hl hl' _ _ ih ih' =>
    intro hΩ
    have := List.length_pos_iff.2 hl
    have := List.length_pos_iff.2 hl'
    have b1 := one_le_bigProd l
    have b2 := one_le_bigProd l'
    have p1 : (1 : ℝ) ≤ 4 ^ (l.length - 1) := one_le_pow₀ (by norm_num)
    have p2 : (1 : ℝ) ≤ 4 ^ (l'.length - 1) := one_le_pow₀ (by norm_num)
    have q1 : 1 ≤ 4 ^ (l.length - 1) * bigProd l := one_le_mul_of_one_le_of_one_le p1 b1
    have q2 : 1 ≤ 4 ^ (l'.length - 1) * bigProd l' := one_le_mul_of_one_le_of_one_le p2 b2
    have en : (l ++ l').length - 1 = l.length - 1 + (l'.length - 1) + 1 := by rw [List.length_append]; omega
    have eb : bigProd (l ++ l') = bigProd l * bigProd l' := by simp [bigProd]
    have eB : (4 : ℝ) ^ ((l ++ l').length - 1) * bigProd (l ++ l') =
        4 * (4 ^ (l.length - 1) * bigProd l * (4 ^ (l'.length - 1) * bigProd l')) := by
      rw [en, eb, pow_succ, pow_add]; ring
    have eE : (1 + O.u) ^ ((l ++ l').length - 1) = (1 + O.u) * ((1 + O.u) ^ (l.length - 1) * (1 + O.u) ^ (l'.length - 1)) := by
      rw [en, pow_succ, pow_add]; ring
    have q3 := one_le_mul_of_one_le_of_one_le q1 q2
    obtain ⟨v, hv, hn⟩ := ih (fitsIn (by positivity) (by omega) (by rw [eB]; nlinarith) hΩ)
    obtain ⟨v', hv', hn'⟩ := ih' (fitsIn (by positivity) (by omega) (by rw [eB]; nlinarith) hΩ)
    have hm := hn.rmul hn'
    obtain ⟨w, hw, hwn⟩ := Rounds.near hm (O.mul_ok v v') (by rw [eE]) (by rw [eB]; linarith) hΩ
    refine ⟨w, by rw [hv, hv']; exact hw, ?_⟩
    rw [List.prod_append, abs_mul]
    exact hwn
  | @perm l l' x _ hp ih =>
    have e : bigProd l = bigProd l' := (hp.map _).prod_eq
    rw [← hp.prod_eq, ← hp.length_eq, ← e]
    exact ih

theorem SumIn.near_aux {ts : List (List ℝ)} {x : Option ℝ} (h : SumIn O.add O.mul O.fma ts x) {p : ℕ} :
    (∀ t ∈ ts, t.length ≤ p) → (ts = [] → x = some 0) ∧ (ts ≠ [] →
      2 * ((1 + O.u) ^ (ts.length - 1 + (p - 1)) * (2 ^ (ts.length - 1) * 4 ^ (p - 1) * bigSum ts)) ≤ O.Ω →
      ∃ v, x = some v ∧ Near O.η v (exactSum ts) (absSum ts) ((1 + O.u) ^ (ts.length - 1 + (p - 1)))
        (2 ^ (ts.length - 1) * 4 ^ (p - 1) * bigSum ts)) := by
  have hu : 1 ≤ 1 + O.u := le_add_of_nonneg_right O.u_nonneg
  have hη := O.η_nonneg
  have h4 : ∀ n, (1 : ℝ) ≤ 4 ^ n := fun n => one_le_pow₀ (by norm_num)
  have h2 : ∀ n, (1 : ℝ) ≤ 2 ^ n := fun n => one_le_pow₀ (by norm_num)
  induction h with
  | zero => exact fun _ => ⟨fun _ => rfl, fun h => absurd rfl h⟩
  | @product l x h =>
    intro hp
    refine ⟨by simp, fun _ hΩ => ?_⟩
    have hl := hp l (by simp)
    have e : bigSum [l] = bigProd l := by simp [bigSum]
    have b1 := one_le_bigProd l
    have k1 : (4 : ℝ) ^ (l.length - 1) * bigProd l ≤ 2 ^ ([l].length - 1) * 4 ^ (p - 1) * bigSum [l] := by
      rw [e]
      have : (4 : ℝ) ^ (l.length - 1) ≤ 4 ^ (p - 1) := pow_le_pow_right₀ (by norm_num) (by omega)
      simp
      gcongr
    obtain ⟨v, hv, hn⟩ := h.near (fitsIn (by positivity) (by simp; omega) k1 hΩ)
    refine ⟨v, hv, ?_⟩
    have := hn.mono (E' := (1 + O.u) ^ ([l].length - 1 + (p - 1))) (pow_le_pow_right₀ hu (by simp; omega)) k1
    simpa [exactSum, absSum] using this
  | @add ts ts' x y h h' ih ih' =>
    intro hp
    obtain ⟨h0, h1⟩ := ih fun t ht => hp t (by simp [ht])
    obtain ⟨h0', h1'⟩ := ih' fun t ht => hp t (by simp [ht])
    refine ⟨?_, fun hne hΩ => ?_⟩
    · intro he
      simp only [List.append_eq_nil_iff] at he
      rw [h0 he.1, h0' he.2]; exact O.add_zero 0
    · rcases eq_or_ne ts [] with rfl | ht
      · obtain ⟨v, hv, hn⟩ := h1' (by simpa using hne) (by simpa using hΩ)
        exact ⟨v, by rw [h0 rfl, hv]; exact O.zero_add v, by simpa using hn⟩
      rcases eq_or_ne ts' [] with rfl | ht'
      · obtain ⟨v, hv, hn⟩ := h1 ht (by simpa using hΩ)
        exact ⟨v, by rw [h0' rfl, hv]; exact O.add_zero v, by simpa using hn⟩
      have := List.length_pos_iff.2 ht
      have := List.length_pos_iff.2 ht'
      have s1 := one_le_bigSum ht
      have s2 := one_le_bigSum ht'
      have es : bigSum (ts ++ ts') = bigSum ts + bigSum ts' := by simp [bigSum]
      have el : (ts ++ ts').length - 1 = ts.length - 1 + (ts'.length - 1) + 1 := by rw [List.length_append]; omega
      have f := h4 (p - 1)
      have t1 := h2 (ts.length - 1)
      have t2 := h2 (ts'.length - 1)
      have eB : (2 : ℝ) ^ ((ts ++ ts').length - 1) * 4 ^ (p - 1) * bigSum (ts ++ ts') =
          2 * (2 ^ (ts.length - 1) * 2 ^ (ts'.length - 1) * 4 ^ (p - 1) * (bigSum ts + bigSum ts')) := by
        rw [el, es, pow_succ, pow_add]; ring
      have kA : (2 : ℝ) ^ (ts.length - 1) * 4 ^ (p - 1) * bigSum ts ≤
          2 ^ (ts.length - 1) * 2 ^ (ts'.length - 1) * 4 ^ (p - 1) * bigSum ts := by
        gcongr
        exact le_mul_of_one_le_right (by positivity) t2
      have kB : (2 : ℝ) ^ (ts'.length - 1) * 4 ^ (p - 1) * bigSum ts' ≤
          2 ^ (ts.length - 1) * 2 ^ (ts'.length - 1) * 4 ^ (p - 1) * bigSum ts' := by
        gcongr
        exact le_mul_of_one_le_left (by positivity) t1
      have kC : 1 ≤ (2 : ℝ) ^ (ts.length - 1) * 2 ^ (ts'.length - 1) * 4 ^ (p - 1) * bigSum ts :=
        one_le_mul_of_one_le_of_one_le (one_le_mul_of_one_le_of_one_le (one_le_mul_of_one_le_of_one_le t1 t2) f) s1
      have kD : 1 ≤ (2 : ℝ) ^ (ts.length - 1) * 2 ^ (ts'.length - 1) * 4 ^ (p - 1) * bigSum ts' :=
        one_le_mul_of_one_le_of_one_le (one_le_mul_of_one_le_of_one_le (one_le_mul_of_one_le_of_one_le t1 t2) f) s2
      obtain ⟨v, hv, hn⟩ := h1 ht (fitsIn (by positivity) (by omega) (by rw [eB]; linarith) hΩ)
      obtain ⟨v', hv', hn'⟩ := h1' ht' (fitsIn (by positivity) (by omega) (by rw [eB]; linarith) hΩ)
      have hs := (hn.mono (E' := (1 + O.u) ^ ((ts ++ ts').length - 2 + (p - 1)))
        (pow_le_pow_right₀ hu (by rw [List.length_append]; omega)) le_rfl).radd
        (hn'.mono (pow_le_pow_right₀ hu (by rw [List.length_append]; omega)) le_rfl)
      obtain ⟨w, hw, hwn⟩ := Rounds.near hs (O.add_ok v v') (E' := (1 + O.u) ^ ((ts ++ ts').length - 1 + (p - 1))) (by
          rw [show (ts ++ ts').length - 1 + (p - 1) = (ts ++ ts').length - 2 + (p - 1) + 1 by
            rw [List.length_append]; omega, pow_succ, mul_comm])
        (by rw [eB]; linarith) hΩ
      refine ⟨w, by rw [hv, hv']; exact hw, ?_⟩
      rw [exactSum_append, absSum_append]
      exact hwn
  | @fma l l' ts a b x hl hl' ha hb h ih =>
    intro hp
    obtain ⟨h0, h1⟩ := ih fun t ht => hp t (by simp [ht])
    refine ⟨by simp, fun _ hΩ => ?_⟩
    have hlen := hp (l ++ l') (by simp)
    rw [List.length_append] at hlen
    have := List.length_pos_iff.2 hl
    have := List.length_pos_iff.2 hl'
    have b1 := one_le_bigProd l
    have b2 := one_le_bigProd l'
    have s0 := bigSum_nonneg ts
    have e1 : exactSum ((l ++ l') :: ts) = l.prod * l'.prod + exactSum ts := by simp [exactSum]
    have e2 : absSum ((l ++ l') :: ts) = |l.prod| * |l'.prod| + absSum ts := by simp [absSum, abs_mul]
    have e3 : bigSum ((l ++ l') :: ts) = bigProd l * bigProd l' + bigSum ts := by simp [bigSum, bigProd]
    have bb := one_le_mul_of_one_le_of_one_le b1 b2
    have pw : (4 : ℝ) ^ (p - 1) = 4 * 4 ^ (p - 2) := by
      rw [show p - 1 = p - 2 + 1 by omega, pow_succ]; ring
    have f2 := h4 (p - 2)
    have f1 := h4 (p - 1)
    have tn := h2 ts.length
    have cl : (4 : ℝ) ^ (l.length - 1) * 4 ^ (l'.length - 1) ≤ 4 ^ (p - 2) := by
      rw [← pow_add]; exact pow_le_pow_right₀ (by norm_num) (by omega)
    have c1 : (4 : ℝ) ^ (l.length - 1) ≤ 4 ^ (p - 1) := pow_le_pow_right₀ (by norm_num) (by omega)
    have c2 : (4 : ℝ) ^ (l'.length - 1) ≤ 4 ^ (p - 1) := pow_le_pow_right₀ (by norm_num) (by omega)
    have big : 4 ^ (p - 1) * (bigProd l * bigProd l') ≤
        2 ^ (((l ++ l') :: ts).length - 1) * 4 ^ (p - 1) * bigSum ((l ++ l') :: ts) := by
      rw [e3, List.length_cons, Nat.add_sub_cancel, mul_assoc]
      have k0 : 0 ≤ 4 ^ (p - 1) * (bigProd l * bigProd l' + bigSum ts) := by positivity
      have k1 := le_mul_of_one_le_left k0 tn
      have k2 : 4 ^ (p - 1) * (bigProd l * bigProd l') ≤ 4 ^ (p - 1) * (bigProd l * bigProd l' + bigSum ts) := by
        gcongr; linarith
      linarith
    obtain ⟨va, hva, hna⟩ := ha.near (fitsIn (by positivity) (by simp; omega) (le_trans (by
      have : bigProd l ≤ bigProd l * bigProd l' := le_mul_of_one_le_right (by linarith) b2
      exact mul_le_mul c1 this (by linarith) (by linarith)) big) hΩ)
    obtain ⟨vb, hvb, hnb⟩ := hb.near (fitsIn (by positivity) (by simp; omega) (le_trans (by
      have : bigProd l' ≤ bigProd l * bigProd l' := le_mul_of_one_le_left (by linarith) b1
      exact mul_le_mul c2 this (by linarith) (by linarith)) big) hΩ)
    have hab := hna.rmul hnb
    have hB : 3 * (4 ^ (l.length - 1) * bigProd l * (4 ^ (l'.length - 1) * bigProd l')) ≤
        3 * (4 ^ (p - 2) * (bigProd l * bigProd l')) := by
      have : 4 ^ (l.length - 1) * bigProd l * (4 ^ (l'.length - 1) * bigProd l') =
        4 ^ (l.length - 1) * 4 ^ (l'.length - 1) * (bigProd l * bigProd l') := by ring
      rw [this]
      gcongr
    have q0 := one_le_mul_of_one_le_of_one_le f2 bb
    rcases eq_or_ne ts [] with rfl | hne
    · have hx := h0 rfl
      have hz : Near O.η (va * vb + 0) (l.prod * l'.prod + exactSum []) (|l.prod| * |l'.prod| + absSum [])
          ((1 + O.u) ^ (p - 2)) (3 * (4 ^ (p - 2) * (bigProd l * bigProd l'))) := by
        have := hab.mono (E' := (1 + O.u) ^ (p - 2)) (by
          rw [← pow_add]; exact pow_le_pow_right₀ hu (by omega)) hB
        simpa [exactSum, absSum] using this
      obtain ⟨w, hw, hwn⟩ := Rounds.near hz (O.fma_ok va vb 0) (E' := (1 + O.u) ^ ([l ++ l'].length - 1 + (p - 1)))
        (by
          rw [show [l ++ l'].length - 1 + (p - 1) = p - 2 + 1 by simp; omega, pow_succ, mul_comm])
        (by
          refine le_trans ?_ big
          rw [pw]; linarith) hΩ
      refine ⟨w, by rw [hva, hvb, hx]; exact hw, ?_⟩
      rw [e1, e2]
      exact hwn
    · have := List.length_pos_iff.2 hne
      have s1 := one_le_bigSum hne
      have el : ((l ++ l') :: ts).length - 1 = ts.length - 1 + 1 := by simp; omega
      have eB : (2 : ℝ) ^ (((l ++ l') :: ts).length - 1) * 4 ^ (p - 1) * bigSum ((l ++ l') :: ts) =
          2 * (2 ^ (ts.length - 1) * 4 ^ (p - 1) * (bigProd l * bigProd l' + bigSum ts)) := by
        rw [el, e3, pow_succ]; ring
      have t1 := h2 (ts.length - 1)
      have q1 : 4 ^ (p - 1) * (bigProd l * bigProd l') ≤ 2 ^ (ts.length - 1) * 4 ^ (p - 1) * (bigProd l * bigProd l') := by
        rw [mul_assoc]
        exact le_mul_of_one_le_left (by positivity) t1
      have q2 : 1 ≤ 2 ^ (ts.length - 1) * 4 ^ (p - 1) * bigSum ts :=
        one_le_mul_of_one_le_of_one_le (one_le_mul_of_one_le_of_one_le t1 f1) s1
      have q3 := one_le_mul_of_one_le_of_one_le f1 bb
      obtain ⟨v, hv, hn⟩ := h1 hne (fitsIn (by positivity) (by omega) (by rw [eB]; linarith) hΩ)
      have hs := (hab.mono (E' := (1 + O.u) ^ (ts.length - 1 + (p - 1))) (by
          rw [← pow_add]; exact pow_le_pow_right₀ hu (by omega)) hB).radd hn
      obtain ⟨w, hw, hwn⟩ := Rounds.near hs (O.fma_ok va vb v)
        (E' := (1 + O.u) ^ (((l ++ l') :: ts).length - 1 + (p - 1))) (by
          rw [show ((l ++ l') :: ts).length - 1 + (p - 1) = ts.length - 1 + (p - 1) + 1 by simp; omega, pow_succ, mul_comm])
        (by rw [eB]; rw [pw] at q1 ⊢; rw [pw] at q2; linarith) hΩ
      refine ⟨w, by rw [hva, hvb, hv]; exact hw, ?_⟩
      rw [e1, e2]
      exact hwn
  | @perm ts ts' x h hp ih =>
    intro hl
    obtain ⟨h0, h1⟩ := ih fun t ht => hl t (hp.mem_iff.1 ht)
    have e1 : exactSum ts' = exactSum ts := ((hp.map _).sum_eq).symm
    have e2 : absSum ts' = absSum ts := ((hp.map _).sum_eq).symm
    have e3 : bigSum ts' = bigSum ts := ((hp.map _).sum_eq).symm
    rw [e1, e2, e3, ← hp.length_eq]
    exact ⟨fun he => h0 (by subst he; exact hp.eq_nil), fun hne => h1 (by rintro rfl; exact hne hp.nil_eq.symm)⟩
  | @permFactors ts l l' x h hp ih =>
    intro hl
    obtain ⟨h0, h1⟩ := ih fun t ht => by
      rcases List.mem_cons.1 ht with rfl | ht
      · rw [hp.length_eq]; exact hl l' (by simp)
      · exact hl t (by simp [ht])
    have e1 : exactSum (l' :: ts) = exactSum (l :: ts) := by simp [exactSum, hp.prod_eq]
    have e2 : absSum (l' :: ts) = absSum (l :: ts) := by simp [absSum, hp.prod_eq]
    have e3 : bigSum (l' :: ts) = bigSum (l :: ts) := by
      have : bigProd l' = bigProd l := ((hp.map _).prod_eq).symm
      simp [bigSum, this]
    rw [e1, e2, e3]
    exact ⟨by simp, fun _ => h1 (by simp)⟩

/-- A sum of `n` products of at most `p` factors each, in any order. -/
theorem SumIn.near {ts : List (List ℝ)} {x : Option ℝ} (h : SumIn O.add O.mul O.fma ts x) {p : ℕ} {G : ℝ}
    (hp : ∀ t ∈ ts, t.length ≤ p) (hG : 2 ^ ts.length * 4 ^ p * bigSum ts ≤ G)
    (hΩ : 2 * ((1 + O.u) ^ (ts.length + p) * G) ≤ O.Ω) :
    ∃ v, x = some v ∧ |v - exactSum ts| ≤ ((1 + O.u) ^ (ts.length + p) - 1) * absSum ts +
      O.η * ((1 + O.u) ^ (ts.length + p) * G) := by
  have hu : 1 ≤ 1 + O.u := le_add_of_nonneg_right O.u_nonneg
  have hη := O.η_nonneg
  obtain ⟨h0, h1⟩ := h.near_aux hp
  have s0 := bigSum_nonneg ts
  have hG0 : 0 ≤ G := le_trans (by positivity) hG
  rcases eq_or_ne ts [] with rfl | hne
  · refine ⟨0, h0 rfl, ?_⟩
    simp [exactSum, absSum]
    have := O.u_nonneg
    positivity
  have hB : 2 ^ (ts.length - 1) * 4 ^ (p - 1) * bigSum ts ≤ G := by
    refine le_trans ?_ hG
    gcongr
    · norm_num
    · omega
    · norm_num
    · omega
  obtain ⟨v, hv, hn⟩ := h1 hne (fitsIn (by positivity) (by omega) hB hΩ)
  exact ⟨v, hv, (hn.mono (pow_le_pow_right₀ hu (by omega)) hB).err⟩

end Spec

namespace Hel.Rnd
open Spec

/-- The machine with given operations, powers and an implementation of `einsum` which adds the products in any order. -/
def Machine.ofOperations (O : RangeOps) (pow : ℝ → ℝ → Option ℝ)
    (hpow : ∀ x y, 0 < x → (1 + O.u) ^ 2 * x ^ y + O.η ≤ O.Ω →
      ∃ v, pow x y = some v ∧ |v - x ^ y| ≤ ((1 + O.u) ^ 2 - 1) * x ^ y + O.η) (einsum : List (List ℝ) → Option ℝ)
    (h : ∀ ts, SumIn O.add O.mul O.fma ts (einsum ts)) : Machine where
  u := O.u
  η := O.η
  Ω := O.Ω
  u_nonneg := O.u_nonneg
  η_nonneg := O.η_nonneg
  η_le := O.η_le
  add := O.add
  sub := O.sub
  mul := O.mul
  div := O.div
  sq x := O.mul x x
  pow := pow
  einsum := einsum
  add_ok := O.add_ok
  sub_ok := O.sub_ok
  mul_ok := O.mul_ok
  div_ok := O.div_ok
  sq_ok x hx := by
    have hu := O.u_nonneg
    have h2 : 0 ≤ x ^ 2 := sq_nonneg x
    have e : |x * x| = x ^ 2 := by rw [← pow_two, abs_of_nonneg h2]
    have h3 : (1 + O.u) * x ^ 2 ≤ (1 + O.u) ^ 2 * x ^ 2 := by
      gcongr
      nlinarith
    obtain ⟨v, hv, hn⟩ := O.mul_ok x x (by rw [e]; linarith)
    refine ⟨v, hv, ?_⟩
    rw [e, ← pow_two] at hn
    have : O.u * x ^ 2 ≤ ((1 + O.u) ^ 2 - 1) * x ^ 2 := by
      gcongr
      nlinarith
    linarith
  pow_ok := hpow
  einsum_ok ts p G hp hG hΩ := (h ts).near hp hG hΩ

/-- The product of a list from left to right. -/
def productFrom (mul : ℝ → ℝ → Option ℝ) : List ℝ → Option ℝ
  | [] => some 1
  | a :: l => l.foldl (fun s b => both mul s (some b)) (some a)

/-- The sum of the products from left to right, starting with zero. -/
def sumFrom (add mul : ℝ → ℝ → Option ℝ) (ts : List (List ℝ)) : Option ℝ :=
  ts.foldl (fun s t => both add s (productFrom mul t)) (some 0)

theorem productIn_from (mul : ℝ → ℝ → Option ℝ) (l : List ℝ) : ProductIn mul l (productFrom mul l) := by
  cases l with
  | nil => exact .empty
  | cons a l =>
    have key : ∀ (l l₀ : List ℝ) (x : Option ℝ), l₀ ≠ [] → ProductIn mul l₀ x →
        ProductIn mul (l₀ ++ l) (l.foldl (fun s b => both mul s (some b)) x) := by
      intro l
      induction l with
      | nil => intro l₀ x _ h; simpa using h
      | cons b l ih =>
        intro l₀ x hl h
        have := ih (l₀ ++ [b]) (both mul x (some b)) (by simp) (.mul hl (by simp) h (.single b))
        simpa using this
    exact key l [a] (some a) (by simp) (.single a)

theorem sumIn_from (add mul : ℝ → ℝ → Option ℝ) (fma : ℝ → ℝ → ℝ → Option ℝ) (ts : List (List ℝ)) :
    SumIn add mul fma ts (sumFrom add mul ts) := by
  have key : ∀ (ts ts₀ : List (List ℝ)) (x : Option ℝ), SumIn add mul fma ts₀ x →
      SumIn add mul fma (ts₀ ++ ts) (ts.foldl (fun s t => both add s (productFrom mul t)) x) := by
    intro ts
    induction ts with
    | nil => intro ts₀ x h; simpa using h
    | cons t ts ih =>
      intro ts₀ x h
      have := ih (ts₀ ++ [t]) _ (.add h (.product (productIn_from mul t)))
      simpa using this
  exact key ts [] (some 0) .zero

end Hel.Rnd
