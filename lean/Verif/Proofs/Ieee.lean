import Verif.Spec.Ieee
import Verif.Proofs.RoundingOrder
import Verif.Proofs.Binary64

/-! Exact results in floating-point arithmetic. -/

namespace Spec

theorem ProductOf.zero {O : Operations} {l : List ℝ} {x : ℝ} (h : ProductOf O.mul l x) (h0 : (0 : ℝ) ∈ l) : x = 0 := by
  have h1 := h.within
  rw [List.prod_eq_zero h0] at h1
  simpa [Within] using h1

theorem ProductOf.pair {mul : ℝ → ℝ → ℝ} {l : List ℝ} {z : ℝ} (h : ProductOf mul l z) :
    (∀ a, l = [a] → z = a) ∧ ∀ x y, l = [x, y] → z = mul x y ∨ z = mul y x := by
  induction h with
  | empty => exact ⟨by simp, by simp⟩
  | single a => exact ⟨fun b hb => by simpa using hb, by simp⟩
  | @mul l l' x y hl hl' h h' ih ih' =>
    have h1 := List.length_pos_iff.2 hl
    have h2 := List.length_pos_iff.2 hl'
    refine ⟨fun a ha => ?_, fun a b hab => ?_⟩
    · have := congrArg List.length ha
      rw [List.length_append] at this
      simp at this
      omega
    · have h3 := congrArg List.length hab
      rw [List.length_append] at h3
      simp at h3
      obtain ⟨c, rfl⟩ := List.length_eq_one_iff.1 (by omega : l.length = 1)
      obtain ⟨d, rfl⟩ := List.length_eq_one_iff.1 (by omega : l'.length = 1)
      simp only [List.cons_append, List.nil_append, List.cons.injEq, and_true] at hab
      left
      rw [ih.1 c rfl, ih'.1 d rfl, hab.1, hab.2]
  | @perm l l' x h hp ih =>
    refine ⟨fun a ha => ?_, fun a b hab => ?_⟩
    · subst ha
      exact ih.1 a (List.perm_singleton.1 hp)
    · subst hab
      have h3 := hp.length_eq
      simp at h3
      obtain ⟨c, d, rfl⟩ := List.length_eq_two.1 h3
      rcases ih.2 c d rfl with e | e
      · by_cases hc : c = a
        · subst hc
          have := (List.perm_cons c).1 hp
          have := List.perm_singleton.1 this
          simp only [List.cons.injEq, and_true] at this
          subst this
          exact Or.inl e
        · have hca : c ∈ [a, b] := hp.mem_iff.1 (by simp)
          simp only [List.mem_cons, List.not_mem_nil, or_false] at hca
          have hcb := hca.resolve_left hc
          subst hcb
          have := (List.perm_cons c).1 (hp.trans (List.Perm.swap c a []))
          have := List.perm_singleton.1 this
          simp only [List.cons.injEq, and_true] at this
          subst this
          exact Or.inr e
      · by_cases hc : c = a
        · subst hc
          have := (List.perm_cons c).1 hp
          have := List.perm_singleton.1 this
          simp only [List.cons.injEq, and_true] at this
          subst this
          exact Or.inr e
        · have hca : c ∈ [a, b] := hp.mem_iff.1 (by simp)
          simp only [List.mem_cons, List.not_mem_nil, or_false] at hca
          have hcb := hca.resolve_left hc
          subst hcb
          have := (List.perm_cons c).1 (hp.trans (List.Perm.swap c a []))
          have := List.perm_singleton.1 this
          simp only [List.cons.injEq, and_true] at this
          subst this
          exact Or.inl e

theorem SumOf.zeros {O : Operations} {ts : List (List ℝ)} {z : ℝ} (h : SumOf O.add O.mul O.fma ts z)
    (h0 : ∀ t ∈ ts, (0 : ℝ) ∈ t) : z = 0 := by
  have h1 := h.within (p := (ts.map List.length).sum) fun t ht =>
    List.single_le_sum (by simp) _ (List.mem_map.2 ⟨t, ht, rfl⟩)
  have e1 : (ts.map List.prod).sum = 0 := List.sum_eq_zero fun x hx => by
    obtain ⟨t, ht, rfl⟩ := List.mem_map.1 hx
    exact List.prod_eq_zero (h0 t ht)
  have e2 : (ts.map fun t => |t.prod|).sum = 0 := List.sum_eq_zero fun x hx => by
    obtain ⟨t, ht, rfl⟩ := List.mem_map.1 hx
    rw [List.prod_eq_zero (h0 t ht), abs_zero]
  rw [e1, e2] at h1
  simpa [Within] using h1

theorem perm_pair {x y : ℝ} {l : List ℝ} (h : l.Perm [x, y]) : l = [x, y] ∨ l = [y, x] := by
  have h3 := h.length_eq
  simp at h3
  obtain ⟨c, d, rfl⟩ := List.length_eq_two.1 h3
  have hc : c ∈ [x, y] := h.mem_iff.1 (by simp)
  simp only [List.mem_cons, List.not_mem_nil, or_false] at hc
  rcases hc with rfl | rfl
  · have := List.perm_singleton.1 ((List.perm_cons c).1 h)
    exact Or.inl (by rw [this])
  · have := List.perm_singleton.1 ((List.perm_cons c).1 (h.trans (List.Perm.swap c x [])))
    exact Or.inr (by rw [this])

/-- One product of two factors among zeros, in any order. -/
theorem SumOf.single {O : Operations} (hO : IeeeOps O) {ts : List (List ℝ)} {z : ℝ} (h : SumOf O.add O.mul O.fma ts z) :
    ∀ (x y : ℝ) (rest : List (List ℝ)), ts.Perm ([x, y] :: rest) → (∀ t ∈ rest, (0 : ℝ) ∈ t) → z = O.mul x y := by
  induction h with
  | zero =>
    intro x y rest hp
    exact absurd hp.length_eq (by simp)
  | @product l z h =>
    intro x y rest hp h0
    have h1 := List.singleton_perm.1 hp
    simp only [List.cons.injEq] at h1
    rcases h.pair.2 x y h1.1 with e | e
    · exact e
    · rw [e, hO.mul_comm]
  | @add ts ts' a b h h' ih ih' =>
    intro x y rest hp h0
    have hmem : [x, y] ∈ ts ++ ts' := hp.mem_iff.2 (by simp)
    rcases List.mem_append.1 hmem with hm | hm
    · obtain ⟨l, r, rfl⟩ := List.append_of_mem hm
      have h1 : (([x, y] :: (l ++ r)) ++ ts').Perm ([x, y] :: rest) :=
        ((List.perm_middle.symm).append_right ts').trans hp
      have h2 : (l ++ r ++ ts').Perm rest := (List.perm_cons _).1 h1
      rw [ih x y (l ++ r) List.perm_middle (fun t ht => h0 t (h2.mem_iff.1 (by simp at ht ⊢; tauto))),
        h'.zeros (fun t ht => h0 t (h2.mem_iff.1 (by simp [ht]))), O.add_zero]
    · obtain ⟨l, r, rfl⟩ := List.append_of_mem hm
      have h1 : ([x, y] :: (ts ++ (l ++ r))).Perm ([x, y] :: rest) := by
        refine List.Perm.trans ?_ hp
        rw [← List.append_assoc, ← List.append_assoc]
        exact List.perm_middle.symm
      have h2 : (ts ++ (l ++ r)).Perm rest := (List.perm_cons _).1 h1
      rw [ih' x y (l ++ r) List.perm_middle (fun t ht => h0 t (h2.mem_iff.1 (by simp at ht ⊢; tauto))),
        h.zeros (fun t ht => h0 t (h2.mem_iff.1 (by simp [ht]))), O.zero_add]
  | @fma l l' ts a b c hl hl' ha hb h ih =>
    intro x y rest hp h0
    by_cases he : l ++ l' = [x, y]
    · rw [he] at hp
      have h2 := (List.perm_cons _).1 hp
      have h3 := List.length_pos_iff.2 hl
      have h4 := List.length_pos_iff.2 hl'
      have h5 := congrArg List.length he
      rw [List.length_append] at h5
      simp at h5
      obtain ⟨u, rfl⟩ := List.length_eq_one_iff.1 (by omega : l.length = 1)
      obtain ⟨v, rfl⟩ := List.length_eq_one_iff.1 (by omega : l'.length = 1)
      simp only [List.cons_append, List.nil_append, List.cons.injEq, and_true] at he
      rw [h.zeros (fun t ht => h0 t (h2.mem_iff.1 ht)), ha.pair.1 u rfl, hb.pair.1 v rfl, hO.fma_zero, he.1, he.2]
    · have hz : (0 : ℝ) ∈ l ++ l' := h0 _ (by
        have := hp.mem_iff.1 (List.mem_cons_self (a := l ++ l') (l := ts))
        exact (List.mem_cons.1 this).resolve_left he)
      have hm : [x, y] ∈ ts := by
        have := hp.mem_iff.2 (List.mem_cons_self (a := [x, y]) (l := rest))
        exact (List.mem_cons.1 this).resolve_left fun e => he e.symm
      obtain ⟨p, r, rfl⟩ := List.append_of_mem hm
      have h1 : ([x, y] :: ((l ++ l') :: (p ++ r))).Perm ([x, y] :: rest) := by
        refine List.Perm.trans ?_ hp
        refine (List.Perm.swap _ _ _).trans (List.Perm.cons _ ?_)
        exact List.perm_middle.symm
      have h2 := (List.perm_cons _).1 h1
      rw [ih x y (p ++ r) List.perm_middle (fun t ht => h0 t (h2.mem_iff.1 (List.mem_cons_of_mem _ ht)))]
      refine hO.fma_mul a b x y ?_
      rcases List.mem_append.1 hz with h | h
      · rw [ha.zero h, zero_mul]
      · rw [hb.zero h, mul_zero]
  | @perm ts ts' z h hp ih =>
    intro x y rest hp' h0
    exact ih x y rest (hp.trans hp') h0
  | @permFactors ts l l' z h hp ih =>
    intro x y rest hp' h0
    by_cases he : l' = [x, y]
    · subst he
      have h2 := (List.perm_cons _).1 hp'
      rcases perm_pair hp with rfl | rfl
      · exact ih x y rest hp' h0
      · rw [ih y x rest (h2.cons _) h0, hO.mul_comm]
    · have hz : (0 : ℝ) ∈ l' := h0 _ (by
        have := hp'.mem_iff.1 (List.mem_cons_self (a := l') (l := ts))
        exact (List.mem_cons.1 this).resolve_left he)
      have hm : [x, y] ∈ ts := by
        have := hp'.mem_iff.2 (List.mem_cons_self (a := [x, y]) (l := rest))
        exact (List.mem_cons.1 this).resolve_left fun e => he e.symm
      obtain ⟨p, r, rfl⟩ := List.append_of_mem hm
      have h1 : ([x, y] :: (l' :: (p ++ r))).Perm ([x, y] :: rest) := by
        refine List.Perm.trans ?_ hp'
        refine (List.Perm.swap _ _ _).trans (List.Perm.cons _ ?_)
        exact List.perm_middle.symm
      have h2 := (List.perm_cons _).1 h1
      refine ih x y (l :: (p ++ r)) ?_ fun t ht => ?_
      · exact ((List.perm_middle (a := [x, y])).cons l).trans (List.Perm.swap _ _ _)
      · rcases List.mem_cons.1 ht with rfl | ht
        · exact hp.mem_iff.2 hz
        · exact h0 t (h2.mem_iff.1 (List.mem_cons_of_mem _ ht))

end Spec

namespace Hel.Rnd.Binary64
open Spec

theorem isNum_zero : IsNum 0 := ⟨0, 0, by norm_num, by simp⟩

theorem isNum_one : IsNum 1 := ⟨1, 0, by norm_num, by simp⟩

theorem ieeeOps : IeeeOps operations where
  mul_comm x y := by change rn (x * y) = rn (y * x); rw [mul_comm]
  mul_one x y := by
    change rn (rn (x * y) * 1) = rn (x * y)
    rw [mul_one, rn_num (num_rn _)]
  div_one x y := by
    change rn (rn (x * y) / 1) = rn (x * y)
    rw [div_one, rn_num (num_rn _)]
  one_div_one := by change rn (1 / 1) = 1; rw [div_one, rn_num isNum_one]
  one_mul_one := by change rn (1 * 1) = 1; rw [mul_one, rn_num isNum_one]
  fma_zero x y := by change rn (x * y + 0) = rn (x * y); rw [add_zero]
  fma_mul a b x y h := by
    change rn (a * b + rn (x * y)) = rn (x * y)
    rw [h, zero_add, rn_num (num_rn _)]

end Hel.Rnd.Binary64
