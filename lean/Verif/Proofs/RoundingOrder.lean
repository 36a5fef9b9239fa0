import Mathlib.Tactic.Positivity
import Mathlib.Tactic.Linarith
import Mathlib.Tactic.Ring
import Mathlib.Tactic.GCongr
import Verif.Spec.Rounding
import Verif.Model.Rounding

/-! Sums of products, computed in any order. -/

namespace Spec

variable {O : Operations}

/-- One rounding of a number which is known up to `n` roundings. -/
theorem Within.round {u y y' x m : ℝ} {n : ℕ} (hu : 0 ≤ u) (h : Within u n y x m) (hx : |x| ≤ m)
    (h' : |y' - y| ≤ u * |y|) : Within u (n + 1) y' x m := by
  unfold Within at *
  have h1 : |y| ≤ (1 + u) ^ n * m := by
    have := abs_sub_abs_le_abs_sub y x
    linarith
  have h2 : |y' - x| ≤ |y' - y| + |y - x| := abs_sub_le _ _ _
  have h3 : u * |y| ≤ u * ((1 + u) ^ n * m) := by gcongr
  rw [pow_succ]
  linarith

theorem Within.mono {u y x m : ℝ} {n n' : ℕ} (hu : 0 ≤ u) (h : Within u n y x m) (hx : |x| ≤ m) (hn : n ≤ n') :
    Within u n' y x m := by
  unfold Within at *
  have hm : 0 ≤ m := (abs_nonneg x).trans hx
  have : (1 + u) ^ n ≤ (1 + u) ^ n' := pow_le_pow_right₀ (by linarith) hn
  exact h.trans (by gcongr)

theorem Within.add {u y x m y' x' m' : ℝ} {n : ℕ} (h : Within u n y x m) (h' : Within u n y' x' m') :
    Within u n (y + y') (x + x') (m + m') := by
  unfold Within at *
  have : |y + y' - (x + x')| ≤ |y - x| + |y' - x'| := by
    rw [show y + y' - (x + x') = (y - x) + (y' - x') by ring]
    exact abs_add_le _ _
  linarith

theorem Within.mul {u y x m y' x' m' : ℝ} {n n' : ℕ} (h : Within u n y x m) (h' : Within u n' y' x' m')
    (hx : |x| ≤ m) (hx' : |x'| ≤ m') : Within u (n + n') (y * y') (x * x') (m * m') := by
  unfold Within at *
  have hm : 0 ≤ m := (abs_nonneg x).trans hx
  have hm' : 0 ≤ m' := (abs_nonneg x').trans hx'
  have h1 : |y| ≤ (1 + u) ^ n * m := by
    have := abs_sub_abs_le_abs_sub y x
    linarith
  have e : y * y' - x * x' = y * (y' - x') + (y - x) * x' := by ring
  have h0 := (abs_nonneg _).trans h
  calc |y * y' - x * x'| ≤ |y| * |y' - x'| + |y - x| * |x'| := by
        rw [e, ← abs_mul, ← abs_mul]; exact abs_add_le _ _
    _ ≤ (1 + u) ^ n * m * (((1 + u) ^ n' - 1) * m') + ((1 + u) ^ n - 1) * m * m' := by
        gcongr
        exact (abs_nonneg _).trans h1
    _ = ((1 + u) ^ (n + n') - 1) * (m * m') := by rw [pow_add]; ring

theorem Within.refl {u : ℝ} (n : ℕ) (hu : 0 ≤ u) (x : ℝ) {m : ℝ} (hm : 0 ≤ m) : Within u n x x m := by
  unfold Within
  rw [sub_self, abs_zero]
  have : (1 : ℝ) ≤ (1 + u) ^ n := one_le_pow₀ (by linarith)
  have : 0 ≤ (1 + u) ^ n - 1 := by linarith
  positivity

/-- A product of `n` numbers in any order needs `n - 1` roundings. -/
theorem ProductOf.within {l : List ℝ} {x : ℝ} (h : ProductOf O.mul l x) :
    Within O.u (l.length - 1) x l.prod |l.prod| := by
  induction h with
  | empty => exact Within.refl _ O.u_nonneg _ (abs_nonneg _)
  | single a => simpa using Within.refl 0 O.u_nonneg a (abs_nonneg a)
  | @mul l l' x y hl hl' _ _ ih ih' =>
    have h1 := (ih.mul ih' le_rfl le_rfl).round O.u_nonneg (by rw [abs_mul]) (O.mul_error x y)
    rw [List.prod_append, List.length_append, abs_mul]
    have := List.length_pos_iff.2 hl
    have := List.length_pos_iff.2 hl'
    rwa [show l.length + l'.length - 1 = l.length - 1 + (l'.length - 1) + 1 by omega]
  | perm _ hp ih => rw [← hp.prod_eq, ← hp.length_eq]; exact ih

/-- The exact sum of products. -/
def exactSum (ts : List (List ℝ)) : ℝ := (ts.map List.prod).sum

/-- The sum of the absolute values of the products. -/
def absSum (ts : List (List ℝ)) : ℝ := (ts.map fun t => |t.prod|).sum

theorem abs_exactSum (ts : List (List ℝ)) : |exactSum ts| ≤ absSum ts := by
  induction ts with
  | nil => simp [exactSum, absSum]
  | cons t ts ih =>
    simp only [exactSum, absSum, List.map_cons, List.sum_cons] at *
    exact (abs_add_le _ _).trans (by linarith)

theorem exactSum_append (ts ts' : List (List ℝ)) : exactSum (ts ++ ts') = exactSum ts + exactSum ts' := by
  simp [exactSum]

theorem absSum_append (ts ts' : List (List ℝ)) : absSum (ts ++ ts') = absSum ts + absSum ts' := by
  simp [absSum]

theorem absSum_nonneg (ts : List (List ℝ)) : 0 ≤ absSum ts := (abs_nonneg _).trans (abs_exactSum ts)

theorem SumOf.within_aux {ts : List (List ℝ)} {x : ℝ} (h : SumOf O.add O.mul O.fma ts x) {p : ℕ} :
    (∀ t ∈ ts, t.length ≤ p) → (ts = [] → x = 0) ∧
      Within O.u (ts.length - 1 + (p - 1)) x (exactSum ts) (absSum ts) := by
  have hu := O.u_nonneg
  induction h with
  | zero => exact fun _ => ⟨fun _ => rfl, by simpa [exactSum] using Within.refl _ hu 0 (absSum_nonneg [])⟩
  | @product l x h =>
    intro hp
    refine ⟨by simp, ?_⟩
    have := hp l (by simp)
    have h1 := h.within.mono hu le_rfl (n' := [l].length - 1 + (p - 1)) (by simp; omega)
    simpa [exactSum, absSum] using h1
  | @add ts ts' x y h h' ih ih' =>
    intro hp
    obtain ⟨h0, h1⟩ := ih fun t ht => hp t (by simp [ht])
    obtain ⟨h0', h1'⟩ := ih' fun t ht => hp t (by simp [ht])
    refine ⟨?_, ?_⟩
    · intro he
      simp only [List.append_eq_nil_iff] at he
      rw [h0 he.1, h0' he.2, O.add_zero]
    · rcases eq_or_ne ts [] with rfl | hne
      · rw [h0 rfl, O.zero_add]; simpa using h1'
      rcases eq_or_ne ts' [] with rfl | hne'
      · rw [h0' rfl, O.add_zero]; simpa using h1
      have := List.length_pos_iff.2 hne
      have := List.length_pos_iff.2 hne'
      rw [exactSum_append, absSum_append, List.length_append]
      have h2 := (h1.mono hu (abs_exactSum _) (n' := ts.length + ts'.length - 2 + (p - 1)) (by omega)).add
        (h1'.mono hu (abs_exactSum _) (n' := ts.length + ts'.length - 2 + (p - 1)) (by omega))
      have h3 := h2.round hu ((abs_add_le _ _).trans (add_le_add (abs_exactSum _) (abs_exactSum _)))
        (O.add_error x y)
      rwa [show ts.length + ts'.length - 1 + (p - 1) = ts.length + ts'.length - 2 + (p - 1) + 1 by omega]
  | @fma l l' ts a b x hl hl' ha hb h ih =>
    intro hp
    obtain ⟨h0, h1⟩ := ih fun t ht => hp t (by simp [ht])
    refine ⟨by simp, ?_⟩
    have hlen := hp (l ++ l') (by simp)
    rw [List.length_append] at hlen
    have := List.length_pos_iff.2 hl
    have := List.length_pos_iff.2 hl'
    have hab := ha.within.mul hb.within le_rfl le_rfl
    have e1 : exactSum ((l ++ l') :: ts) = l.prod * l'.prod + exactSum ts := by simp [exactSum]
    have e2 : absSum ((l ++ l') :: ts) = |l.prod| * |l'.prod| + absSum ts := by simp [absSum, abs_mul]
    rw [e1, e2, List.length_cons]
    rcases eq_or_ne ts [] with rfl | hne
    · have hx := h0 rfl
      subst hx
      have h2 := (hab.mono hu (by rw [abs_mul]) (n' := p - 2) (by omega)).add (Within.refl (p - 2) hu 0 le_rfl)
      have h3 := h2.round hu (by simp [abs_mul]) (O.fma_error a b 0)
      have e : ([] : List (List ℝ)).length + 1 - 1 + (p - 1) = p - 2 + 1 := by simp; omega
      rw [e]
      simpa [exactSum, absSum] using h3
    · have := List.length_pos_iff.2 hne
      have h2 := (hab.mono hu (by rw [abs_mul]) (n' := ts.length - 1 + (p - 1)) (by omega)).add h1
      have h3 := h2.round hu ((abs_add_le _ _).trans (add_le_add (by rw [abs_mul]) (abs_exactSum _)))
        (O.fma_error a b x)
      rwa [show ts.length + 1 - 1 + (p - 1) = ts.length - 1 + (p - 1) + 1 by omega]
  | @perm ts ts' x h hp ih =>
    intro hl
    obtain ⟨h0, h1⟩ := ih fun t ht => hl t (hp.mem_iff.1 ht)
    refine ⟨fun he => h0 (by subst he; exact hp.eq_nil), ?_⟩
    have e1 : exactSum ts' = exactSum ts := ((hp.map _).sum_eq).symm
    have e2 : absSum ts' = absSum ts := ((hp.map _).sum_eq).symm
    rw [e1, e2, ← hp.length_eq]
    exact h1
  | @permFactors ts l l' x h hp ih =>
    intro hl
    obtain ⟨h0, h1⟩ := ih fun t ht => by
      rcases List.mem_cons.1 ht with rfl | ht
      · rw [hp.length_eq]; exact hl l' (by simp)
      · exact hl t (by simp [ht])
    refine ⟨by simp, ?_⟩
    have e1 : exactSum (l' :: ts) = exactSum (l :: ts) := by simp [exactSum, hp.prod_eq]
    have e2 : absSum (l' :: ts) = absSum (l :: ts) := by simp [absSum, hp.prod_eq]
    rw [e1, e2]
    exact h1

end Spec

namespace Spec

/-- A sum of `n` products of at most `p` factors each, in any order. -/
theorem SumOf.within {O : Operations} {ts : List (List ℝ)} {x : ℝ} (h : SumOf O.add O.mul O.fma ts x) {p : ℕ}
    (hp : ∀ t ∈ ts, t.length ≤ p) :
    Within O.u (ts.length + p) x (ts.map List.prod).sum (ts.map fun t => |t.prod|).sum :=
  (h.within_aux hp).2.mono O.u_nonneg (abs_exactSum ts) (by omega)

end Spec

namespace Hel.Rnd
open Spec

/-- The floating-point arithmetic with given operations, powers and an implementation of `einsum` which
adds the products in any order. -/
def Rounding.ofOperations (O : Operations) (pow : ℝ → ℝ → ℝ)
    (hpow : ∀ x y, 0 < x → |pow x y - x ^ y| ≤ ((1 + O.u) ^ 2 - 1) * x ^ y) (einsum : List (List ℝ) → ℝ)
    (h : ∀ ts, SumOf O.add O.mul O.fma ts (einsum ts)) : Rounding where
  u := O.u
  u_nonneg := O.u_nonneg
  add := O.add
  sub := O.sub
  mul := O.mul
  div := O.div
  sq x := O.mul x x
  pow := pow
  einsum := einsum
  add_error := O.add_error
  sub_error := O.sub_error
  mul_error := O.mul_error
  div_error := O.div_error
  sq_error x := by
    have h := O.mul_error x x
    have hu := O.u_nonneg
    rw [← pow_two] at h
    refine h.trans ?_
    rw [abs_of_nonneg (sq_nonneg x)]
    have : O.u ≤ (1 + O.u) ^ 2 - 1 := by nlinarith
    gcongr
  pow_error := hpow
  einsum_error ts p hp := (h ts).within hp

/-- The product of a list from left to right. -/
def productInOrder (mul : ℝ → ℝ → ℝ) : List ℝ → ℝ
  | [] => 1
  | a :: l => l.foldl mul a

/-- The sum of the products from left to right, starting with zero. -/
def inOrder (add mul : ℝ → ℝ → ℝ) (ts : List (List ℝ)) : ℝ :=
  ts.foldl (fun s t => add s (productInOrder mul t)) 0

theorem productOf_inOrder (mul : ℝ → ℝ → ℝ) (l : List ℝ) : ProductOf mul l (productInOrder mul l) := by
  cases l with
  | nil => exact .empty
  | cons a l =>
    have key : ∀ (l l₀ : List ℝ) (x : ℝ), l₀ ≠ [] → ProductOf mul l₀ x → ProductOf mul (l₀ ++ l) (l.foldl mul x) := by
      intro l
      induction l with
      | nil => intro l₀ x _ h; simpa using h
      | cons b l ih =>
        intro l₀ x hl h
        have := ih (l₀ ++ [b]) (mul x b) (by simp) (.mul hl (by simp) h (.single b))
        simpa using this
    exact key l [a] a (by simp) (.single a)

theorem sumOf_inOrder (add mul : ℝ → ℝ → ℝ) (fma : ℝ → ℝ → ℝ → ℝ) (ts : List (List ℝ)) :
    SumOf add mul fma ts (inOrder add mul ts) := by
  have key : ∀ (ts ts₀ : List (List ℝ)) (x : ℝ), SumOf add mul fma ts₀ x →
      SumOf add mul fma (ts₀ ++ ts) (ts.foldl (fun s t => add s (productInOrder mul t)) x) := by
    intro ts
    induction ts with
    | nil => intro ts₀ x h; simpa using h
    | cons t ts ih =>
      intro ts₀ x h
      have := ih (ts₀ ++ [t]) _ (.add h (.product (productOf_inOrder mul t)))
      simpa using this
  exact key ts [] 0 .zero

end Hel.Rnd
