import Verif.Spec.NonFinite
import Mathlib.Tactic.FinCases
import Mathlib.Tactic.Ring
import Mathlib.Tactic.Linarith
import Mathlib.Tactic.NormNum

/-! # Propagation of `inf` and `nan` -/

namespace Proofs.NonFin
open Hel Rnd Spec

theorem isFinite_or (x : Num) : (∃ r, x = .fin r) ∨ x = .inf ∨ x = .ninf ∨ x = .nan := by
  cases x <;> simp

theorem num_add_left {rnd x y} (h : ¬ Num.IsFinite x) : ¬ Num.IsFinite (Num.add rnd x y) := by
  cases x <;> cases y <;> simp_all [Num.IsFinite, Num.add]

theorem num_add_right {rnd x y} (h : ¬ Num.IsFinite y) : ¬ Num.IsFinite (Num.add rnd x y) := by
  cases x <;> cases y <;> simp_all [Num.IsFinite, Num.add]

theorem num_neg {x : Num} (h : ¬ Num.IsFinite x) : ¬ Num.IsFinite x.neg := by
  cases x <;> simp_all [Num.IsFinite, Num.neg]

theorem num_infTimes (x : ℝ) : ¬ Num.IsFinite (Num.infTimes x) := by
  unfold Num.infTimes; split_ifs <;> simp [Num.IsFinite]

theorem num_mul_left {rnd x y} (h : ¬ Num.IsFinite x) : ¬ Num.IsFinite (Num.mul rnd x y) := by
  cases x <;> cases y <;> simp_all [Num.IsFinite, Num.mul, -not_true_eq_false] <;>
    first | exact num_infTimes _ | exact num_neg (num_infTimes _) | trivial

theorem num_mul_right {rnd x y} (h : ¬ Num.IsFinite y) : ¬ Num.IsFinite (Num.mul rnd x y) := by
  cases x <;> cases y <;> simp_all [Num.IsFinite, Num.mul, -not_true_eq_false] <;>
    first | exact num_infTimes _ | exact num_neg (num_infTimes _) | trivial

theorem num_div_left {rnd x y} (h : ¬ Num.IsFinite x) : ¬ Num.IsFinite (Num.div rnd x y) := by
  cases x <;> cases y <;> simp_all [Num.IsFinite, Num.div] <;> split_ifs <;> trivial

theorem num_div_zero {rnd x} : ¬ Num.IsFinite (Num.div rnd x (.fin 0)) := by
  cases x <;> simp [Num.div, num_infTimes] <;> simp [Num.IsFinite]

variable {f : Format}

theorem notFinite_iff {x : Flt f} : NotFinite x ↔ ¬ x.num.IsFinite := by
  unfold NotFinite; rcases isFinite_or x.num with ⟨r, h⟩ | h | h | h <;> simp [h, Num.IsFinite]

variable {x y : Flt f}

theorem add_left (h : NotFinite x) : NotFinite (x + y) := notFinite_iff.2 (num_add_left (notFinite_iff.1 h))
theorem add_right (h : NotFinite y) : NotFinite (x + y) := notFinite_iff.2 (num_add_right (notFinite_iff.1 h))
theorem sub_left (h : NotFinite x) : NotFinite (x - y) := notFinite_iff.2 (num_add_left (notFinite_iff.1 h))
theorem sub_right (h : NotFinite y) : NotFinite (x - y) :=
  notFinite_iff.2 (num_add_right (num_neg (notFinite_iff.1 h)))
theorem mul_left (h : NotFinite x) : NotFinite (x * y) := notFinite_iff.2 (num_mul_left (notFinite_iff.1 h))
theorem mul_right (h : NotFinite y) : NotFinite (x * y) := notFinite_iff.2 (num_mul_right (notFinite_iff.1 h))
theorem sq_bad (h : NotFinite x) : NotFinite (sq x) := notFinite_iff.2 (num_mul_left (notFinite_iff.1 h))
theorem divNat_bad {n : ℕ+} (h : NotFinite x) : NotFinite (divNat x n) :=
  notFinite_iff.2 (num_div_left (notFinite_iff.1 h))
theorem div_left (h : NotFinite x) : NotFinite (div x y) := notFinite_iff.2 (num_div_left (notFinite_iff.1 h))
theorem div_nan (h : y.num = .nan) : NotFinite (div x y) := notFinite_iff.2 (by
  show ¬ Num.IsFinite (Num.div _ _ _); rw [h]; cases x.num <;> simp [Num.div, Num.IsFinite])
theorem div_zero (h : y.num = .fin 0) : NotFinite (div x y) := notFinite_iff.2 (by
  show ¬ Num.IsFinite (Num.div _ _ _); rw [h]; exact num_div_zero)

theorem einsum_bad {ts : List (List (Flt f))} {t : List (Flt f)} (ht : t ∈ ts) (hx : x ∈ t) (h : NotFinite x) :
    NotFinite (einsum ts) :=
  notFinite_iff.2 (f.einsum_nonfinite _ (t.map Flt.num) (List.mem_map.2 ⟨t, ht, rfl⟩) x.num
    (List.mem_map.2 ⟨x, hx, rfl⟩) (notFinite_iff.1 h))

theorem sum3_bad {t : Fin 3 → List (Flt f)} (k : Fin 3) (hx : x ∈ t k) (h : NotFinite x) : NotFinite (sum3 t) :=
  einsum_bad (t := t k) (by fin_cases k <;> simp) hx h

theorem sum6_bad {t : Fin 6 → List (Flt f)} (k : Fin 6) (hx : x ∈ t k) (h : NotFinite x) : NotFinite (sum6 t) :=
  einsum_bad (t := t k) (by fin_cases k <;> simp) hx h

theorem sum33_bad {t : Fin 3 → Fin 3 → List (Flt f)} (k l : Fin 3) (hx : x ∈ t k l) (h : NotFinite x) :
    NotFinite (sum33 t) :=
  einsum_bad (t := t k l) (by fin_cases k <;> fin_cases l <;> simp) hx h

/-! ### determinants -/

theorem cauchyGreen_diag {F : Full2 (Flt f)} {i : Fin 3} (j : Fin 3) (h : NotFinite (F i j)) :
    NotFinite (cauchyGreen F (tab j j)) := by
  have : cauchyGreen F (tab j j) = sum3 fun k => [F k j, F k j] := by fin_cases j <;> rfl
  rw [this]; exact sum3_bad i (x := F i j) (by simp) h

theorem det_bad {C : Vec6 (Flt f)} {j : Fin 3} (h : NotFinite (C (tab j j))) : NotFinite (Rnd.det C) := by
  unfold Rnd.det
  fin_cases j
  · exact sub_left (sub_left (sub_left (add_left (mul_left (mul_left h)))))
  · exact sub_left (sub_left (sub_left (add_left (mul_left (mul_right h)))))
  · exact sub_left (sub_left (sub_left (add_left (mul_right h))))

theorem ddot_bad_left {A B : Vec6 (Flt f)} (a : Fin 6) (h : NotFinite (A a)) : NotFinite (Rnd.ddot A B) :=
  sum6_bad a (by simp) h

theorem ddot_bad_right {A B : Vec6 (Flt f)} (a : Fin 6) (h : NotFinite (B a)) : NotFinite (Rnd.ddot A B) :=
  sum6_bad a (by simp) h

theorem trace_bad {A : Vec6 (Flt f)} (h : ∀ a, NotFinite (A a)) : NotFinite (Rnd.trace A) :=
  einsum_bad (t := [A 0]) (by simp) (List.mem_singleton.2 rfl) (h 0)

theorem pow_bad_neg {d : Flt f} (h : NotPositive d) (n : ℤ) (hn : n ∈ ({-2, -1} : Set ℤ)) :
    NotFinite (powThird n d) := by
  have hn' : n ∈ ({-2, -1, 1, 2} : Set ℤ) := by
    simp only [Set.mem_insert_iff, Set.mem_singleton_iff] at hn ⊢; tauto
  have e : (powThird n d).num = f.powThird n d.num := rfl
  unfold NotFinite
  rw [e]
  rcases h with h | ⟨r, h, hr⟩
  · rw [h, f.powThird_nan n hn']; simp
  · rw [h]
    rcases hr.lt_or_eq with hr | rfl
    · rw [f.powThird_neg n hn' r hr]; simp
    · rw [f.powThird_zero_neg n hn]; simp

theorem pow_bad_pos {d : Flt f} (h : NotFinite d ∨ ∃ r : ℝ, d.num = .fin r ∧ r < 0) (n : ℤ) (hn : n ∈ ({1, 2} : Set ℤ)) :
    NotFinite (powThird n d) := by
  have hn' : n ∈ ({-2, -1, 1, 2} : Set ℤ) := by
    simp only [Set.mem_insert_iff, Set.mem_singleton_iff] at hn ⊢; tauto
  have e : (powThird n d).num = f.powThird n d.num := rfl
  unfold NotFinite
  rw [e]
  rcases h with (h | h | h) | ⟨r, h, hr⟩
  · rw [h, (f.powThird_inf_pos n hn).1]; simp
  · rw [h, (f.powThird_inf_pos n hn).2]; simp
  · rw [h, f.powThird_nan n hn']; simp
  · rw [h, f.powThird_neg n hn' r hr]; simp

theorem sqrt_num {d : Flt f} (h : NotPositive d) : (sqrt d).num = .nan ∨ (sqrt d).num = .fin 0 := by
  have e : (sqrt d).num = Num.sqrt f.round d.num := rfl
  rw [e]
  rcases h with h | ⟨r, h, hr⟩
  · rw [h]; simp [Num.sqrt]
  · rw [h]
    rcases hr.lt_or_eq with hr | rfl
    · simp [Num.sqrt, hr]
    · simp [Num.sqrt]

theorem div_sqrt {d : Flt f} (h : NotPositive d) : NotFinite (div x (sqrt d)) := by
  rcases sqrt_num h with h | h
  · exact div_nan h
  · exact div_zero h

/-! ### the Piola transformation -/

theorem spaceStress_bad {cfg F S d} (h : ∀ a, NotFinite (S a)) : NowhereFinite (spaceStress (K := Flt f) cfg F S d) := by
  rcases cfg with ⟨fin, force, area⟩
  have h2 : ∀ i j, NotFinite (astensor S i j) := fun i j => h _
  cases fin
  · exact h
  · have h1 : ∀ i J, NotFinite ((match force with
      | none => fun i J => sum3 fun I => [F i I, astensor S I J]
      | some _ => astensor S : Full2 (Flt f)) i J) := by
      intro i J
      cases force
      · exact sum3_bad 0 (x := astensor S 0 J) (by simp) (h2 _ _)
      · exact h2 i J
    cases area
    · intro i j
      exact div_left (sum3_bad 0 (List.mem_cons_of_mem _ (List.mem_singleton.2 rfl)) (h1 i 0))
    · exact h1

theorem spaceElasticity_bad {cfg F S d C4} {invC : Vec6 (Flt f)} (h : ∀ a b, NotFinite (C4 a b)) :
    NowhereFinite4 (spaceElasticity (K := Flt f) cfg F S d C4 (some invC)) := by
  rcases cfg with ⟨fin, force, area⟩
  have h2 : ∀ i j k l, NotFinite (astensor4 C4 i j k l) := fun i j k l => h _ _
  cases fin
  · exact h
  · cases force
    · have h1 : ∀ i J k L, NotFinite ((sum33 fun I K => [F i I, F k K, astensor4 C4 I J K L]) + Rnd.cdya_ik Rnd.eye S i J k L) :=
        fun i J k L => add_left (sum33_bad 0 0 (x := astensor4 C4 0 J 0 L) (by simp) (h2 _ _ _ _))
      cases area
      · intro i j k l
        exact div_left (sum33_bad 0 0 (List.mem_cons_of_mem _ (List.mem_cons_of_mem _ (List.mem_singleton.2 rfl))) (h1 i 0 k 0))
      · exact h1
    · have h1 : ∀ i J k L, NotFinite (astensor4 C4 i J k L + Rnd.cdya_ik invC S i J k L) :=
        fun i J k L => add_left (h2 _ _ _ _)
      cases area
      · intro i j k l
        exact div_left (sum33_bad 0 0 (List.mem_cons_of_mem _ (List.mem_cons_of_mem _ (List.mem_singleton.2 rfl))) (h1 i 0 k 0))
      · exact h1

/-! ### the isochoric split -/

variable (mat : FMaterial (Flt f)) (F : Full2 (Flt f))

theorem dist_SbC (h : (∃ i j, NotFinite (F i j)) ∨ NotPositive (Rnd.det (cauchyGreen F))) :
    NotFinite (DistortionalF.SbC mat F) := by
  rcases h with ⟨i, j, h⟩ | h
  · exact ddot_bad_right (tab j j) (cauchyGreen_diag j h)
  · exact ddot_bad_left 0 (mul_left (mul_right (pow_bad_neg h (-1) (by simp))))

theorem dist_S (h : (∃ i j, NotFinite (F i j)) ∨ NotPositive (Rnd.det (cauchyGreen F))) (a : Fin 6) :
    NotFinite (DistortionalF.S mat F a) :=
  sub_right (mul_left (divNat_bad (dist_SbC mat F h)))

theorem dist_geo (h : (∃ i j, NotFinite (F i j)) ∨ NotPositive (Rnd.det (cauchyGreen F))) (a b : Fin 6) :
    NotFinite (DistortionalF.geo mat F a b) :=
  mul_right (add_left (sub_left (sub_left (mul_left (dist_SbC mat F h)))))

theorem dist_C4 (keep) (h : (∃ i j, NotFinite (F i j)) ∨ NotPositive (Rnd.det (cauchyGreen F))) (a b : Fin 6) :
    NotFinite (DistortionalF.C4 mat F keep a b) := by
  unfold DistortionalF.C4
  split_ifs
  · exact add_left (dist_geo mat F h a b)
  · exact dist_geo mat F h a b

theorem not_positive {d : Flt f} (h : ¬ IsPositive d) : (NotFinite d ∨ ∃ r : ℝ, d.num = .fin r ∧ r < 0) ∨ d.num = .fin 0 := by
  rcases isFinite_or d.num with ⟨r, e⟩ | e
  · have : r ≤ 0 := not_lt.1 fun hr => h ⟨r, e, hr⟩
    rcases this.lt_or_eq with hr | rfl
    · exact Or.inl (Or.inr ⟨r, e, hr⟩)
    · exact Or.inr e
  · exact Or.inl (Or.inl e)

theorem dil_cases (h : ¬ IsPositive (Rnd.det (cauchyGreen F))) :
    NotFinite (DilatationalF.trSb mat F) ∨ ∀ a, NotFinite (DilatationalF.invC F a) := by
  rcases not_positive h with h | h
  · exact Or.inl (trace_bad fun a => mul_left (mul_right (pow_bad_pos h 1 (by simp))))
  · exact Or.inr fun a => div_zero h

theorem dil_S (h : ¬ IsPositive (Rnd.det (cauchyGreen F))) (a : Fin 6) : NotFinite (DilatationalF.S mat F a) := by
  rcases dil_cases mat F h with h | h
  · exact mul_left (divNat_bad h)
  · exact mul_right (h a)

theorem dil_C4 (h : ¬ IsPositive (Rnd.det (cauchyGreen F))) (a b : Fin 6) : NotFinite (DilatationalF.C4 mat F a b) := by
  rcases dil_cases mat F h with h | h
  · exact sub_right (mul_left (mul_right h))
  · exact sub_left (divNat_bad (mul_right (mul_left (h a))))

/-! ### concrete formats -/

theorem foldl_mul_bad {rnd : ℝ → Num} (t : List Num) (a : Num) (h : ¬ a.IsFinite ∨ ∃ x ∈ t, ¬ Num.IsFinite x) :
    ¬ (t.foldl (Num.mul rnd) a).IsFinite := by
  induction t generalizing a with
  | nil => rcases h with h | ⟨x, hx, _⟩; exact h; simp at hx
  | cons y t ih =>
    refine ih _ ?_
    rcases h with h | ⟨x, hx, h⟩
    · exact Or.inl (num_mul_left h)
    · rcases List.mem_cons.1 hx with rfl | hx
      · exact Or.inl (num_mul_right h)
      · exact Or.inr ⟨x, hx, h⟩

theorem foldl_add_bad {rnd : ℝ → Num} (t : List Num) (a : Num) (h : ¬ a.IsFinite ∨ ∃ x ∈ t, ¬ Num.IsFinite x) :
    ¬ (t.foldl (Num.add rnd) a).IsFinite := by
  induction t generalizing a with
  | nil => rcases h with h | ⟨x, hx, _⟩; exact h; simp at hx
  | cons y t ih =>
    refine ih _ ?_
    rcases h with h | ⟨x, hx, h⟩
    · exact Or.inl (num_add_left h)
    · rcases List.mem_cons.1 hx with rfl | hx
      · exact Or.inl (num_add_right h)
      · exact Or.inr ⟨x, hx, h⟩

/-- A format for every rounding: the terms are summed one after the other. -/
noncomputable def formatOf (rnd : ℝ → Num) : Format where
  round := rnd
  einsum := sumOfProducts rnd
  powThird := powThirdOf rnd
  einsum_nonfinite ts t ht x hx h :=
    foldl_add_bad _ _ (Or.inr ⟨_, List.mem_map.2 ⟨t, ht, rfl⟩, foldl_mul_bad t _ (Or.inr ⟨x, hx, h⟩)⟩)
  powThird_nan n _ := rfl
  powThird_neg n _ x hx := by simp [powThirdOf, hx]
  powThird_zero_neg n hn := by
    simp only [Set.mem_insert_iff, Set.mem_singleton_iff] at hn
    rcases hn with rfl | rfl <;> simp [powThirdOf]
  powThird_zero_pos n hn := by
    simp only [Set.mem_insert_iff, Set.mem_singleton_iff] at hn
    rcases hn with rfl | rfl <;> simp [powThirdOf]
  powThird_inf_neg n hn := by
    simp only [Set.mem_insert_iff, Set.mem_singleton_iff] at hn
    rcases hn with rfl | rfl <;> simp [powThirdOf]
  powThird_inf_pos n hn := by
    simp only [Set.mem_insert_iff, Set.mem_singleton_iff] at hn
    rcases hn with rfl | rfl <;> simp [powThirdOf]

end Proofs.NonFin
