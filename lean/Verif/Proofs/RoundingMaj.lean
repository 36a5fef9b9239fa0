import Verif.Spec.Rounding
import Verif.Proofs.RoundingExact

/-! The majorants of the programs of `Model/Rounding`, and their numbers of roundings. -/

namespace Hel.Rnd
open Spec

/-! ### majorants -/

namespace Maj

@[simp] theorem val_add (x y : Maj) : (x + y).val = x.val + y.val := rfl
@[simp] theorem val_sub (x y : Maj) : (x - y).val = x.val + y.val := rfl
@[simp] theorem val_mul (x y : Maj) : (x * y).val = x.val * y.val := rfl
@[simp] theorem val_lit (x : ℝ) : (lit x : Maj).val = |x| := rfl
@[simp] theorem val_sq (x : Maj) : (sq x).val = x.val ^ 2 := rfl
@[simp] theorem val_divNat (x : Maj) (n : ℕ+) : (divNat x n).val = x.val / (n : ℕ) := rfl
@[simp] theorem val_einsum (ts : List (List Maj)) :
    (einsum ts).val = ((ts.map fun t => t.map val).map List.prod).sum := rfl

/-- The numbers behind a vector of majorants. -/
def val6 (A : Vec6 Maj) : Vec6 ℝ := fun a => (A a).val

theorem val_trace (A : Vec6 Maj) : (trace A).val = Hel.trace (val6 A) := by
  simp [trace, Hel.trace, val6, add_assoc]

theorem val_det (A : Vec6 Maj) : (det A).val = detP (T2 (val6 A)) := by
  simp only [det, val_sub, val_add, val_mul, val_lit, val_sq]
  simp [detP, T2, astensor, tab, val6]
  ring

theorem val_dot (A B : Vec6 Maj) (i j : Fin 3) : (dot A B i j).val = (T2 (val6 A) * T2 (val6 B)) i j := by
  fin_cases i <;> fin_cases j <;>
    simp [dot, val6, T2, astensor, tab, Matrix.mul_apply, Fin.sum_univ_three]
  ring

theorem val_eye (a : Fin 6) : (eye a : Maj).val = Hel.eye a := by
  fin_cases a <;> simp [eye, Hel.eye]

theorem val_weights (a : Fin 6) : (weights a : Maj).val = Hel.weights a := by
  fin_cases a <;> simp [weights, Hel.weights]

theorem val_sum6 (t : Fin 6 → List Maj) : (sum6 t).val = ∑ i, ((t i).map val).prod := by
  simp [sum6, Fin.sum_univ_succ]

theorem val_sum3 (t : Fin 3 → List Maj) : (sum3 t).val = ∑ i, ((t i).map val).prod := by
  simp [sum3, Fin.sum_univ_succ]

theorem val_sum33 (t : Fin 3 → Fin 3 → List Maj) : (sum33 t).val = ∑ i, ∑ j, ((t i j).map val).prod := by
  simp [sum33, Fin.sum_univ_succ]
  ring

theorem val_ddot (A B : Vec6 Maj) : (ddot A B).val = Hel.ddot (val6 A) (val6 B) := by
  simp [ddot, val_sum6, Hel.ddot, val_weights, mul_assoc, val6]

/-- The numbers behind a matrix of majorants. -/
def val66 (A : Mat6 Maj) : Mat6 ℝ := fun a b => (A a b).val

theorem val_ddot44 (A B : Mat6 Maj) (i j : Fin 6) : (ddot44 A B i j).val = Hel.ddot44 (val66 A) (val66 B) i j := by
  simp [ddot44, val_sum6, Hel.ddot44, val_weights, mul_assoc, val66]

theorem val_ddot42 (A : Mat6 Maj) (B : Vec6 Maj) (i : Fin 6) :
    (ddot42 A B i).val = Hel.ddot42 (val66 A) (val6 B) i := by
  simp [ddot42, val_sum6, Hel.ddot42, val_weights, mul_assoc, val66, val6]

theorem val_ddot24 (A : Vec6 Maj) (B : Mat6 Maj) (i : Fin 6) :
    (ddot24 A B i).val = Hel.ddot24 (val6 A) (val66 B) i := by
  simp [ddot24, val_sum6, Hel.ddot24, val_weights, mul_assoc, val66, val6]

theorem val_dya (A B : Vec6 Maj) (a b : Fin 6) : (dya A B a b).val = Hel.dya (val6 A) (val6 B) a b := rfl

theorem val_cdya (A B : Vec6 Maj) (a b : Fin 6) : (cdya A B a b).val = Hel.cdya (val6 A) (val6 B) a b := by
  rw [← cdya_exact]; rfl

theorem val_cdyaSelf (A : Vec6 Maj) (a b : Fin 6) : (cdyaSelf A a b).val = Hel.cdyaSelf (val6 A) a b := by
  rw [← cdyaSelf_exact]; rfl

theorem val_cdya_ik (A B : Vec6 Maj) (i j k l : Fin 3) :
    (cdya_ik A B i j k l).val = Hel.cdya_ik (val6 A) (val6 B) i j k l := rfl

theorem val_cdya_il (A B : Vec6 Maj) (i j k l : Fin 3) :
    (cdya_il A B i j k l).val = Hel.cdya_il (val6 A) (val6 B) i j k l := rfl

theorem val_dev (A : Vec6 Maj) (a : Fin 6) : (dev A a).val = val6 A a + Hel.trace (val6 A) / 3 * Hel.eye a := by
  simp [dev, val_trace, val_eye, val6]

theorem val_inv (d : ℝ) (A : Vec6 Maj) (i j : Fin 3) :
    (inv (fun x => ⟨x.val / d⟩) A (tab i j)).val = cofP (T2 (val6 A)) i j / d := by
  fin_cases i <;> fin_cases j <;> simp [inv, tab, cofP, T2, astensor, val6] <;> ring

/-! ### third-order-deformation materials -/

/-- The parameters in the vocabulary of the specification. -/
def par (p : TOD ℝ) : TodPar := ⟨p.C10, p.C01, p.C11, p.C20, p.C30, p.undeformed⟩

theorem val_d1 (p : TOD ℝ) (x y : Maj) : ((todD1 p x y).map val).getD 0 = |p.C10| + |p.C11| * (y.val + |p.undeformed|) +
    2 * |p.C20| * (x.val + |p.undeformed|) + 3 * |p.C30| * (x.val + |p.undeformed|) ^ 2 := by
  unfold todD1 addIf
  by_cases h1 : p.C10 = 0 <;> by_cases h3 : p.C11 = 0 <;> by_cases h4 : p.C20 = 0 <;> by_cases h5 : p.C30 = 0 <;>
    simp [h1, h3, h4, h5, mul_comm (2 : ℝ), mul_comm (3 : ℝ)]

theorem val_d2 (p : TOD ℝ) (x : Maj) : ((todD2 p x).map val).getD 0 = |p.C01| + |p.C11| * (x.val + |p.undeformed|) := by
  unfold todD2 addIf
  by_cases h1 : p.C01 = 0 <;> by_cases h3 : p.C11 = 0 <;> simp [h1, h3]

theorem val_d11 (p : TOD ℝ) (x : Maj) :
    ((todD11 p x).map val).getD 0 = 2 * |p.C20| + 6 * |p.C30| * (x.val + |p.undeformed|) := by
  unfold todD11
  by_cases h1 : p.C20 = 0 <;> by_cases h3 : p.C30 = 0 <;> simp [h1, h3, mul_comm (2 : ℝ), mul_comm (6 : ℝ)]

theorem val_d12 (p : TOD ℝ) : ((todD12 p : Option Maj).map val).getD 0 = |p.C11| := by
  unfold todD12
  by_cases h1 : p.C11 = 0 <;> simp [h1]

theorem val_I2 (C : Vec6 Maj) : (I2 C).val = inv2P (T2 (val6 C)) := by
  have h := T2_ddot (val6 C) (val6 C)
  have hs : contract22 (T2 (val6 C)) (T2 (val6 C)) = (T2 (val6 C) * T2 (val6 C)).trace := by
    have := T2_inv2 (val6 C)
    rw [T2_ddot, T2_trace, inv2] at this
    linarith
  simp [I2, val_trace, val_ddot, inv2P, ← hs, ← h, T2_trace]

theorem val_dI2dC (C : Vec6 Maj) : T2 (val6 (dI2dC C)) = TodPar.dI2P (T2 (val6 C)) := by
  have : val6 (dI2dC C) = fun a => Hel.trace (val6 C) * Hel.eye a + val6 C a := by
    funext a
    simp [val6, dI2dC, val_trace, val_eye]
  rw [this, T2_add, T2_smul, T2_eye, T2_trace]
  rfl

theorem val_addTerm (x : Maj) (w : Option Maj) (t : Maj) :
    (addTerm x w t).val = x.val + (w.map val).getD 0 * t.val := by
  cases w <;> simp [addTerm]

theorem val_invGrad (p : TOD ℝ) (C : Vec6 Maj) : T2 (val6 (invGrad p C)) = (par p).gradP (T2 (val6 C)) := by
  have : val6 (invGrad p C) = fun a => (par p).w1 (T2 (val6 C)) * Hel.eye a +
      (par p).w2 (T2 (val6 C)) * val6 (dI2dC C) a := by
    funext a
    simp only [val6, invGrad, val_addTerm, val_eye, val_d1, val_d2, val_trace, val_I2, TodPar.w1, TodPar.w2, par,
      T2_trace, val_lit, abs_zero, zero_add]
  rw [this, T2_add, T2_smul, T2_smul, T2_eye, val_dI2dC]
  rfl

theorem val_invHess (p : TOD ℝ) (C : Vec6 Maj) :
    astensor4 (val66 (invHess p C)) = (par p).hessP (T2 (val6 C)) := by
  funext i j k l
  have he : val6 eye = Hel.eye := funext val_eye
  have h2 := congrFun (congrFun (congrFun (congrFun (T4_dya (Hel.eye : Vec6 ℝ) Hel.eye) i) j) k) l
  have h3 := congrFun (congrFun (congrFun (congrFun (T4_cdyaSelf (Hel.eye : Vec6 ℝ)) i) j) k) l
  have h4 := congrFun (congrFun (congrFun (congrFun (T4_dya (Hel.eye : Vec6 ℝ) (val6 (dI2dC C))) i) j) k) l
  have h5 := congrFun (congrFun (congrFun (congrFun (T4_dya (val6 (dI2dC C)) (Hel.eye : Vec6 ℝ)) i) j) k) l
  rw [val_dI2dC] at h4 h5
  rw [T2_eye] at h2 h3 h4 h5
  simp only [astensor4] at h2 h3 h4 h5 ⊢
  simp only [val66, invHess, val_addTerm, d2I2dCdC, val_sub, val_add, val_dya, val_cdyaSelf, he, h2, h3, h4, h5,
    val_d2, val_d11, val_d12, val_trace, T2_trace, TodPar.hessP, TodPar.w2, TodPar.w11, par, val_lit, abs_zero, zero_add]

/-- The numbers behind a tensor of majorants. -/
def val33 (A : Full2 Maj) : Ten2 ℝ := fun i j => (A i j).val

theorem val_cauchyGreen (F : Full2 Maj) : val6 (Rnd.cauchyGreen F) = Rnd.cauchyGreen (val33 F) := by
  funext a
  simp [val6, Rnd.cauchyGreen, asvoigt, val_sum3, sum3_exact, val33]

theorem val_piolaStress (F : Full2 Maj) (S : Vec6 Maj) (i J : Fin 3) :
    (Rnd.piolaStress F S i J).val = (val33 F * T2 (val6 S)) i J := by
  simp [Rnd.piolaStress, val_sum3, Matrix.mul_apply, T2, astensor, val33, val6]

theorem val_defS (p : TOD ℝ) (F : Full2 Maj) :
    T2 (val6 (defS p F)) = (2 : ℝ) • (par p).gradP (Spec.cauchyGreen (val33 F)) := by
  have : val6 (defS p F) = fun a => 2 * val6 (invGrad p (Rnd.cauchyGreen F)) a := by
    funext a
    simp [defS, val6]
  rw [this, T2_smul, val_invGrad, val_cauchyGreen, cauchyGreen_exact]

/-- The majorants of given data. -/
theorem val33_lit (F : Ten2 ℝ) : val33 (fun i j => lit (F i j)) = abs2 F := rfl

theorem val_defGradient (p : TOD ℝ) (F : Ten2 ℝ) (i J : Fin 3) :
    (defGradient p (fun i j => (lit (F i j) : Maj)) i J).val = (par p).stressP F i J := by
  rw [defGradient, val_piolaStress, val_defS]
  rfl

theorem val_defHessian (p : TOD ℝ) (F : Ten2 ℝ) (i J k L : Fin 3) :
    (defHessian p (fun i j => (lit (F i j) : Maj)) i J k L).val = (par p).elasticityP F i J k L := by
  have he : val6 eye = Hel.eye := funext val_eye
  have h : ∀ S : Vec6 ℝ, Hel.cdya_ik Hel.eye S i J k L = dyadIK (1 : Ten2 ℝ) (T2 S) i J k L := by
    intro S
    rw [← T2_eye]; rfl
  have h4 : ∀ I J K L, (astensor4 (fun a b => (lit 4 : Maj) * invHess p (Rnd.cauchyGreen fun i j => lit (F i j)) a b)
      I J K L).val = 4 * (par p).hessP (Spec.cauchyGreen (abs2 F)) I J K L := by
    intro I J K L
    have := congrFun (congrFun (congrFun (congrFun (val_invHess p (Rnd.cauchyGreen fun i j => lit (F i j))) I) J) K) L
    rw [val_cauchyGreen, cauchyGreen_exact, val33_lit] at this
    rw [← this]
    simp [astensor4, val66]
  simp only [defHessian, Rnd.piolaElasticity, val_add, val_sum33, val_cdya_ik, he, h, val_defS, val33_lit, List.map_cons,
    List.map_nil, List.prod_cons, List.prod_nil, h4, TodPar.elasticityP, val_lit, mul_one, mul_assoc]

end Maj

/-! ### numbers of roundings -/

namespace Cnt

@[simp] theorem a_add (x y : Cnt) : (x + y).a = max x.a y.a := rfl
@[simp] theorem a_sub (x y : Cnt) : (x - y).a = max x.a y.a := rfl
@[simp] theorem a_mul (x y : Cnt) : (x * y).a = x.a + y.a := rfl
@[simp] theorem a_lit (x : ℝ) : (lit x : Cnt).a = 0 := rfl
@[simp] theorem a_sq (x : Cnt) : (sq x).a = x.a + x.a := rfl
@[simp] theorem a_divNat (x : Cnt) (n : ℕ+) : (divNat x n).a = x.a := rfl
@[simp] theorem b_add (x y : Cnt) : (x + y).b = max x.b y.b + 1 := rfl
@[simp] theorem b_sub (x y : Cnt) : (x - y).b = max x.b y.b + 1 := rfl
@[simp] theorem b_mul (x y : Cnt) : (x * y).b = x.b + y.b + 1 := rfl
@[simp] theorem b_lit (x : ℝ) : (lit x : Cnt).b = 0 := rfl
@[simp] theorem b_sq (x : Cnt) : (sq x).b = x.b + x.b + 2 := rfl
@[simp] theorem b_divNat (x : Cnt) (n : ℕ+) : (divNat x n).b = x.b + 1 := rfl

/-- At most so many roundings. -/
def Le (x : Cnt) (a b : ℕ) : Prop := x.a ≤ a ∧ x.b ≤ b

theorem le_eye (i : Fin 6) : Le (eye i) 0 0 := by fin_cases i <;> exact ⟨le_rfl, le_rfl⟩

theorem le_weights (i : Fin 6) : Le (weights i) 0 0 := by fin_cases i <;> exact ⟨le_rfl, le_rfl⟩

theorem le_prod {l : List Cnt} {a b : ℕ} (h : ∀ x ∈ l, Le x a b) :
    Le (l.foldr plus ⟨0, 0⟩) (l.length * a) (l.length * b) := by
  induction l with
  | nil => exact ⟨le_rfl.trans (by simp), le_rfl.trans (by simp)⟩
  | cons x l ih =>
    obtain ⟨h1, h2⟩ := h x (by simp)
    obtain ⟨h3, h4⟩ := ih fun y hy => h y (by simp [hy])
    simp only [List.foldr_cons, List.length_cons, Nat.add_mul, one_mul]
    exact ⟨by change x.a + _ ≤ _; omega, by change x.b + _ ≤ _; omega⟩

theorem le_einsum {ts : List (List Cnt)} {a b n p : ℕ} (h : ∀ t ∈ ts, Le (t.foldr plus ⟨0, 0⟩) a b)
    (hn : ts.length ≤ n) (hp : ∀ t ∈ ts, t.length ≤ p) : Le (einsum ts) a (b + n + p) := by
  have h1 : Le (factors ts) a b := by
    clear hn hp
    induction ts with
    | nil => exact ⟨Nat.zero_le _, Nat.zero_le _⟩
    | cons t ts ih =>
      obtain ⟨h1, h2⟩ := h t (by simp)
      obtain ⟨h3, h4⟩ := ih fun y hy => h y (by simp [hy])
      exact ⟨max_le h1 h3, max_le h2 h4⟩
  have h2 : width ts ≤ p := by
    clear hn h h1
    induction ts with
    | nil => exact Nat.zero_le _
    | cons t ts ih => exact max_le (hp t (by simp)) (ih fun y hy => hp y (by simp [hy]))
  refine ⟨h1.1, ?_⟩
  change (factors ts).b + (ts.length + width ts) ≤ _
  have := h1.2
  omega

theorem le_trace {A : Vec6 Cnt} {a b : ℕ} (h : ∀ i, Le (A i) a b) : Le (trace A) a (b + 4) := by
  have := le_einsum (ts := [[A 0], [A 1], [A 2]]) (a := a) (b := b) (n := 3) (p := 1)
    (by intro t ht; simp at ht; rcases ht with rfl | rfl | rfl <;> exact h _) (by simp)
    (by intro t ht; simp at ht; rcases ht with rfl | rfl | rfl <;> simp)
  exact ⟨this.1, this.2⟩

theorem le_sum6 {t : Fin 6 → List Cnt} {a b p : ℕ} (h : ∀ i, Le ((t i).foldr plus ⟨0, 0⟩) a b)
    (hp : ∀ i, (t i).length ≤ p) : Le (sum6 t) a (b + 6 + p) :=
  le_einsum (by intro s hs; simp at hs; rcases hs with rfl | rfl | rfl | rfl | rfl | rfl <;> exact h _) (by simp)
    (by intro s hs; simp at hs; rcases hs with rfl | rfl | rfl | rfl | rfl | rfl <;> exact hp _)

theorem le_sum3 {t : Fin 3 → List Cnt} {a b p : ℕ} (h : ∀ i, Le ((t i).foldr plus ⟨0, 0⟩) a b)
    (hp : ∀ i, (t i).length ≤ p) : Le (sum3 t) a (b + 3 + p) :=
  le_einsum (by intro s hs; simp at hs; rcases hs with rfl | rfl | rfl <;> exact h _) (by simp)
    (by intro s hs; simp at hs; rcases hs with rfl | rfl | rfl <;> exact hp _)

theorem le_sum33 {t : Fin 3 → Fin 3 → List Cnt} {a b p : ℕ} (h : ∀ i j, Le ((t i j).foldr plus ⟨0, 0⟩) a b)
    (hp : ∀ i j, (t i j).length ≤ p) : Le (sum33 t) a (b + 9 + p) :=
  le_einsum (by
      intro s hs; simp at hs
      rcases hs with rfl | rfl | rfl | rfl | rfl | rfl | rfl | rfl | rfl <;> exact h _ _) (by simp)
    (by
      intro s hs; simp at hs
      rcases hs with rfl | rfl | rfl | rfl | rfl | rfl | rfl | rfl | rfl <;> exact hp _ _)

theorem le_ddot {A B : Vec6 Cnt} {a b a' b' : ℕ} (h : ∀ i, Le (A i) a b) (h' : ∀ i, Le (B i) a' b') :
    Le (ddot A B) (a + a') (b + b' + 9) := by
  refine le_sum6 (p := 3) (fun i => ?_) fun i => le_rfl
  obtain ⟨h1, h2⟩ := h i
  obtain ⟨h3, h4⟩ := h' i
  obtain ⟨h5, h6⟩ := le_weights i
  exact ⟨by change (A i).a + ((B i).a + ((weights i : Cnt).a + 0)) ≤ _; omega,
    by change (A i).b + ((B i).b + ((weights i : Cnt).b + 0)) ≤ _; omega⟩

theorem le_I2 {C : Vec6 Cnt} {a b : ℕ} (h : ∀ i, Le (C i) a b) : Le (I2 C) (2 * a) (2 * b + 12) := by
  obtain ⟨h1, h2⟩ := le_trace h
  obtain ⟨h3, h4⟩ := le_ddot h h
  constructor
  · simp only [I2, a_divNat, a_sub, a_sq]; omega
  · simp only [I2, b_divNat, b_sub, b_sq]; omega

theorem le_dI2dC {C : Vec6 Cnt} {a b : ℕ} (h : ∀ i, Le (C i) a b) (i : Fin 6) : Le (dI2dC C i) a (b + 6) := by
  obtain ⟨h1, h2⟩ := le_trace h
  obtain ⟨h3, h4⟩ := le_eye i
  obtain ⟨h5, h6⟩ := h i
  constructor
  · simp only [dI2dC, a_sub, a_mul]; omega
  · simp only [dI2dC, b_sub, b_mul]; omega

theorem le_addTerm {x : Cnt} {w : Option Cnt} {t : Cnt} {a b a₁ b₁ a₂ b₂ a₃ b₃ : ℕ} (hx : Le x a₁ b₁)
    (hw : ∀ v ∈ w, Le v a₂ b₂) (ht : Le t a₃ b₃) (h1 : a₁ ≤ a) (h2 : a₂ + a₃ ≤ a) (h3 : b₁ + 1 ≤ b) (h4 : b₂ + b₃ + 2 ≤ b) :
    Le (addTerm x w t) a b := by
  obtain ⟨hx1, hx2⟩ := hx
  obtain ⟨ht1, ht2⟩ := ht
  cases w with
  | none => exact ⟨by simp only [addTerm]; omega, by simp only [addTerm]; omega⟩
  | some v =>
    obtain ⟨hv1, hv2⟩ := hw v rfl
    constructor
    · simp only [addTerm, a_add, a_mul]; omega
    · simp only [addTerm, b_add, b_mul]; omega

theorem le_addIf {c : Prop} [Decidable c] {x t : Cnt} {a b : ℕ} (hx : Le x a b) (ht : Le t a b) :
    Le (addIf c x t) a (b + 1) := by
  obtain ⟨hx1, hx2⟩ := hx
  obtain ⟨ht1, ht2⟩ := ht
  unfold addIf
  split
  · exact ⟨max_le hx1 ht1, Nat.succ_le_succ (max_le hx2 ht2)⟩
  · exact ⟨hx1, hx2.trans (Nat.le_succ _)⟩

theorem Le.mono {x : Cnt} {a b a' b' : ℕ} (h : Le x a b) (ha : a ≤ a') (hb : b ≤ b') : Le x a' b' :=
  ⟨h.1.trans ha, h.2.trans hb⟩

theorem le_d1 (p : TOD ℝ) {I1 I2 : Cnt} {a b : ℕ} (h1 : Le I1 a (b + 4)) (h2 : Le I2 (2 * a) (2 * b + 12)) :
    ∀ w ∈ todD1 p I1 I2, Le w (2 * a) (2 * b + 17) := by
  intro w hw
  obtain ⟨h11, h12⟩ := h1
  obtain ⟨h21, h22⟩ := h2
  unfold todD1 at hw
  split at hw
  · simp only [Option.mem_def, Option.some.injEq] at hw
    subst hw
    refine le_addIf (le_addIf (le_addIf (b := 2 * b + 14) ((le_addIf (b := 0) ⟨?_, ?_⟩ ⟨?_, ?_⟩).mono le_rfl ?_) ⟨?_, ?_⟩)
      ⟨?_, ?_⟩) ⟨?_, ?_⟩ <;> (try simp only [a_lit, b_lit, a_mul, b_mul, a_sub, b_sub, a_sq, b_sq]) <;> omega
  · simp at hw

theorem le_d2 (p : TOD ℝ) {I1 : Cnt} {a b : ℕ} (h1 : Le I1 a (b + 4)) :
    ∀ w ∈ todD2 p I1, Le w a (b + 7) := by
  intro w hw
  obtain ⟨h11, h12⟩ := h1
  unfold todD2 at hw
  split at hw
  · simp only [Option.mem_def, Option.some.injEq] at hw
    subst hw
    refine le_addIf (b := b + 6) ((le_addIf (b := 0) ⟨?_, ?_⟩ ⟨?_, ?_⟩).mono le_rfl ?_) ⟨?_, ?_⟩ <;>
      (try simp only [a_lit, b_lit, a_mul, b_mul, a_sub, b_sub]) <;> omega
  · simp at hw

theorem le_d11 (p : TOD ℝ) {I1 : Cnt} {a b : ℕ} (h1 : Le I1 a (b + 4)) :
    ∀ w ∈ todD11 p I1, Le w a (b + 8) := by
  intro w hw
  obtain ⟨h11, h12⟩ := h1
  unfold todD11 at hw
  split at hw
  · simp only [Option.mem_def, Option.some.injEq] at hw
    subst hw
    constructor <;> simp only [a_lit, b_lit, a_add, b_add, a_mul, b_mul, a_sub, b_sub] <;> omega
  · simp at hw

theorem le_d12 (p : TOD ℝ) : ∀ w ∈ (todD12 p : Option Cnt), Le w 0 0 := by
  intro w hw
  unfold todD12 at hw
  split at hw
  · simp only [Option.mem_def, Option.some.injEq] at hw
    subst hw
    exact ⟨le_rfl, le_rfl⟩
  · simp at hw

theorem le_invGrad (p : TOD ℝ) {C : Vec6 Cnt} {a b : ℕ} (h : ∀ i, Le (C i) a b) (i : Fin 6) :
    Le (invGrad p C i) (2 * a) (2 * b + 20) :=
  le_addTerm (le_addTerm (b := 2 * b + 19) (a := 2 * a) (x := lit 0) (a₁ := 0) (b₁ := 0) ⟨le_rfl, le_rfl⟩
    (le_d1 p (le_trace h) (le_I2 h)) (le_eye i) (by omega) (by omega) (by omega) (by omega))
    (le_d2 p (le_trace h)) (le_dI2dC h i) (by omega) (by omega) (by omega) (by omega)

theorem le_d2I2dCdC (i j : Fin 6) : Le (d2I2dCdC i j) 0 4 := by
  fin_cases i <;> fin_cases j <;> exact ⟨Nat.le_of_ble_eq_true rfl, Nat.le_of_ble_eq_true rfl⟩

theorem le_dya {A B : Vec6 Cnt} {a b a' b' : ℕ} (h : ∀ i, Le (A i) a b) (h' : ∀ i, Le (B i) a' b') (i j : Fin 6) :
    Le (dya A B i j) (a + a') (b + b' + 1) := by
  obtain ⟨h1, h2⟩ := h i
  obtain ⟨h3, h4⟩ := h' j
  exact ⟨by simp only [dya, a_mul]; omega, by simp only [dya, b_mul]; omega⟩

theorem le_invHess (p : TOD ℝ) {C : Vec6 Cnt} {a b : ℕ} (h : ∀ i, Le (C i) a b) (i j : Fin 6) :
    Le (invHess p C i j) a (b + 15) := by
  have he := le_dya le_eye le_eye i j
  obtain ⟨h1, h2⟩ := le_dya le_eye (le_dI2dC h) i j
  obtain ⟨h3, h4⟩ := le_dya (le_dI2dC h) le_eye i j
  have ht : Le (dya eye (dI2dC C) i j + dya (dI2dC C) eye i j) a (b + 8) :=
    ⟨by simp only [a_add]; omega, by simp only [b_add]; omega⟩
  exact le_addTerm (le_addTerm (b := b + 14) (a := a) (le_addTerm (b := b + 13) (a := a) (x := lit 0) (a₁ := 0) (b₁ := 0)
    ⟨le_rfl, le_rfl⟩ (le_d2 p (le_trace h)) (le_d2I2dCdC i j) (by omega) (by omega) (by omega) (by omega))
    (le_d11 p (le_trace h)) he (by omega) (by omega) (by omega) (by omega))
    (le_d12 p) ht (by omega) (by omega) (by omega) (by omega)

/-- The right Cauchy-Green tensor of given data. -/
theorem le_cauchyGreen (F : Full2 Cnt) (hF : ∀ i j, Le (F i j) 0 0) (i : Fin 6) : Le (Rnd.cauchyGreen F i) 0 5 := by
  refine le_sum3 (p := 2) (b := 0) (fun k => ?_) fun k => le_rfl
  exact (le_prod (a := 0) (b := 0) (by simp [hF])).mono (by simp) (by simp)

theorem le_piolaStress {F : Full2 Cnt} (hF : ∀ i j, Le (F i j) 0 0) {S : Vec6 Cnt} {a b : ℕ} (hS : ∀ i, Le (S i) a b)
    (i j : Fin 3) : Le (Rnd.piolaStress F S i j) a (b + 5) := by
  refine le_sum3 (p := 2) (b := b) (fun k => ?_) fun k => le_rfl
  obtain ⟨h1, h2⟩ := hF i k
  obtain ⟨h3, h4⟩ := hS (tab k j)
  exact ⟨by change (F i k).a + ((S (tab k j)).a + 0) ≤ _; omega, by change (F i k).b + ((S (tab k j)).b + 0) ≤ _; omega⟩

theorem le_defS (p : TOD ℝ) {F : Full2 Cnt} (hF : ∀ i j, Le (F i j) 0 0) (i : Fin 6) : Le (defS p F i) 0 31 := by
  obtain ⟨h1, h2⟩ := le_invGrad p (le_cauchyGreen F hF) i
  exact ⟨by simp only [defS, a_mul, a_lit]; omega, by simp only [defS, b_mul, b_lit]; omega⟩

theorem le_defGradient (p : TOD ℝ) {F : Full2 Cnt} (hF : ∀ i j, Le (F i j) 0 0) (i j : Fin 3) :
    Le (defGradient p F i j) 0 36 := le_piolaStress hF (le_defS p hF) i j

theorem le_piolaElasticity {F : Full2 Cnt} (hF : ∀ i j, Le (F i j) 0 0) {S : Vec6 Cnt} {C4 : Mat6 Cnt} {a b a' b' : ℕ}
    (hS : ∀ i, Le (S i) a b) (hC : ∀ i j, Le (C4 i j) a' b') (i j k l : Fin 3) :
    Le (Rnd.piolaElasticity F S C4 i j k l) (max a a') (max (b + 1) (b' + 12) + 1) := by
  have h1 : Le (sum33 fun I K => [F i I, F k K, astensor4 C4 I j K l]) a' (b' + 12) := by
    refine le_sum33 (p := 3) (b := b') (fun I K => ?_) fun I K => le_rfl
    obtain ⟨h1, h2⟩ := hF i I
    obtain ⟨h3, h4⟩ := hF k K
    obtain ⟨h5, h6⟩ := hC (tab I j) (tab K l)
    exact ⟨by change (F i I).a + ((F k K).a + ((C4 (tab I j) (tab K l)).a + 0)) ≤ _; omega,
      by change (F i I).b + ((F k K).b + ((C4 (tab I j) (tab K l)).b + 0)) ≤ _; omega⟩
  obtain ⟨h2, h3⟩ : Le (Rnd.cdya_ik eye S i j k l) a (b + 1) :=
    (le_dya le_eye hS (tab i k) (tab j l)).mono (by omega) (by omega)
  obtain ⟨h4, h5⟩ := h1
  exact ⟨by simp only [Rnd.piolaElasticity, a_add]; omega, by simp only [Rnd.piolaElasticity, b_add]; omega⟩

theorem le_defHessian (p : TOD ℝ) {F : Full2 Cnt} (hF : ∀ i j, Le (F i j) 0 0) (i j k l : Fin 3) :
    Le (defHessian p F i j k l) 0 34 := by
  refine (le_piolaElasticity hF (le_defS p hF) (a' := 0) (b' := 21) (fun a b => ?_) i j k l).mono (by simp) (by simp)
  obtain ⟨h1, h2⟩ := le_invHess p (le_cauchyGreen F hF) a b
  exact ⟨by simp only [a_mul, a_lit]; omega, by simp only [b_mul, b_lit]; omega⟩

end Cnt

end Hel.Rnd
