import Verif.Proofs.RangeCert

/-!
# Bounds for the intermediate results of the deformation space
-/

namespace Hel.Rnd

namespace Size

variable {M : ℝ}

@[simp] theorem e_add (x y : Size M) : (x + y).e = max x.e y.e + 2 := rfl
@[simp] theorem e_sub (x y : Size M) : (x - y).e = max x.e y.e + 2 := rfl
@[simp] theorem e_mul (x y : Size M) : (x * y).e = x.e + y.e + 2 := rfl
@[simp] theorem e_sq (x : Size M) : (sq x).e = x.e + x.e + 2 := rfl
@[simp] theorem e_divNat (x : Size M) (n : ℕ+) : (divNat x n).e = x.e + 1 := rfl
@[simp] theorem d_add (x y : Size M) : (x + y).d = max x.d y.d := rfl
@[simp] theorem d_sub (x y : Size M) : (x - y).d = max x.d y.d := rfl
@[simp] theorem d_mul (x y : Size M) : (x * y).d = x.d + y.d := rfl
@[simp] theorem d_sq (x : Size M) : (sq x).d = x.d + x.d := rfl
@[simp] theorem d_divNat (x : Size M) (n : ℕ+) : (divNat x n).d = x.d := rfl

/-- At most `2 ^ e M ^ d`. -/
def Le (x : Size M) (e d : ℕ) : Prop := x.e ≤ e ∧ x.d ≤ d

theorem Le.mono {x : Size M} {e d e' d' : ℕ} (h : Le x e d) (he : e ≤ e') (hd : d ≤ d') : Le x e' d' :=
  ⟨h.1.trans he, h.2.trans hd⟩

theorem le_add {x y : Size M} {e d : ℕ} (hx : Le x e d) (hy : Le y e d) : Le (x + y) (e + 2) d :=
  ⟨Nat.add_le_add_right (max_le hx.1 hy.1) 2, max_le hx.2 hy.2⟩

theorem le_sub {x y : Size M} {e d : ℕ} (hx : Le x e d) (hy : Le y e d) : Le (x - y) (e + 2) d :=
  ⟨Nat.add_le_add_right (max_le hx.1 hy.1) 2, max_le hx.2 hy.2⟩

theorem le_mul {x y : Size M} {e d e' d' : ℕ} (hx : Le x e d) (hy : Le y e' d') : Le (x * y) (e + e' + 2) (d + d') :=
  ⟨Nat.add_le_add_right (Nat.add_le_add hx.1 hy.1) 2, Nat.add_le_add hx.2 hy.2⟩

theorem le_sq {x : Size M} {e d : ℕ} (hx : Le x e d) : Le (sq x) (e + e + 2) (d + d) :=
  ⟨Nat.add_le_add_right (Nat.add_le_add hx.1 hx.1) 2, Nat.add_le_add hx.2 hx.2⟩

theorem le_divNat {x : Size M} {e d : ℕ} (hx : Le x e d) (n : ℕ+) : Le (divNat x n) (e + 1) d :=
  ⟨Nat.add_le_add_right hx.1 1, hx.2⟩

/-- A small literal. -/
theorem le_lit {x : ℝ} (h : |x| ≤ 16) : Le (lit x : Size M) 4 0 := by
  have : RCert.litSize M x = (4, 0) := if_pos h
  constructor
  · change (RCert.litSize M x).1 ≤ _; rw [this]
  · change (RCert.litSize M x).2 ≤ _; rw [this]

/-- A parameter. -/
theorem le_par {x : ℝ} (h : |x| ≤ M) : Le (lit x : Size M) 4 1 := by
  have : RCert.litSize M x = (4, 0) ∨ RCert.litSize M x = (0, 1) := by
    unfold RCert.litSize
    split
    · exact .inl rfl
    · exact .inr rfl
  rcases this with e | e
  · exact ⟨by change (RCert.litSize M x).1 ≤ _; rw [e], by change (RCert.litSize M x).2 ≤ _; rw [e]; norm_num⟩
  · exact ⟨by change (RCert.litSize M x).1 ≤ _; rw [e]; norm_num, by change (RCert.litSize M x).2 ≤ _; rw [e]⟩

theorem le_eye (i : Fin 6) : Le (eye i : Size M) 4 0 := by fin_cases i <;> exact le_lit (by norm_num)

theorem le_weights (i : Fin 6) : Le (weights i : Size M) 4 0 := by fin_cases i <;> exact le_lit (by norm_num)

theorem le_prod {l : List (Size M)} {e d : ℕ} (h : ∀ x ∈ l, Le x e d) : Le (prod l) (l.length * (e + 2)) (l.length * d) := by
  induction l with
  | nil => exact ⟨by simp [prod], by simp [prod]⟩
  | cons x l ih =>
    obtain ⟨h1, h2⟩ := h x (by simp)
    obtain ⟨h3, h4⟩ := ih fun y hy => h y (by simp [hy])
    simp only [prod, List.map_cons, List.sum_cons, List.length_cons, Nat.add_mul, one_mul] at h3 h4 ⊢
    exact ⟨by simp only; omega, by simp only; omega⟩

theorem le_einsum {ts : List (List (Size M))} {e d n p : ℕ} (h : ∀ t ∈ ts, Le (prod t) e d)
    (hn : ts.length ≤ n) (hp : ∀ t ∈ ts, t.length ≤ p) : Le (einsum ts) (e + 2 * n + 2 * p + 1) d := by
  have h1 : (sum ts).e ≤ e + ts.length ∧ (sum ts).d ≤ d := by
    clear hn hp
    induction ts with
    | nil => exact ⟨Nat.zero_le _, Nat.zero_le _⟩
    | cons t ts ih =>
      obtain ⟨h1, h2⟩ := h t (by simp)
      obtain ⟨h3, h4⟩ := ih fun y hy => h y (by simp [hy])
      simp only [sum, List.map_cons, List.foldr_cons, List.length_cons] at h3 h4 ⊢
      exact ⟨by omega, max_le h2 h4⟩
  have h2 : width ts ≤ p := by
    clear hn h h1
    induction ts with
    | nil => exact Nat.zero_le _
    | cons t ts ih => exact max_le (hp t (by simp)) (ih fun y hy => hp y (by simp [hy]))
  refine ⟨?_, h1.2⟩
  change (sum ts).e + (ts.length + 2 * width ts + 1) ≤ _
  have := h1.1
  omega

theorem le_sum6 {t : Fin 6 → List (Size M)} {e d p : ℕ} (h : ∀ i, Le (prod (t i)) e d) (hp : ∀ i, (t i).length ≤ p) :
    Le (sum6 t) (e + 12 + 2 * p + 1) d :=
  le_einsum (n := 6) (by intro s hs; simp at hs; rcases hs with rfl | rfl | rfl | rfl | rfl | rfl <;> exact h _) (by simp)
    (by intro s hs; simp at hs; rcases hs with rfl | rfl | rfl | rfl | rfl | rfl <;> exact hp _)

theorem le_sum3 {t : Fin 3 → List (Size M)} {e d p : ℕ} (h : ∀ i, Le (prod (t i)) e d) (hp : ∀ i, (t i).length ≤ p) :
    Le (sum3 t) (e + 6 + 2 * p + 1) d :=
  le_einsum (n := 3) (by intro s hs; simp at hs; rcases hs with rfl | rfl | rfl <;> exact h _) (by simp)
    (by intro s hs; simp at hs; rcases hs with rfl | rfl | rfl <;> exact hp _)

theorem le_sum33 {t : Fin 3 → Fin 3 → List (Size M)} {e d p : ℕ} (h : ∀ i j, Le (prod (t i j)) e d)
    (hp : ∀ i j, (t i j).length ≤ p) : Le (sum33 t) (e + 18 + 2 * p + 1) d :=
  le_einsum (n := 9) (by
      intro s hs; simp at hs
      rcases hs with rfl | rfl | rfl | rfl | rfl | rfl | rfl | rfl | rfl <;> exact h _ _) (by simp)
    (by
      intro s hs; simp at hs
      rcases hs with rfl | rfl | rfl | rfl | rfl | rfl | rfl | rfl | rfl <;> exact hp _ _)

theorem le_prod2 {x y : Size M} {e d e' d' : ℕ} (hx : Le x e d) (hy : Le y e' d') :
    Le (prod [x, y]) (e + e' + 4) (d + d') := by
  obtain ⟨h1, h2⟩ := hx
  obtain ⟨h3, h4⟩ := hy
  exact ⟨by simp [prod]; omega, by simp [prod]; omega⟩

theorem le_prod3 {x y z : Size M} {e d e' d' e'' d'' : ℕ} (hx : Le x e d) (hy : Le y e' d') (hz : Le z e'' d'') :
    Le (prod [x, y, z]) (e + e' + e'' + 6) (d + d' + d'') := by
  obtain ⟨h1, h2⟩ := hx
  obtain ⟨h3, h4⟩ := hy
  obtain ⟨h5, h6⟩ := hz
  exact ⟨by simp [prod]; omega, by simp [prod]; omega⟩

theorem le_trace {A : Vec6 (Size M)} {e d : ℕ} (h : ∀ i, Le (A i) e d) : Le (trace A) (e + 11) d :=
  (le_einsum (ts := [[A 0], [A 1], [A 2]]) (e := e + 2) (d := d) (n := 3) (p := 1)
    (by
      intro t ht; simp at ht
      rcases ht with rfl | rfl | rfl <;> exact ⟨by simp [prod]; exact (h _).1, by simp [prod]; exact (h _).2⟩) (by simp)
    (by intro t ht; simp at ht; rcases ht with rfl | rfl | rfl <;> simp)).mono (by omega) le_rfl

theorem le_ddot {A B : Vec6 (Size M)} {e d e' d' : ℕ} (h : ∀ i, Le (A i) e d) (h' : ∀ i, Le (B i) e' d') :
    Le (ddot A B) (e + e' + 29) (d + d') :=
  (le_sum6 (p := 3) (fun i => le_prod3 (h i) (h' i) (le_weights i)) fun i => le_rfl).mono (by omega) (by omega)

/-- The right Cauchy-Green tensor of given data. -/
theorem le_cauchyGreen {F : Full2 (Size M)} (hF : ∀ i j, Le (F i j) 0 1) (i : Fin 6) : Le (Rnd.cauchyGreen F i) 15 2 := by
  refine le_sum3 (e := 4) (p := 2) (fun k => ?_) fun k => le_rfl
  exact le_prod2 (hF _ _) (hF _ _)

section
variable {C : Vec6 (Size M)} (h : ∀ i, Le (C i) 15 2)
include h

theorem le_I1 : Le (trace C) 26 2 := le_trace h

theorem le_I2 : Le (I2 C) 62 4 :=
  (le_divNat (le_sub ((le_sq (le_trace h)).mono (e' := 59) (d' := 4) (by omega) (by omega)) (le_ddot h h)) 2).mono (by omega)
    (by omega)

theorem le_dI2dC (i : Fin 6) : Le (dI2dC C i) 34 2 :=
  (le_sub ((le_mul (le_trace h) (le_eye i)).mono (e' := 32) (d' := 2) (by omega) (by omega))
    ((h i).mono (by omega) (by omega))).mono (by omega) (by omega)

end

theorem le_addIf {c : Prop} [Decidable c] {x t : Size M} {e d : ℕ} (hx : Le x e d) (ht : Le t e d) :
    Le (addIf c x t) (e + 2) d := by
  unfold addIf
  split
  · exact le_add hx ht
  · exact hx.mono (by omega) le_rfl

theorem le_addTerm {x : Size M} {w : Option (Size M)} {t : Size M} {e d e₂ d₂ e₃ d₃ : ℕ} (hx : Le x e d)
    (hw : ∀ v ∈ w, Le v e₂ d₂) (ht : Le t e₃ d₃) (he : e₂ + e₃ + 2 ≤ e) (hd : d₂ + d₃ ≤ d) :
    Le (addTerm x w t) (e + 2) d := by
  cases w with
  | none => exact hx.mono (by omega) le_rfl
  | some v => exact le_add hx ((le_mul (hw v rfl) ht).mono he hd)

/-- The parameters and the value of the invariants in the undeformed state. -/
structure Small (M : ℝ) (p : TOD ℝ) : Prop where
  C10 : |p.C10| ≤ M
  C01 : |p.C01| ≤ M
  C11 : |p.C11| ≤ M
  C20 : |p.C20| ≤ M
  C30 : |p.C30| ≤ M
  undeformed : |p.undeformed| ≤ 16

section
variable {p : TOD ℝ} (hp : Small M p)
include hp

theorem le_d1 {I1 I2 : Size M} (h1 : Le I1 26 2) (h2 : Le I2 62 4) : ∀ w ∈ todD1 p I1 I2, Le w 76 5 := by
  intro w hw
  unfold todD1 at hw
  split at hw
  · simp only [Option.mem_def, Option.some.injEq] at hw
    subst hw
    have hu : Le (lit p.undeformed : Size M) 4 0 := le_lit hp.undeformed
    have l0 : Le (lit 0 : Size M) 4 1 := (le_lit (by norm_num)).mono le_rfl (by omega)
    have l2 : Le (lit 2 : Size M) 4 0 := le_lit (by norm_num)
    have l3 : Le (lit 3 : Size M) 4 0 := le_lit (by norm_num)
    refine le_addIf (le_addIf (le_addIf (e := 70) (d := 5) ((le_addIf l0 (le_par hp.C10)).mono (by omega) (by omega)) ?_) ?_) ?_
    · exact (le_mul (le_par hp.C11) (le_sub h2 (hu.mono (by omega) (by omega)))).mono (by omega) (by omega)
    · exact (le_mul (le_mul (le_par hp.C20) l2) (le_sub h1 (hu.mono (by omega) (by omega)))).mono (by omega) (by omega)
    · exact (le_mul (le_mul (le_par hp.C30) l3) (le_sq (le_sub h1 (hu.mono (by omega) (by omega))))).mono (by omega) (by omega)
  · simp at hw

theorem le_d2 {I1 : Size M} (h1 : Le I1 26 2) : ∀ w ∈ todD2 p I1, Le w 36 3 := by
  intro w hw
  unfold todD2 at hw
  split at hw
  · simp only [Option.mem_def, Option.some.injEq] at hw
    subst hw
    have hu : Le (lit p.undeformed : Size M) 4 0 := le_lit hp.undeformed
    have l0 : Le (lit 0 : Size M) 4 1 := (le_lit (by norm_num)).mono le_rfl (by omega)
    refine le_addIf (e := 34) ((le_addIf l0 (le_par hp.C01)).mono (by omega) (by omega)) ?_
    exact (le_mul (le_par hp.C11) (le_sub h1 (hu.mono (by omega) (by omega)))).mono (by omega) (by omega)
  · simp at hw

theorem le_d11 {I1 : Size M} (h1 : Le I1 26 2) : ∀ w ∈ todD11 p I1, Le w 42 3 := by
  intro w hw
  unfold todD11 at hw
  split at hw
  · simp only [Option.mem_def, Option.some.injEq] at hw
    subst hw
    have hu : Le (lit p.undeformed : Size M) 4 0 := le_lit hp.undeformed
    have l2 : Le (lit 2 : Size M) 4 0 := le_lit (by norm_num)
    have l6 : Le (lit 6 : Size M) 4 0 := le_lit (by norm_num)
    refine le_add (e := 40) ?_ ?_
    · exact (le_mul (le_par hp.C20) l2).mono (by omega) (by omega)
    · exact (le_mul (le_mul (le_par hp.C30) l6) (le_sub h1 (hu.mono (by omega) (by omega)))).mono (by omega) (by omega)
  · simp at hw

theorem le_d12 : ∀ w ∈ (todD12 p : Option (Size M)), Le w 4 1 := by
  intro w hw
  unfold todD12 at hw
  split at hw
  · simp only [Option.mem_def, Option.some.injEq] at hw
    subst hw
    exact le_par hp.C11
  · simp at hw

theorem le_invGrad {C : Vec6 (Size M)} (h : ∀ i, Le (C i) 15 2) (i : Fin 6) : Le (invGrad p C i) 86 5 :=
  le_addTerm (le_addTerm (e := 82) (d := 5) ((le_lit (by norm_num)).mono (by omega) (by omega))
    (le_d1 hp (le_I1 h) (le_I2 h)) (le_eye i) (by omega) (by omega))
    (le_d2 hp (le_I1 h)) (le_dI2dC h i) (by omega) (by omega)

theorem le_dya {A B : Vec6 (Size M)} {e d e' d' : ℕ} (h : ∀ i, Le (A i) e d) (h' : ∀ i, Le (B i) e' d') (i j : Fin 6) :
    Le (dya A B i j) (e + e' + 2) (d + d') := le_mul (h i) (h' j)

theorem le_cdyaSelf {A : Vec6 (Size M)} {e d : ℕ} (h : ∀ i, Le (A i) e d) (i j : Fin 6) :
    Le (cdyaSelf A i j) (e + e + 5) (d + d) :=
  le_divNat (le_add (le_mul (h _) (h _)) (le_mul (h _) (h _))) 2

theorem le_d2I2dCdC (i j : Fin 6) : Le (d2I2dCdC i j : Size M) 15 0 :=
  le_sub (e := 13) ((le_dya hp le_eye le_eye i j).mono (by omega) (by omega))
    ((le_cdyaSelf hp le_eye i j).mono (by omega) (by omega))

theorem le_invHess {C : Vec6 (Size M)} (h : ∀ i, Le (C i) 15 2) (i j : Fin 6) : Le (invHess p C i j) 59 3 := by
  have ht : Le (dya eye (dI2dC C) i j + dya (dI2dC C) eye i j) 42 2 :=
    le_add (e := 40) ((le_dya hp le_eye (le_dI2dC h) i j).mono (by omega) (by omega))
      ((le_dya hp (le_dI2dC h) le_eye i j).mono (by omega) (by omega))
  exact le_addTerm (le_addTerm (le_addTerm (e := 53) (d := 3) ((le_lit (by norm_num)).mono (by omega) (by omega))
    (le_d2 hp (le_I1 h)) (le_d2I2dCdC hp i j) (by omega) (by omega))
    (le_d11 hp (le_I1 h)) ((le_dya hp le_eye le_eye i j)) (by omega) (by omega))
    (le_d12 hp) ht (by omega) (by omega)

theorem le_defS {F : Full2 (Size M)} (hF : ∀ i j, Le (F i j) 0 1) (i : Fin 6) : Le (defS p F i) 92 5 :=
  (le_mul (le_lit (by norm_num)) (le_invGrad hp (le_cauchyGreen hF) i)).mono (by omega) (by omega)

theorem le_defGradient {F : Full2 (Size M)} (hF : ∀ i j, Le (F i j) 0 1) (i j : Fin 3) :
    Le (defGradient p F i j) 107 6 := by
  refine le_sum3 (e := 96) (p := 2) (fun k => ?_) fun k => le_rfl
  exact le_prod2 (hF i k) (le_defS hp hF (tab k j))

theorem le_defHessian {F : Full2 (Size M)} (hF : ∀ i j, Le (F i j) 0 1) (i j k l : Fin 3) :
    Le (defHessian p F i j k l) 100 5 := by
  have hC : ∀ a b, Le (lit 4 * invHess p (cauchyGreen F) a b) 65 3 := fun a b =>
    (le_mul (le_lit (by norm_num)) (le_invHess hp (le_cauchyGreen hF) a b)).mono (by omega) (by omega)
  refine le_add (e := 98) ?_ ?_
  · refine Le.mono (le_sum33 (e := 71) (d := 5) (p := 3) (fun I K => ?_) fun _ _ => le_rfl) (by omega) (by omega)
    exact le_prod3 (hF i I) (hF k K) (hC (tab I j) (tab K l))
  · exact (le_dya hp le_eye (le_defS hp hF) (tab i k) (tab j l)).mono (by omega) (by omega)

end

end Size

end Hel.Rnd
