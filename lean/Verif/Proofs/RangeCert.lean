import Verif.Model.Range
import Verif.Proofs.RangeNear
import Verif.Proofs.RoundingMaj

/-!
# Certified arithmetic with overflow and underflow

As `Proofs/RoundingCert`, with a bound `2 ^ e M ^ d` for all intermediate results.
-/

namespace Hel.Rnd

/-- A machine and a bound for the data. -/
structure Lim where
  K : Machine
  M : ℝ
  one_le : 1 ≤ M

namespace Lim

variable (T : Lim)

/-- `(1 + u) ^ b` -/
def E (b : ℕ) : ℝ := (1 + T.K.u) ^ b

/-- `2 ^ e M ^ d` -/
noncomputable def B (e d : ℕ) : ℝ := 2 ^ e * T.M ^ d

theorem one_le_u : 1 ≤ 1 + T.K.u := le_add_of_nonneg_right T.K.u_nonneg

theorem one_le_E (b : ℕ) : 1 ≤ T.E b := one_le_pow₀ T.one_le_u

theorem E_mono {b b' : ℕ} (h : b ≤ b') : T.E b ≤ T.E b' := pow_le_pow_right₀ T.one_le_u h

theorem E_add (b b' : ℕ) : T.E (b + b') = T.E b * T.E b' := pow_add _ _ _

theorem E_one : T.E 1 = 1 + T.K.u := pow_one _

@[simp] theorem E_zero : T.E 0 = 1 := pow_zero _

theorem one_le_B (e d : ℕ) : 1 ≤ T.B e d :=
  one_le_mul_of_one_le_of_one_le (one_le_pow₀ (by norm_num)) (one_le_pow₀ T.one_le)

theorem B_mono {e e' d d' : ℕ} (he : e ≤ e') (hd : d ≤ d') : T.B e d ≤ T.B e' d' := by
  have h1 : (2 : ℝ) ^ e ≤ 2 ^ e' := pow_le_pow_right₀ (by norm_num) he
  have h2 := pow_le_pow_right₀ T.one_le hd
  have := T.one_le
  unfold B
  gcongr

theorem B_add (e e' d d' : ℕ) : T.B (e + e') (d + d') = T.B e d * T.B e' d' := by
  unfold B; rw [pow_add, pow_add]; ring

theorem B_bits (e k d : ℕ) : T.B (e + k) d = 2 ^ k * T.B e d := by
  unfold B; rw [pow_add]; ring

end Lim

/-- A machine number `fl`, the exact number `ex` and a bound for the difference, provided that nothing overflows. -/
structure RCert (T : Lim) where
  fl : Option ℝ
  ex : ℝ
  m : ℝ
  b : ℕ
  e : ℕ
  d : ℕ
  maj : |ex| ≤ m
  size : m ≤ T.B e d
  ok : 2 * (T.E b * T.B e d) ≤ T.K.Ω → ∃ v, fl = some v ∧ |v - ex| ≤ (T.E b - 1) * m + T.K.η * (T.E b * T.B e d)

namespace RCert

variable {T : Lim}

theorem m_nonneg (x : RCert T) : 0 ≤ x.m := (abs_nonneg _).trans x.maj

theorem near (x : RCert T) (h : 2 * (T.E x.b * T.B x.e x.d) ≤ T.K.Ω) :
    ∃ v, x.fl = some v ∧ Near T.K.η v x.ex x.m (T.E x.b) (T.B x.e x.d) := by
  obtain ⟨v, h1, h2⟩ := x.ok h
  exact ⟨v, h1, T.K.η_nonneg, T.K.η_le, x.maj, x.size, T.one_le_E _, T.one_le_B _ _, h2⟩

/-- The condition for a number implies that for the numbers from which it is computed. -/
theorem fits {b e d b' e' d' : ℕ} (h : 2 * (T.E b' * T.B e' d') ≤ T.K.Ω) (hb : b ≤ b') (he : e ≤ e') (hd : d ≤ d') :
    2 * (T.E b * T.B e d) ≤ T.K.Ω := by
  have h1 := T.E_mono hb
  have h2 := T.B_mono he hd
  have := T.one_le_E b'
  have := T.one_le_B e d
  have : 0 ≤ T.E b' := by linarith
  refine le_trans ?_ h
  gcongr

/-- Given data with a bound. -/
def data (x : ℝ) (e d : ℕ) (h : |x| ≤ T.B e d) : RCert T where
  fl := some x
  ex := x
  m := |x|
  b := 0
  e := e
  d := d
  maj := le_rfl
  size := h
  ok _ := ⟨x, rfl, by
    have := T.K.η_nonneg
    have := T.one_le_B e d
    simp; positivity⟩

/-- The size of a literal or parameter: small numbers, numbers below the bound `M`, and others. -/
noncomputable def litSize (M x : ℝ) : ℕ × ℕ :=
  open Classical in if |x| ≤ 16 then (4, 0) else if |x| ≤ M then (0, 1) else (⌈|x|⌉₊, 0)

theorem litSize_le (x : ℝ) : |x| ≤ T.B (litSize T.M x).1 (litSize T.M x).2 := by
  unfold litSize Lim.B
  split
  · norm_num; linarith
  split
  · simpa
  · simp only [pow_zero, mul_one]
    refine (Nat.le_ceil _).trans ?_
    exact_mod_cast Nat.lt_two_pow_self.le

/-- A literal or parameter. -/
noncomputable def ofReal (x : ℝ) : RCert T := data x _ _ (litSize_le x)

/-- An operation with two operands and one rounding. -/
theorem op2 {x y : RCert T} {b e d : ℕ} {f : ℝ → ℝ → Option ℝ} {g : ℝ → ℝ → ℝ} {ex m k : ℝ}
    (hf : ∀ a c, (1 + T.K.u) * |g a c| + T.K.η ≤ T.K.Ω → ∃ v, f a c = some v ∧ |v - g a c| ≤ T.K.u * |g a c| + T.K.η)
    (hx : x.b ≤ b + 1) (hy : y.b ≤ b + 1) (hex : x.e ≤ e) (hey : y.e ≤ e) (hdx : x.d ≤ d) (hdy : y.d ≤ d)
    (hn : ∀ a c, Near T.K.η a x.ex x.m (T.E x.b) (T.B x.e x.d) → Near T.K.η c y.ex y.m (T.E y.b) (T.B y.e y.d) →
      Near T.K.η (g a c) ex m (T.E b) k) (hk : k + 1 ≤ T.B e d) (h : 2 * (T.E (b + 1) * T.B e d) ≤ T.K.Ω) :
    ∃ v, (x.fl.bind fun a => y.fl.bind fun c => f a c) = some v ∧ Near T.K.η v ex m (T.E (b + 1)) (T.B e d) := by
  obtain ⟨a, ha, hna⟩ := x.near (fits h hx hex hdx)
  obtain ⟨c, hc, hnc⟩ := y.near (fits h hy hey hdy)
  have hg := hn a c hna hnc
  have hu := T.one_le_u
  have e1 : (1 + T.K.u) * T.E b = T.E (b + 1) := by rw [add_comm b, T.E_add, T.E_one]
  obtain ⟨v, hv, hvn⟩ := hf a c (hg.range hu (by
    rw [e1]
    refine le_trans ?_ h
    have := T.one_le_E (b + 1)
    gcongr))
  refine ⟨v, by rw [ha, hc]; exact hv, ?_⟩
  have := hg.round (q := 1 + T.K.u) hu (by simpa using hvn)
  rw [e1] at this
  exact this.mono le_rfl hk

/-- `x + y` -/
noncomputable def add (x y : RCert T) : RCert T where
  fl := x.fl.bind fun a => y.fl.bind fun c => T.K.add a c
  ex := x.ex + y.ex
  m := x.m + y.m
  b := max x.b y.b + 1
  e := max x.e y.e + 2
  d := max x.d y.d
  maj := (abs_add_le _ _).trans (add_le_add x.maj y.maj)
  size := by
    rw [T.B_bits]
    have h1 := x.size.trans (T.B_mono (le_max_left x.e y.e) (le_max_left x.d y.d))
    have h2 := y.size.trans (T.B_mono (le_max_right x.e y.e) (le_max_right x.d y.d))
    have := T.one_le_B (max x.e y.e) (max x.d y.d)
    linarith
  ok h := by
    obtain ⟨v, h1, h2⟩ := op2 (x := x) (y := y) (g := fun a c => a + c) (ex := x.ex + y.ex) (m := x.m + y.m)
      (k := T.B (max x.e y.e) (max x.d y.d) + T.B (max x.e y.e) (max x.d y.d)) T.K.add_ok
      (by omega) (by omega) (by omega) (by omega) (le_max_left _ _) (le_max_right _ _)
      (fun a c ha hc => (ha.mono (T.E_mono (le_max_left _ _)) (T.B_mono (le_max_left x.e y.e) (le_max_left x.d y.d))).radd
        (hc.mono (T.E_mono (le_max_right _ _)) (T.B_mono (le_max_right x.e y.e) (le_max_right x.d y.d))))
      (by rw [T.B_bits]; linarith [T.one_le_B (max x.e y.e) (max x.d y.d)]) h
    exact ⟨v, h1, h2.err⟩

/-- `x - y` -/
noncomputable def sub (x y : RCert T) : RCert T where
  fl := x.fl.bind fun a => y.fl.bind fun c => T.K.sub a c
  ex := x.ex - y.ex
  m := x.m + y.m
  b := max x.b y.b + 1
  e := max x.e y.e + 2
  d := max x.d y.d
  maj := by
    rw [sub_eq_add_neg]
    refine (abs_add_le _ _).trans (add_le_add x.maj ?_)
    rw [abs_neg]; exact y.maj
  size := (add x y).size
  ok h := by
    obtain ⟨v, h1, h2⟩ := op2 (x := x) (y := y) (g := fun a c => a - c) (ex := x.ex - y.ex) (m := x.m + y.m)
      (k := T.B (max x.e y.e) (max x.d y.d) + T.B (max x.e y.e) (max x.d y.d)) T.K.sub_ok
      (by omega) (by omega) (by omega) (by omega) (le_max_left _ _) (le_max_right _ _)
      (fun a c ha hc => by
        rw [sub_eq_add_neg, sub_eq_add_neg]
        exact (ha.mono (T.E_mono (le_max_left _ _)) (T.B_mono (le_max_left x.e y.e) (le_max_left x.d y.d))).radd
          (hc.mono (T.E_mono (le_max_right _ _)) (T.B_mono (le_max_right x.e y.e) (le_max_right x.d y.d))).neg)
      (by rw [T.B_bits]; linarith [T.one_le_B (max x.e y.e) (max x.d y.d)]) h
    exact ⟨v, h1, h2.err⟩

/-- `x * y` -/
noncomputable def mul (x y : RCert T) : RCert T where
  fl := x.fl.bind fun a => y.fl.bind fun c => T.K.mul a c
  ex := x.ex * y.ex
  m := x.m * y.m
  b := x.b + y.b + 1
  e := x.e + y.e + 2
  d := x.d + y.d
  maj := by rw [abs_mul]; exact mul_le_mul x.maj y.maj (abs_nonneg _) x.m_nonneg
  size := by
    rw [T.B_bits, T.B_add]
    have h1 := mul_le_mul x.size y.size y.m_nonneg (by linarith [T.one_le_B x.e x.d])
    have := one_le_mul_of_one_le_of_one_le (T.one_le_B x.e x.d) (T.one_le_B y.e y.d)
    linarith
  ok h := by
    obtain ⟨v, h1, h2⟩ := op2 (x := x) (y := y) (g := fun a c => a * c) (ex := x.ex * y.ex) (m := x.m * y.m)
      (k := 3 * (T.B x.e x.d * T.B y.e y.d)) T.K.mul_ok
      (by omega) (by omega) (by omega) (by omega) (by omega) (by omega)
      (fun a c ha hc => by rw [T.E_add]; exact ha.rmul hc)
      (by
        rw [T.B_bits, T.B_add]
        have := one_le_mul_of_one_le_of_one_le (T.one_le_B x.e x.d) (T.one_le_B y.e y.d)
        linarith) h
    exact ⟨v, h1, h2.err⟩

/-- `x ** 2` -/
noncomputable def sq (x : RCert T) : RCert T where
  fl := x.fl.bind T.K.sq
  ex := x.ex ^ 2
  m := x.m ^ 2
  b := x.b + x.b + 2
  e := x.e + x.e + 2
  d := x.d + x.d
  maj := by rw [pow_two, pow_two]; exact (mul x x).maj
  size := by rw [pow_two]; exact (mul x x).size
  ok h := by
    obtain ⟨a, ha, hna⟩ := x.near (fits h (by omega) (by omega) (by omega))
    have hg := hna.rmul hna
    rw [← pow_two, ← pow_two, ← pow_two] at hg
    have hq : 1 ≤ (1 + T.K.u) ^ 2 := one_le_pow₀ T.one_le_u
    have e1 : (1 + T.K.u) ^ 2 * (T.E x.b * T.E x.b) = T.E (x.b + x.b + 2) := by
      rw [T.E_add, T.E_add, mul_comm]; rfl
    have hk : 3 * (T.B x.e x.d * T.B x.e x.d) + 1 ≤ T.B (x.e + x.e + 2) (x.d + x.d) := by
      rw [T.B_bits, T.B_add]
      have := one_le_mul_of_one_le_of_one_le (T.one_le_B x.e x.d) (T.one_le_B x.e x.d)
      linarith
    have e2 : |a ^ 2| = a ^ 2 := abs_of_nonneg (sq_nonneg a)
    obtain ⟨v, hv, hvn⟩ := T.K.sq_ok a (by
      have := hg.range (Ω := T.K.Ω) hq (by
        rw [e1]
        refine le_trans ?_ h
        have := T.one_le_E (x.b + x.b + 2)
        gcongr)
      rwa [e2] at this)
    have := hg.round hq (by rw [e2]; exact hvn)
    rw [e1] at this
    exact ⟨v, by rw [ha]; exact hv, (this.mono le_rfl hk).err⟩

/-- The division by a literal. -/
noncomputable def divNat (x : RCert T) (n : ℕ+) : RCert T where
  fl := x.fl.bind fun a => T.K.div a (n : ℕ)
  ex := x.ex / (n : ℕ)
  m := x.m / (n : ℕ)
  b := x.b + 1
  e := x.e + 1
  d := x.d
  maj := by
    rw [abs_div, Nat.abs_cast]
    exact div_le_div_of_nonneg_right x.maj (Nat.cast_nonneg _)
  size := by
    have h1 : (1 : ℝ) ≤ (n : ℕ) := by exact_mod_cast n.pos
    have h2 := div_le_self x.m_nonneg h1
    have := x.size
    have := T.one_le_B x.e x.d
    rw [T.B_bits]
    linarith
  ok h := by
    obtain ⟨a, ha, hna⟩ := x.near (fits h (by omega) (by omega) (by omega))
    have h1 : (1 : ℝ) ≤ (n : ℕ) := by exact_mod_cast n.pos
    have h0 : (0 : ℝ) < (n : ℕ) := by linarith
    have hg : Near T.K.η (a / (n : ℕ)) (x.ex / (n : ℕ)) (x.m / (n : ℕ)) (T.E x.b) (T.B x.e x.d) := by
      refine ⟨T.K.η_nonneg, T.K.η_le, ?_, (div_le_self x.m_nonneg h1).trans x.size, hna.oneE, hna.oneB, ?_⟩
      · rw [abs_div, Nat.abs_cast]
        exact div_le_div_of_nonneg_right x.maj (Nat.cast_nonneg _)
      · rw [← sub_div, abs_div, Nat.abs_cast, div_le_iff₀ h0]
        refine hna.err.trans ?_
        have hp : 0 ≤ T.K.η * (T.E x.b * T.B x.e x.d) := by
          have := T.K.η_nonneg
          have := hna.oneE
          have := hna.oneB
          positivity
        have e : ((T.E x.b - 1) * (x.m / (n : ℕ)) + T.K.η * (T.E x.b * T.B x.e x.d)) * (n : ℕ) =
          (T.E x.b - 1) * x.m + T.K.η * (T.E x.b * T.B x.e x.d) * (n : ℕ) := by field_simp
        rw [e]
        linarith [le_mul_of_one_le_right hp h1]
    have hu := T.one_le_u
    have e1 : (1 + T.K.u) * T.E x.b = T.E (x.b + 1) := by rw [add_comm x.b, T.E_add, T.E_one]
    have hk : T.B x.e x.d + 1 ≤ T.B (x.e + 1) x.d := by
      rw [T.B_bits]; linarith [T.one_le_B x.e x.d]
    obtain ⟨v, hv, hvn⟩ := T.K.div_ok a (n : ℕ) h0.ne' (hg.range hu (by
      rw [e1]
      refine le_trans ?_ h
      have := T.one_le_E (x.b + 1)
      gcongr))
    have := hg.round (q := 1 + T.K.u) hu (by simpa using hvn)
    rw [e1] at this
    exact ⟨v, by rw [ha]; exact hv, (this.mono le_rfl hk).err⟩

/-! ### sums of products -/

/-- The number of roundings of the factors. -/
def prodB (l : List (RCert T)) : ℕ := (l.map RCert.b).sum

/-- The size of a product. -/
def prodE (l : List (RCert T)) : ℕ := (l.map fun x => x.e + 2).sum

/-- The size of a product. -/
def prodD (l : List (RCert T)) : ℕ := (l.map RCert.d).sum

theorem near_prod (l : List (RCert T)) (h : ∀ x ∈ l, 2 * (T.E x.b * T.B x.e x.d) ≤ T.K.Ω) :
    ∃ vs, allFinite (l.map RCert.fl) = some vs ∧ vs.length = l.length ∧
      Near T.K.η vs.prod (l.map RCert.ex).prod (l.map RCert.m).prod (T.E (prodB l)) (T.B (prodE l) (prodD l)) ∧
      (vs.map fun x => max 1 |x|).prod ≤ T.E (prodB l) * T.B (prodE l) (prodD l) := by
  induction l with
  | nil =>
    refine ⟨[], rfl, rfl, ⟨T.K.η_nonneg, T.K.η_le, by simp, by simp [prodE, prodD, Lim.B], ?_, ?_, ?_⟩, ?_⟩
    · exact T.one_le_E _
    · exact T.one_le_B _ _
    · have := T.K.η_nonneg
      have := T.one_le_E (prodB ([] : List (RCert T)))
      have := T.one_le_B (prodE ([] : List (RCert T))) (prodD ([] : List (RCert T)))
      simp [prodB] at *
      positivity
    · simpa using one_le_mul_of_one_le_of_one_le (T.one_le_E _) (T.one_le_B _ _)
  | cons x l ih =>
    obtain ⟨vs, h1, h2, h3, h4⟩ := ih fun y hy => h y (List.mem_cons_of_mem _ hy)
    obtain ⟨v, hv, hn⟩ := x.near (h x List.mem_cons_self)
    have eE : T.E (prodB (x :: l)) = T.E x.b * T.E (prodB l) := by
      simp only [prodB, List.map_cons, List.sum_cons, T.E_add]
    have eB : T.B (prodE (x :: l)) (prodD (x :: l)) = 4 * (T.B x.e x.d * T.B (prodE l) (prodD l)) := by
      simp only [prodE, prodD, List.map_cons, List.sum_cons, T.B_add]
      rw [show T.B (x.e + 2) x.d = 2 ^ 2 * T.B x.e x.d from T.B_bits _ _ _]
      ring
    have p1 := one_le_mul_of_one_le_of_one_le hn.oneB h3.oneB
    refine ⟨v :: vs, by simp [allFinite, hv, h1], by simp [h2], ?_, ?_⟩
    · rw [eE, eB]
      simp only [List.prod_cons, List.map_cons]
      exact (hn.rmul h3).mono le_rfl (by linarith)
    · rw [eE, eB, List.map_cons, List.prod_cons]
      have h5 : max 1 |v| ≤ 2 * (T.E x.b * T.B x.e x.d) :=
        max_le (by have := one_le_mul_of_one_le_of_one_le hn.oneE hn.oneB; linarith) hn.abs_le'
      have h6 : 0 ≤ (vs.map fun x => max 1 |x|).prod :=
        List.prod_nonneg (by simp only [List.mem_map]; rintro a ⟨b, -, rfl⟩; positivity)
      have hE := hn.oneE
      have hB := hn.oneB
      calc _ ≤ 2 * (T.E x.b * T.B x.e x.d) * (T.E (prodB l) * T.B (prodE l) (prodD l)) :=
            mul_le_mul h5 h4 h6 (by positivity)
        _ ≤ 4 * (T.E x.b * T.B x.e x.d) * (T.E (prodB l) * T.B (prodE l) (prodD l)) := by
            have := h3.oneE
            have := h3.oneB
            gcongr
            norm_num
        _ = _ := by ring

/-- The number of roundings of a sum of products. -/
def sumB (ts : List (List (RCert T))) : ℕ := (ts.map prodB).foldr max 0

/-- The size of a sum of products. -/
def sumE (ts : List (List (RCert T))) : ℕ := (ts.map prodE).foldr (fun a s => max a s + 1) 0

/-- The size of a sum of products. -/
def sumD (ts : List (List (RCert T))) : ℕ := (ts.map prodD).foldr max 0

/-- The largest number of factors. -/
def width (ts : List (List (RCert T))) : ℕ := (ts.map List.length).foldr max 0

theorem le_width {ts : List (List (RCert T))} {t : List (RCert T)} (h : t ∈ ts) : t.length ≤ width ts := by
  induction ts with
  | nil => simp at h
  | cons s ts ih =>
    rcases List.mem_cons.1 h with rfl | h
    · exact le_max_left _ _
    · exact (ih h).trans (le_max_right _ _)

theorem b_le_prod {x : RCert T} {l : List (RCert T)} (h : x ∈ l) : x.b ≤ prodB l ∧ x.e ≤ prodE l ∧ x.d ≤ prodD l := by
  induction l with
  | nil => simp at h
  | cons y l ih =>
    simp only [prodB, prodE, prodD, List.map_cons, List.sum_cons] at *
    rcases List.mem_cons.1 h with rfl | h
    · omega
    · have := ih h; omega

theorem prod_le_sum {t : List (RCert T)} {ts : List (List (RCert T))} (h : t ∈ ts) :
    prodB t ≤ sumB ts ∧ prodE t ≤ sumE ts ∧ prodD t ≤ sumD ts := by
  induction ts with
  | nil => simp at h
  | cons s ts ih =>
    simp only [sumB, sumE, sumD, List.map_cons, List.foldr_cons] at *
    rcases List.mem_cons.1 h with rfl | h
    · omega
    · have := ih h; omega

/-- The exact sum of products of the given numbers. -/
theorem near_sum (ts : List (List (RCert T))) (h : ∀ t ∈ ts, ∀ x ∈ t, 2 * (T.E x.b * T.B x.e x.d) ≤ T.K.Ω) :
    ∃ vs, allFinite (ts.map fun t => allFinite (t.map RCert.fl)) = some vs ∧ vs.length = ts.length ∧
      (∀ p, (∀ t ∈ ts, t.length ≤ p) → ∀ v ∈ vs, v.length ≤ p) ∧
      Near T.K.η (vs.map List.prod).sum ((ts.map fun t => (t.map RCert.ex).prod)).sum ((ts.map fun t => (t.map RCert.m).prod)).sum
        (T.E (sumB ts)) (T.B (sumE ts) (sumD ts)) ∧
      (vs.map fun t => |t.prod|).sum ≤ T.E (sumB ts) * (ts.map fun t => (t.map RCert.m).prod).sum +
        T.K.η * (T.E (sumB ts) * T.B (sumE ts) (sumD ts)) ∧
      (vs.map fun t => (t.map fun x => max 1 |x|).prod).sum ≤ T.E (sumB ts) * T.B (sumE ts) (sumD ts) := by
  induction ts with
  | nil =>
    have h1 := T.one_le_E (sumB ([] : List (List (RCert T))))
    have h2 := T.one_le_B (sumE ([] : List (List (RCert T)))) (sumD ([] : List (List (RCert T))))
    have h3 := T.K.η_nonneg
    refine ⟨[], rfl, rfl, by simp, ⟨h3, T.K.η_le, by simp, by simp; linarith, h1, h2, by simp; positivity⟩, by simp; positivity,
      by simp; positivity⟩
  | cons t ts ih =>
    obtain ⟨vs, h1, h2, h3, h4, h5, h6⟩ := ih fun s hs => h s (List.mem_cons_of_mem _ hs)
    obtain ⟨v, g1, g2, g3, g4⟩ := near_prod t (h t List.mem_cons_self)
    have l1 : prodB t ≤ sumB (t :: ts) := (prod_le_sum List.mem_cons_self).1
    have l2 : sumB ts ≤ sumB (t :: ts) := le_max_right _ _
    have l3 : T.B (prodE t) (prodD t) + T.B (sumE ts) (sumD ts) ≤ T.B (sumE (t :: ts)) (sumD (t :: ts)) := by
      have e : T.B (sumE (t :: ts)) (sumD (t :: ts)) = 2 * T.B (max (prodE t) (sumE ts)) (max (prodD t) (sumD ts)) := by
        have := T.B_bits (max (prodE t) (sumE ts)) 1 (max (prodD t) (sumD ts))
        rw [pow_one] at this
        exact this
      rw [e]
      have a1 := T.B_mono (le_max_left (prodE t) (sumE ts)) (le_max_left (prodD t) (sumD ts))
      have a2 := T.B_mono (le_max_right (prodE t) (sumE ts)) (le_max_right (prodD t) (sumD ts))
      linarith
    have k1 := g3.mono (T.E_mono l1) le_rfl
    have k2 := h4.mono (T.E_mono l2) le_rfl
    have hη := T.K.η_nonneg
    have hE := T.one_le_E (sumB (t :: ts))
    refine ⟨v :: vs, by simp [allFinite, g1, h1], by simp [h2], ?_, ?_, ?_, ?_⟩
    · intro p hp w hw
      rcases List.mem_cons.1 hw with rfl | hw
      · rw [g2]; exact hp t List.mem_cons_self
      · exact h3 p (fun s hs => hp s (List.mem_cons_of_mem _ hs)) w hw
    · simp only [List.map_cons, List.sum_cons]
      exact (k1.radd k2).mono le_rfl l3
    · simp only [List.map_cons, List.sum_cons]
      have q1 := k1.abs_le
      have q2 : T.E (sumB ts) * (ts.map fun t => (t.map RCert.m).prod).sum + T.K.η * (T.E (sumB ts) * T.B (sumE ts) (sumD ts)) ≤
          T.E (sumB (t :: ts)) * (ts.map fun t => (t.map RCert.m).prod).sum +
            T.K.η * (T.E (sumB (t :: ts)) * T.B (sumE ts) (sumD ts)) := by
        have := T.E_mono l2
        have := h4.m_nonneg
        have := h4.oneB
        gcongr
      have q3 : T.K.η * (T.E (sumB (t :: ts)) * (T.B (prodE t) (prodD t) + T.B (sumE ts) (sumD ts))) ≤
          T.K.η * (T.E (sumB (t :: ts)) * T.B (sumE (t :: ts)) (sumD (t :: ts))) := by gcongr
      linarith
    · simp only [List.map_cons, List.sum_cons]
      have q1 : T.E (prodB t) * T.B (prodE t) (prodD t) ≤ T.E (sumB (t :: ts)) * T.B (prodE t) (prodD t) := by
        have := T.E_mono l1
        have := g3.oneB
        gcongr
      have q2 : T.E (sumB ts) * T.B (sumE ts) (sumD ts) ≤ T.E (sumB (t :: ts)) * T.B (sumE ts) (sumD ts) := by
        have := T.E_mono l2
        have := h4.oneB
        gcongr
      have q3 : T.E (sumB (t :: ts)) * (T.B (prodE t) (prodD t) + T.B (sumE ts) (sumD ts)) ≤
          T.E (sumB (t :: ts)) * T.B (sumE (t :: ts)) (sumD (t :: ts)) := by gcongr
      linarith

/-- The exact sum of products. -/
def sumEx (ts : List (List (RCert T))) : ℝ := (ts.map fun t => (t.map RCert.ex).prod).sum

/-- The majorant of a sum of products. -/
def sumM (ts : List (List (RCert T))) : ℝ := (ts.map fun t => (t.map RCert.m).prod).sum

theorem sum_size (ts : List (List (RCert T))) : |sumEx ts| ≤ sumM ts ∧ sumM ts ≤ T.B (sumE ts) (sumD ts) := by
  have hp : ∀ l : List (RCert T), |(l.map RCert.ex).prod| ≤ (l.map RCert.m).prod ∧ (l.map RCert.m).prod ≤ T.B (prodE l) (prodD l) := by
    intro l
    induction l with
    | nil => simp [prodE, prodD, Lim.B]
    | cons x l ih =>
      have h0 := (abs_nonneg _).trans ih.1
      simp only [List.map_cons, List.prod_cons, prodE, prodD, List.sum_cons]
      refine ⟨by rw [abs_mul]; exact mul_le_mul x.maj ih.1 (abs_nonneg _) x.m_nonneg, ?_⟩
      rw [T.B_add]
      have := T.one_le_B (x.e + 2) x.d
      exact mul_le_mul (x.size.trans (T.B_mono (by omega) le_rfl)) ih.2 h0 (by linarith)
  induction ts with
  | nil => simpa [sumEx, sumM] using (zero_le_one.trans (T.one_le_B _ _))
  | cons t ts ih =>
    obtain ⟨h1, h2⟩ := hp t
    obtain ⟨h3, h4⟩ := ih
    simp only [sumEx, sumM, List.map_cons, List.sum_cons] at *
    refine ⟨(abs_add_le _ _).trans (add_le_add h1 h3), ?_⟩
    have e : T.B (sumE (t :: ts)) (sumD (t :: ts)) = 2 * T.B (max (prodE t) (sumE ts)) (max (prodD t) (sumD ts)) := by
      have := T.B_bits (max (prodE t) (sumE ts)) 1 (max (prodD t) (sumD ts))
      rw [pow_one] at this
      exact this
    have a1 := T.B_mono (le_max_left (prodE t) (sumE ts)) (le_max_left (prodD t) (sumD ts))
    have a2 := T.B_mono (le_max_right (prodE t) (sumE ts)) (le_max_right (prodD t) (sumD ts))
    linarith

/-- A sum of products. -/
noncomputable def einsum (ts : List (List (RCert T))) : RCert T where
  fl := (allFinite (ts.map fun t => allFinite (t.map RCert.fl))).bind T.K.einsum
  ex := sumEx ts
  m := sumM ts
  b := sumB ts + (ts.length + width ts)
  e := sumE ts + (ts.length + 2 * width ts + 1)
  d := sumD ts
  maj := (sum_size ts).1
  size := (sum_size ts).2.trans (T.B_mono (by omega) le_rfl)
  ok h := by
    obtain ⟨vs, h1, h2, h3, h4, h5, h6⟩ := near_sum ts fun t ht x hx => by
      have := b_le_prod hx
      have := prod_le_sum ht
      exact fits h (by omega) (by omega) (by omega)
    set k := ts.length + width ts with hk
    set E := T.E (sumB ts) with hE
    set B := T.B (sumE ts) (sumD ts) with hB
    have hE1 := h4.oneE
    have hB1 := h4.oneB
    have hη := T.K.η_nonneg
    have hK : 1 ≤ T.E k := T.one_le_E k
    have e1 : T.E (sumB ts + k) = T.E k * E := by rw [T.E_add, mul_comm]
    have e2 : T.B (sumE ts + (ts.length + 2 * width ts + 1)) (sumD ts) = 2 * (2 ^ ts.length * 4 ^ width ts) * B := by
      rw [T.B_bits, pow_succ, pow_add, pow_mul]; norm_num; ring
    have hc : (1 : ℝ) ≤ 2 ^ ts.length * 4 ^ width ts :=
      one_le_mul_of_one_le_of_one_le (one_le_pow₀ (by norm_num)) (one_le_pow₀ (by norm_num))
    set c : ℝ := 2 ^ ts.length * 4 ^ width ts with hcdef
    rw [e1, e2] at h ⊢
    obtain ⟨v, hv, hvn⟩ := T.K.einsum_ok vs (width ts) (c * (E * B)) (h3 _ fun t ht => le_width ht)
      (by rw [h2]; gcongr) (by
        rw [h2]
        refine le_trans ?_ h
        change 2 * (T.E k * _) ≤ _
        have : T.E k * (c * (E * B)) ≤ T.E k * E * (2 * c * B) := by
          have : 0 ≤ T.E k * E * (c * B) := by positivity
          linarith
        linarith)
    refine ⟨v, by rw [h1]; exact hv, ?_⟩
    rw [h2] at hvn
    change |v - _| ≤ (T.E k - 1) * _ + T.K.η * (T.E k * _) at hvn
    have q1 := abs_add_le (v - (vs.map List.prod).sum) ((vs.map List.prod).sum - sumEx ts)
    rw [sub_add_sub_cancel] at q1
    have q2 : |(vs.map List.prod).sum - sumEx ts| ≤ (E - 1) * sumM ts + T.K.η * (E * B) := h4.err
    have q3 : (T.E k - 1) * (vs.map fun t => |t.prod|).sum ≤ (T.E k - 1) * (E * sumM ts + T.K.η * (E * B)) := by
      have : 0 ≤ T.E k - 1 := by linarith
      gcongr
      exact h5
    have e3 : (T.E k - 1) * (E * sumM ts + T.K.η * (E * B)) + T.K.η * (T.E k * (c * (E * B))) +
        ((E - 1) * sumM ts + T.K.η * (E * B)) =
      (T.E k * E - 1) * sumM ts + T.K.η * (T.E k * E * ((1 + c) * B)) := by ring
    have q4 : T.K.η * (T.E k * E * ((1 + c) * B)) ≤ T.K.η * (T.E k * E * (2 * c * B)) := by
      have : 1 + c ≤ 2 * c := by linarith
      gcongr
    linarith

/-- Certified arithmetic. -/
noncomputable instance : Arith (RCert T) where
  add := add
  sub := sub
  mul := mul
  lit := ofReal
  sq := sq
  divNat := divNat
  einsum := einsum

/-! ### homomorphisms -/

/-- The machine number. -/
def flo (x : RCert T) : Flo T.K := ⟨x.fl⟩

/-- The majorant. -/
def mc (x : RCert T) : Maj := ⟨x.m⟩

/-- The number of roundings. -/
def cnt (x : RCert T) : Cnt := ⟨0, x.b⟩

theorem hom_fl : IsHom (flo (T := T)) where
  add _ _ := rfl
  sub _ _ := rfl
  mul _ _ := rfl
  lit _ := rfl
  sq _ := rfl
  divNat _ _ := rfl
  einsum ts := by
    change (⟨(allFinite (ts.map fun t => allFinite (t.map fl))).bind T.K.einsum⟩ : Flo T.K) = ⟨(allFinite _).bind T.K.einsum⟩
    simp only [List.map_map, Function.comp_def, flo]

theorem hom_ex : IsHom (ex (T := T)) where
  add _ _ := rfl
  sub _ _ := rfl
  mul _ _ := rfl
  lit _ := rfl
  sq _ := rfl
  divNat _ _ := rfl
  einsum ts := by
    change sumEx ts = (List.map List.prod _).sum
    simp only [List.map_map, Function.comp_def, sumEx]

theorem hom_m : IsHom (mc (T := T)) where
  add _ _ := rfl
  sub _ _ := rfl
  mul _ _ := rfl
  lit _ := rfl
  sq _ := rfl
  divNat _ _ := rfl
  einsum ts := by
    change (⟨sumM ts⟩ : Maj) = ⟨(List.map List.prod _).sum⟩
    simp only [List.map_map, Function.comp_def, sumM, mc]

theorem hom_cnt : IsHom (cnt (T := T)) where
  add _ _ := rfl
  sub _ _ := rfl
  mul _ _ := rfl
  lit _ := rfl
  sq _ := rfl
  divNat _ _ := rfl
  einsum ts := by
    have hp : ∀ l : List (RCert T), (l.map cnt).foldr Cnt.plus ⟨0, 0⟩ = ⟨0, prodB l⟩ := by
      intro l
      induction l with
      | nil => rfl
      | cons x l ih => rw [List.map_cons, List.foldr_cons, ih]; simp [Cnt.plus, cnt, prodB]
    have hs : Cnt.factors (ts.map fun t => t.map cnt) = ⟨0, sumB ts⟩ := by
      induction ts with
      | nil => rfl
      | cons t ts ih =>
        unfold Cnt.factors at ih ⊢
        rw [List.map_cons, List.map_cons, List.foldr_cons, ih, hp]
        simp [Cnt.sup, sumB]
    have hw : Cnt.width (ts.map fun t => t.map cnt) = width ts := by
      unfold Cnt.width width
      simp [List.map_map, Function.comp_def]
    change (⟨0, sumB ts + (ts.length + width ts)⟩ : Cnt) =
      (Cnt.factors (ts.map fun t => t.map cnt)).more ((ts.map fun t => t.map cnt).length + Cnt.width (ts.map fun t => t.map cnt))
    rw [hs, hw, List.length_map]
    rfl

end RCert

/-- The size `2 ^ e M ^ d` of the intermediate results; `M` is the bound for the data. -/
structure Size (M : ℝ) where
  e : ℕ
  d : ℕ

namespace Size

variable {M : ℝ}

/-- The size of a product. -/
def prod (l : List (Size M)) : Size M := ⟨(l.map fun x => x.e + 2).sum, (l.map Size.d).sum⟩

/-- The size of a sum of products. -/
def sum (ts : List (List (Size M))) : Size M :=
  ⟨(ts.map fun t => (prod t).e).foldr (fun a s => max a s + 1) 0, (ts.map fun t => (prod t).d).foldr max 0⟩

/-- The largest number of factors. -/
def width (ts : List (List (Size M))) : ℕ := (ts.map List.length).foldr max 0

noncomputable instance : Arith (Size M) where
  add x y := ⟨max x.e y.e + 2, max x.d y.d⟩
  sub x y := ⟨max x.e y.e + 2, max x.d y.d⟩
  mul x y := ⟨x.e + y.e + 2, x.d + y.d⟩
  lit x := ⟨(RCert.litSize M x).1, (RCert.litSize M x).2⟩
  sq x := ⟨x.e + x.e + 2, x.d + x.d⟩
  divNat x _ := ⟨x.e + 1, x.d⟩
  einsum ts := ⟨(sum ts).e + (ts.length + 2 * width ts + 1), (sum ts).d⟩

end Size

/-- The size. -/
def RCert.sz {T : Lim} (x : RCert T) : Size T.M := ⟨x.e, x.d⟩

theorem RCert.hom_sz {T : Lim} : IsHom (RCert.sz (T := T)) where
  add _ _ := rfl
  sub _ _ := rfl
  mul _ _ := rfl
  lit _ := rfl
  sq _ := rfl
  divNat _ _ := rfl
  einsum ts := by
    change (⟨RCert.sumE ts + (ts.length + 2 * RCert.width ts + 1), RCert.sumD ts⟩ : Size T.M) =
      ⟨(Size.sum (ts.map fun t => t.map RCert.sz)).e + ((ts.map fun t => t.map RCert.sz).length +
        2 * Size.width (ts.map fun t => t.map RCert.sz) + 1), (Size.sum (ts.map fun t => t.map RCert.sz)).d⟩
    simp only [RCert.sumE, RCert.sumD, RCert.width, Size.sum, Size.width, Size.prod, RCert.prodE, RCert.prodD, List.map_map,
      Function.comp_def, RCert.sz, List.length_map]
    rfl

end Hel.Rnd
