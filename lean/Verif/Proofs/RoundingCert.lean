import Mathlib.Tactic.Positivity
import Mathlib.Tactic.Linarith
import Mathlib.Tactic.Ring
import Mathlib.Tactic.GCongr
import Mathlib.Tactic.FinCases
import Mathlib.Tactic.FieldSimp
import Verif.Model.Rounding

/-!
# Certified arithmetic: a rounded number, the exact number and a bound for their difference

The programs of `Model/Rounding` are generic in the arithmetic.  Running them with numbers of the
type `Cert T` computes the rounded value, the exact value, a majorant `m` of the exact value and the
numbers `a`, `b` of roundings, and the kernel checks on the way that
`|fl - ex| ≤ (q ^ a (1 + u) ^ b - 1) m`.
-/

namespace Hel.Rnd

/-- A floating-point arithmetic and a second factor `q`, used for the relative errors of quantities
which are not computed by the four basic operations. -/
structure Ctx where
  R : Rounding
  q : ℝ
  one_le : 1 ≤ q

namespace Ctx

variable (T : Ctx)

/-- `q ^ a (1 + u) ^ b` -/
def E (a b : ℕ) : ℝ := T.q ^ a * (1 + T.R.u) ^ b

theorem one_le_u : 1 ≤ 1 + T.R.u := le_add_of_nonneg_right T.R.u_nonneg

theorem one_le_E (a b : ℕ) : 1 ≤ T.E a b :=
  one_le_mul_of_one_le_of_one_le (one_le_pow₀ T.one_le) (one_le_pow₀ T.one_le_u)

theorem E_mono {a a' b b' : ℕ} (ha : a ≤ a') (hb : b ≤ b') : T.E a b ≤ T.E a' b' := by
  have h1 := pow_le_pow_right₀ T.one_le ha
  have h2 := pow_le_pow_right₀ T.one_le_u hb
  have := T.one_le_u
  have := T.one_le
  unfold E
  gcongr

theorem E_add (a a' b b' : ℕ) : T.E (a + a') (b + b') = T.E a b * T.E a' b' := by
  unfold E; rw [pow_add, pow_add]; ring

theorem E_succ (a b k : ℕ) : T.E a (b + k) = T.E a b * (1 + T.R.u) ^ k := by
  unfold E; rw [pow_add]; ring

@[simp] theorem E_zero : T.E 0 0 = 1 := by simp [E]

end Ctx

/-- A rounded number `fl`, the exact number `ex` and a bound for the difference. -/
structure Cert (T : Ctx) where
  fl : ℝ
  ex : ℝ
  m : ℝ
  a : ℕ
  b : ℕ
  maj : |ex| ≤ m
  err : |fl - ex| ≤ (T.E a b - 1) * m

namespace Cert

variable {T : Ctx}

theorem m_nonneg (x : Cert T) : 0 ≤ x.m := (abs_nonneg _).trans x.maj

theorem fl_le (x : Cert T) : |x.fl| ≤ T.E x.a x.b * x.m := by
  have := abs_add_le (x.fl - x.ex) x.ex
  rw [sub_add_cancel] at this
  linarith [x.maj, x.err]

theorem err_mono (x : Cert T) {a b : ℕ} (ha : x.a ≤ a) (hb : x.b ≤ b) : |x.fl - x.ex| ≤ (T.E a b - 1) * x.m :=
  x.err.trans (mul_le_mul_of_nonneg_right (sub_le_sub_right (T.E_mono ha hb) _) x.m_nonneg)

/-- One more rounding. -/
theorem round {a b k : ℕ} {y' y x m M : ℝ} (h1 : |y' - y| ≤ ((1 + T.R.u) ^ k - 1) * M) (hM : M ≤ T.E a b * m)
    (h2 : |y - x| ≤ (T.E a b - 1) * m) : |y' - x| ≤ (T.E a (b + k) - 1) * m := by
  have hk : 0 ≤ (1 + T.R.u) ^ k - 1 := sub_nonneg.2 (one_le_pow₀ T.one_le_u)
  have h3 := abs_add_le (y' - y) (y - x)
  rw [sub_add_sub_cancel] at h3
  rw [T.E_succ]
  have := mul_le_mul_of_nonneg_left hM hk
  nlinarith

theorem round1 {a b : ℕ} {y' y x m : ℝ} (h1 : |y' - y| ≤ T.R.u * |y|) (hM : |y| ≤ T.E a b * m)
    (h2 : |y - x| ≤ (T.E a b - 1) * m) : |y' - x| ≤ (T.E a (b + 1) - 1) * m :=
  round (k := 1) (by simpa using h1) hM h2

/-- Given data. -/
def ofReal (x : ℝ) : Cert T where
  fl := x
  ex := x
  m := |x|
  a := 0
  b := 0
  maj := le_rfl
  err := by simp

/-- An addition without rounding. -/
def radd (x y : Cert T) : Cert T where
  fl := x.fl + y.fl
  ex := x.ex + y.ex
  m := x.m + y.m
  a := max x.a y.a
  b := max x.b y.b
  maj := (abs_add_le _ _).trans (add_le_add x.maj y.maj)
  err := by
    have h1 := x.err_mono (le_max_left x.a y.a) (le_max_left x.b y.b)
    have h2 := y.err_mono (le_max_right x.a y.a) (le_max_right x.b y.b)
    have := abs_add_le (x.fl - x.ex) (y.fl - y.ex)
    rw [add_sub_add_comm]
    linarith

/-- A product without rounding. -/
def rmul (x y : Cert T) : Cert T where
  fl := x.fl * y.fl
  ex := x.ex * y.ex
  m := x.m * y.m
  a := x.a + y.a
  b := x.b + y.b
  maj := by rw [abs_mul]; exact mul_le_mul x.maj y.maj (abs_nonneg _) x.m_nonneg
  err := by
    have hx := x.err
    have hy := y.err
    have h1 : |(x.fl - x.ex) * y.fl| ≤ (T.E x.a x.b - 1) * x.m * (T.E y.a y.b * y.m) := by
      rw [abs_mul]
      exact mul_le_mul hx y.fl_le (abs_nonneg _) ((abs_nonneg _).trans hx)
    have h2 : |x.ex * (y.fl - y.ex)| ≤ x.m * ((T.E y.a y.b - 1) * y.m) := by
      rw [abs_mul]
      exact mul_le_mul x.maj hy (abs_nonneg _) x.m_nonneg
    have := abs_add_le ((x.fl - x.ex) * y.fl) (x.ex * (y.fl - y.ex))
    rw [show (x.fl - x.ex) * y.fl + x.ex * (y.fl - y.ex) = x.fl * y.fl - x.ex * y.ex by ring] at this
    rw [T.E_add]
    nlinarith

/-- `x + y` -/
def add (x y : Cert T) : Cert T where
  fl := T.R.add x.fl y.fl
  ex := x.ex + y.ex
  m := x.m + y.m
  a := max x.a y.a
  b := max x.b y.b + 1
  maj := (radd x y).maj
  err := round1 (T.R.add_error _ _) (radd x y).fl_le (radd x y).err

/-- The negative. -/
def neg (x : Cert T) : Cert T where
  fl := -x.fl
  ex := -x.ex
  m := x.m
  a := x.a
  b := x.b
  maj := by rw [abs_neg]; exact x.maj
  err := by rw [neg_sub_neg, abs_sub_comm]; exact x.err

/-- `x - y` -/
def sub (x y : Cert T) : Cert T where
  fl := T.R.sub x.fl y.fl
  ex := x.ex - y.ex
  m := x.m + y.m
  a := max x.a y.a
  b := max x.b y.b + 1
  maj := by rw [sub_eq_add_neg]; exact (radd x (neg y)).maj
  err := round1 (T.R.sub_error _ _) (by rw [sub_eq_add_neg]; exact (radd x (neg y)).fl_le)
    (by rw [sub_eq_add_neg, sub_eq_add_neg x.ex]; exact (radd x (neg y)).err)

/-- `x * y` -/
def mul (x y : Cert T) : Cert T where
  fl := T.R.mul x.fl y.fl
  ex := x.ex * y.ex
  m := x.m * y.m
  a := x.a + y.a
  b := x.b + y.b + 1
  maj := (rmul x y).maj
  err := round1 (T.R.mul_error _ _) (rmul x y).fl_le (rmul x y).err

/-- `x ** 2` -/
def sq (x : Cert T) : Cert T where
  fl := T.R.sq x.fl
  ex := x.ex ^ 2
  m := x.m ^ 2
  a := x.a + x.a
  b := x.b + x.b + 2
  maj := by rw [pow_two, pow_two]; exact (rmul x x).maj
  err := by
    refine round (k := 2) (T.R.sq_error _) ?_ ?_
    · rw [pow_two, pow_two]
      exact (le_abs_self _).trans (rmul x x).fl_le
    · rw [pow_two, pow_two, pow_two]
      exact (rmul x x).err

/-- The division by a literal. -/
noncomputable def divNat (x : Cert T) (n : ℕ+) : Cert T where
  fl := T.R.div x.fl (n : ℕ)
  ex := x.ex / (n : ℕ)
  m := x.m / (n : ℕ)
  a := x.a
  b := x.b + 1
  maj := by
    rw [abs_div, Nat.abs_cast]
    exact div_le_div_of_nonneg_right x.maj (Nat.cast_nonneg _)
  err := by
    have hn : (0 : ℝ) < (n : ℕ) := Nat.cast_pos.2 n.pos
    refine round1 (T.R.div_error _ _ hn.ne') ?_ ?_
    · rw [abs_div, Nat.abs_cast, ← mul_div_assoc]
      exact div_le_div_of_nonneg_right x.fl_le hn.le
    · rw [← sub_div, abs_div, Nat.abs_cast, ← mul_div_assoc]
      exact div_le_div_of_nonneg_right x.err hn.le

/-! ### sums of products -/

/-- A product without rounding. -/
def rprod : List (Cert T) → Cert T
  | [] => ofReal 1
  | x :: l => rmul x (rprod l)

/-- A sum of products without rounding. -/
def rsum : List (List (Cert T)) → Cert T
  | [] => ofReal 0
  | t :: ts => radd (rprod t) (rsum ts)

theorem rprod_fl (l : List (Cert T)) : (rprod l).fl = (l.map fl).prod := by
  induction l with
  | nil => rfl
  | cons x l ih => simp [rprod, rmul, ih]

theorem rsum_fl (ts : List (List (Cert T))) : (rsum ts).fl = ((ts.map fun t => t.map fl).map List.prod).sum := by
  induction ts with
  | nil => rfl
  | cons t ts ih => simp only [rsum, radd, ih, rprod_fl, List.map_cons, List.sum_cons]

theorem rsum_abs (ts : List (List (Cert T))) :
    ((ts.map fun t => t.map fl).map fun t => |t.prod|).sum ≤ T.E (rsum ts).a (rsum ts).b * (rsum ts).m := by
  induction ts with
  | nil => simp [rsum, ofReal]
  | cons t ts ih =>
    simp only [List.map_cons, List.sum_cons, rsum]
    have h1 := (rprod t).fl_le
    rw [rprod_fl] at h1
    have h2 := T.E_mono (le_max_left (rprod t).a (rsum ts).a) (le_max_left (rprod t).b (rsum ts).b)
    have h3 := T.E_mono (le_max_right (rprod t).a (rsum ts).a) (le_max_right (rprod t).b (rsum ts).b)
    have h4 := mul_le_mul_of_nonneg_right h2 (rprod t).m_nonneg
    have h5 := mul_le_mul_of_nonneg_right h3 (rsum ts).m_nonneg
    simp only [radd]
    linarith

/-- The largest number of factors. -/
def width : List (List (Cert T)) → ℕ
  | [] => 0
  | t :: ts => max t.length (width ts)

theorem le_width {ts : List (List (Cert T))} {t : List (Cert T)} (h : t ∈ ts) : t.length ≤ width ts := by
  induction ts with
  | nil => simp at h
  | cons s ts ih =>
    rcases List.mem_cons.1 h with rfl | h
    · exact le_max_left _ _
    · exact (ih h).trans (le_max_right _ _)

/-- A sum of products. -/
def einsum (ts : List (List (Cert T))) : Cert T where
  fl := T.R.einsum (ts.map fun t => t.map fl)
  ex := (rsum ts).ex
  m := (rsum ts).m
  a := (rsum ts).a
  b := (rsum ts).b + (ts.length + width ts)
  maj := (rsum ts).maj
  err := by
    refine round (M := ((ts.map fun t => t.map fl).map fun t => |t.prod|).sum) ?_ (rsum_abs ts) (rsum ts).err
    rw [rsum_fl]
    have := T.R.einsum_error (ts.map fun t => t.map fl) (width ts) (by
      intro t ht
      obtain ⟨s, hs, rfl⟩ := List.mem_map.1 ht
      rw [List.length_map]
      exact le_width hs)
    rwa [List.length_map] at this

/-- The reciprocal of a number `d`, known with the relative accuracy `1 - 1 / q`. -/
noncomputable def recip (d d' : ℝ) (hd : d ≠ 0) (h : |d' - d| ≤ (1 - 1 / T.q) * |d|) : Cert T where
  fl := d'⁻¹
  ex := d⁻¹
  m := |d|⁻¹
  a := 1
  b := 0
  maj := by rw [abs_inv]
  err := by
    have hq : 0 < T.q := lt_of_lt_of_le one_pos T.one_le
    have hpos : 0 < |d| := abs_pos.2 hd
    have h1 : |d| / T.q ≤ |d'| := by
      have := abs_sub_abs_le_abs_sub d d'
      rw [abs_sub_comm] at this
      have e : (1 - 1 / T.q) * |d| = |d| - |d| / T.q := by ring
      linarith
    have hpos' : 0 < |d'| := lt_of_lt_of_le (by positivity) h1
    have hd' : d' ≠ 0 := abs_pos.1 hpos'
    have e1 : d'⁻¹ - d⁻¹ = (d - d') * (d'⁻¹ * d⁻¹) := by field_simp
    rw [e1, abs_mul, abs_mul, abs_inv, abs_inv, abs_sub_comm]
    have h2 : |d'|⁻¹ ≤ T.q / |d| := by
      rw [inv_le_comm₀ hpos' (by positivity), inv_div]
      exact h1
    have hq1 : 0 ≤ 1 - 1 / T.q := by rw [sub_nonneg, div_le_one hq]; exact T.one_le
    calc |d' - d| * (|d'|⁻¹ * |d|⁻¹) ≤ (1 - 1 / T.q) * |d| * (T.q / |d| * |d|⁻¹) := by gcongr
      _ = (T.E 1 0 - 1) * |d|⁻¹ := by simp only [Ctx.E]; field_simp

/-- The division by a number `d`, known with the relative accuracy `1 - 1 / q`. -/
noncomputable def divBy (d d' : ℝ) (hd : d ≠ 0) (h : |d' - d| ≤ (1 - 1 / T.q) * |d|) (x : Cert T) : Cert T where
  fl := T.R.div x.fl d'
  ex := x.ex / d
  m := x.m / |d|
  a := x.a + 1
  b := x.b + 1
  maj := by rw [div_eq_mul_inv, div_eq_mul_inv]; exact (rmul x (recip d d' hd h)).maj
  err := by
    have hd' : d' ≠ 0 := by
      rintro rfl
      have hq : 0 < T.q := lt_of_lt_of_le one_pos T.one_le
      have hpos : 0 < |d| := abs_pos.2 hd
      rw [zero_sub, abs_neg] at h
      have : 0 < 1 / T.q * |d| := by positivity
      linarith
    rw [div_eq_mul_inv x.ex, div_eq_mul_inv x.m]
    refine round1 (T.R.div_error _ _ hd') ?_ ?_
    · rw [div_eq_mul_inv]; exact (rmul x (recip d d' hd h)).fl_le
    · rw [div_eq_mul_inv]; exact (rmul x (recip d d' hd h)).err

/-- A number which is known with the relative accuracy `q - 1`. -/
def rel (t t' : ℝ) (h : |t' - t| ≤ (T.q - 1) * |t|) : Cert T where
  fl := t'
  ex := t
  m := |t|
  a := 1
  b := 0
  maj := le_rfl
  err := by simpa [Ctx.E] using h

/-- Certified arithmetic. -/
noncomputable instance : Arith (Cert T) where
  add := add
  sub := sub
  mul := mul
  lit := ofReal
  sq := sq
  divNat := divNat
  einsum := einsum

/-! ### the components of a sum of products -/

theorem rprod_ex (l : List (Cert T)) : (rprod l).ex = (l.map ex).prod := by
  induction l with
  | nil => rfl
  | cons x l ih => simp [rprod, rmul, ih]

theorem rsum_ex (ts : List (List (Cert T))) : (rsum ts).ex = ((ts.map fun t => t.map ex).map List.prod).sum := by
  induction ts with
  | nil => rfl
  | cons t ts ih => simp only [rsum, radd, ih, rprod_ex, List.map_cons, List.sum_cons]

theorem rprod_m (l : List (Cert T)) : (rprod l).m = (l.map m).prod := by
  induction l with
  | nil => simp [rprod, ofReal]
  | cons x l ih => simp [rprod, rmul, ih]

theorem rsum_m (ts : List (List (Cert T))) : (rsum ts).m = ((ts.map fun t => t.map m).map List.prod).sum := by
  induction ts with
  | nil => simp [rsum, ofReal]
  | cons t ts ih => simp only [rsum, radd, ih, rprod_m, List.map_cons, List.sum_cons]

end Cert

/-- Majorants: the arithmetic of absolute values, in which nothing cancels. -/
structure Maj where
  val : ℝ

noncomputable instance : Arith Maj where
  add x y := ⟨x.val + y.val⟩
  sub x y := ⟨x.val + y.val⟩
  mul x y := ⟨x.val * y.val⟩
  lit x := ⟨|x|⟩
  sq x := ⟨x.val ^ 2⟩
  divNat x n := ⟨x.val / (n : ℕ)⟩
  einsum ts := ⟨((ts.map fun t => t.map Maj.val).map List.prod).sum⟩

/-- The numbers of roundings `a` and `b`. -/
structure Cnt where
  a : ℕ
  b : ℕ
  deriving DecidableEq

namespace Cnt

/-- The larger number of roundings. -/
def sup (x y : Cnt) : Cnt := ⟨max x.1 y.1, max x.2 y.2⟩

/-- The roundings of a product. -/
def plus (x y : Cnt) : Cnt := ⟨x.1 + y.1, x.2 + y.2⟩

/-- `k` more roundings. -/
def more (x : Cnt) (k : ℕ) : Cnt := ⟨x.1, x.2 + k⟩

/-- The roundings of the factors of a sum of products. -/
def factors (ts : List (List Cnt)) : Cnt := (ts.map fun t => t.foldr plus ⟨0, 0⟩).foldr sup ⟨0, 0⟩

/-- The largest number of factors. -/
def width (ts : List (List Cnt)) : ℕ := (ts.map List.length).foldr max 0

instance : Arith Cnt where
  add x y := (x.sup y).more 1
  sub x y := (x.sup y).more 1
  mul x y := (x.plus y).more 1
  lit _ := ⟨0, 0⟩
  sq x := (x.plus x).more 2
  divNat x _ := x.more 1
  einsum ts := (factors ts).more (ts.length + width ts)

end Cnt

/-! ### homomorphisms -/

/-- A map between two arithmetics which respects all operations. -/
structure IsHom {K L : Type} [Arith K] [Arith L] (f : K → L) : Prop where
  add : ∀ x y, f (x + y) = f x + f y
  sub : ∀ x y, f (x - y) = f x - f y
  mul : ∀ x y, f (x * y) = f x * f y
  lit : ∀ x, f (lit x) = lit x
  sq : ∀ x, f (sq x) = sq (f x)
  divNat : ∀ x n, f (divNat x n) = divNat (f x) n
  einsum : ∀ ts, f (einsum ts) = einsum (ts.map fun t => t.map f)

namespace Cert

variable {T : Ctx}

/-- The rounded component. -/
def flc (x : Cert T) : Fl T.R := ⟨x.fl⟩

/-- The majorant. -/
def mc (x : Cert T) : Maj := ⟨x.m⟩

/-- The numbers of roundings. -/
def cnt (x : Cert T) : Cnt := ⟨x.a, x.b⟩

theorem hom_fl : IsHom (flc (T := T)) where
  add _ _ := rfl
  sub _ _ := rfl
  mul _ _ := rfl
  lit _ := rfl
  sq _ := rfl
  divNat _ _ := rfl
  einsum ts := by
    change (⟨T.R.einsum (ts.map fun t => t.map fl)⟩ : Fl T.R) = ⟨T.R.einsum _⟩
    simp only [List.map_map, Function.comp_def, flc]

theorem hom_ex : IsHom (ex (T := T)) where
  add _ _ := rfl
  sub _ _ := rfl
  mul _ _ := rfl
  lit _ := rfl
  sq _ := rfl
  divNat _ _ := rfl
  einsum ts := rsum_ex ts

theorem hom_m : IsHom (mc (T := T)) where
  add _ _ := rfl
  sub _ _ := rfl
  mul _ _ := rfl
  lit _ := rfl
  sq _ := rfl
  divNat _ _ := rfl
  einsum ts := by
    refine congrArg Maj.mk ((rsum_m ts).trans ?_)
    rw [List.map_map]
    simp only [Function.comp_def, List.map_map, mc]

theorem rprod_cnt (l : List (Cert T)) : cnt (rprod l) = (l.map cnt).foldr Cnt.plus ⟨0, 0⟩ := by
  induction l with
  | nil => rfl
  | cons x l ih => rw [List.map_cons, List.foldr_cons, ← ih]; rfl

theorem rsum_cnt (ts : List (List (Cert T))) : cnt (rsum ts) = Cnt.factors (ts.map fun t => t.map cnt) := by
  induction ts with
  | nil => rfl
  | cons t ts ih =>
    unfold Cnt.factors at ih ⊢
    rw [List.map_cons, List.map_cons, List.foldr_cons, ← ih, ← rprod_cnt]
    rfl

theorem width_cnt (ts : List (List (Cert T))) : width ts = Cnt.width (ts.map fun t => t.map cnt) := by
  induction ts with
  | nil => rfl
  | cons t ts ih =>
    unfold Cnt.width at ih ⊢
    rw [List.map_cons, List.map_cons, List.foldr_cons, ← ih, List.length_map]
    rfl

theorem hom_cnt : IsHom (cnt (T := T)) where
  add _ _ := rfl
  sub _ _ := rfl
  mul _ _ := rfl
  lit _ := rfl
  sq _ := rfl
  divNat _ _ := rfl
  einsum ts := by
    have h := rsum_cnt ts
    change Cnt.mk (rsum ts).a ((rsum ts).b + (ts.length + width ts)) =
      ⟨(Cnt.factors _).1, (Cnt.factors _).2 + ((ts.map _).length + Cnt.width _)⟩
    rw [← h, width_cnt, List.length_map]
    rfl

end Cert

/-! ### the programs respect homomorphisms -/

namespace IsHom

variable {K L : Type} [Arith K] [Arith L] {f : K → L} (hf : IsHom f)

include hf

theorem trace (A : Vec6 K) : f (Rnd.trace A) = Rnd.trace fun a => f (A a) := hf.einsum _

theorem det (A : Vec6 K) : f (Rnd.det A) = Rnd.det fun a => f (A a) := by
  simp only [Rnd.det, hf.add, hf.sub, hf.mul, hf.sq, hf.lit]

theorem inv {d : K → K} {d' : L → L} (hd : ∀ x, f (d x) = d' (f x)) (A : Vec6 K) (a : Fin 6) :
    f (Rnd.inv d A a) = Rnd.inv d' (fun a => f (A a)) a := by
  simp only [Rnd.inv, hd, hf.sub, hf.mul]

theorem dot (A B : Vec6 K) (i j : Fin 3) : f (Rnd.dot A B i j) = Rnd.dot (fun a => f (A a)) (fun a => f (B a)) i j := by
  fin_cases i <;> fin_cases j <;> simp [Rnd.dot, hf.add, hf.mul]

theorem eye (a : Fin 6) : f (Rnd.eye a) = Rnd.eye a := by
  fin_cases a <;> exact hf.lit _

theorem weights (a : Fin 6) : f (Rnd.weights a) = Rnd.weights a := by
  fin_cases a <;> exact hf.lit _

theorem sum6 (t : Fin 6 → List K) : f (Rnd.sum6 t) = Rnd.sum6 fun i => (t i).map f := hf.einsum _

theorem sum3 (t : Fin 3 → List K) : f (Rnd.sum3 t) = Rnd.sum3 fun i => (t i).map f := hf.einsum _

theorem sum33 (t : Fin 3 → Fin 3 → List K) : f (Rnd.sum33 t) = Rnd.sum33 fun i j => (t i j).map f := hf.einsum _

theorem ddot (A B : Vec6 K) : f (Rnd.ddot A B) = Rnd.ddot (fun a => f (A a)) fun a => f (B a) := by
  simp only [Rnd.ddot, hf.sum6, List.map_cons, List.map_nil, hf.weights]

theorem ddot44 (A B : Mat6 K) (i j : Fin 6) :
    f (Rnd.ddot44 A B i j) = Rnd.ddot44 (fun a b => f (A a b)) (fun a b => f (B a b)) i j := by
  simp only [Rnd.ddot44, hf.sum6, List.map_cons, List.map_nil, hf.weights]

theorem ddot42 (A : Mat6 K) (B : Vec6 K) (i : Fin 6) :
    f (Rnd.ddot42 A B i) = Rnd.ddot42 (fun a b => f (A a b)) (fun a => f (B a)) i := by
  simp only [Rnd.ddot42, hf.sum6, List.map_cons, List.map_nil, hf.weights]

theorem ddot24 (A : Vec6 K) (B : Mat6 K) (i : Fin 6) :
    f (Rnd.ddot24 A B i) = Rnd.ddot24 (fun a => f (A a)) (fun a b => f (B a b)) i := by
  simp only [Rnd.ddot24, hf.sum6, List.map_cons, List.map_nil, hf.weights]

theorem dya (A B : Vec6 K) (a b : Fin 6) : f (Rnd.dya A B a b) = Rnd.dya (fun a => f (A a)) (fun a => f (B a)) a b :=
  hf.mul _ _

theorem dev (A : Vec6 K) (a : Fin 6) : f (Rnd.dev A a) = Rnd.dev (fun a => f (A a)) a := by
  simp only [Rnd.dev, hf.sub, hf.mul, hf.divNat, hf.trace, hf.eye]

theorem cdya_ik (A B : Vec6 K) (i j k l : Fin 3) :
    f (Rnd.cdya_ik A B i j k l) = Rnd.cdya_ik (fun a => f (A a)) (fun a => f (B a)) i j k l := hf.mul _ _

theorem cdya_il (A B : Vec6 K) (i j k l : Fin 3) :
    f (Rnd.cdya_il A B i j k l) = Rnd.cdya_il (fun a => f (A a)) (fun a => f (B a)) i j k l := hf.mul _ _

theorem cdya (A B : Vec6 K) (a b : Fin 6) :
    f (Rnd.cdya A B a b) = Rnd.cdya (fun a => f (A a)) (fun a => f (B a)) a b := by
  simp only [Rnd.cdya, Rnd.cdyaEntry, hf.divNat, hf.add, hf.mul]

theorem cdyaSelf (A : Vec6 K) (a b : Fin 6) :
    f (Rnd.cdyaSelf A a b) = Rnd.cdyaSelf (fun a => f (A a)) a b := by
  simp only [Rnd.cdyaSelf, Rnd.cdyaSelfEntry, hf.divNat, hf.add, hf.mul]

theorem addIf (c : Prop) [Decidable c] (x t : K) : f (Rnd.addIf c x t) = Rnd.addIf c (f x) (f t) := by
  unfold Rnd.addIf; split <;> simp [hf.add]

theorem d1 (p : TOD ℝ) (I1 I2 : K) : (todD1 p I1 I2).map f = todD1 p (f I1) (f I2) := by
  unfold todD1; split <;> simp [hf.addIf, hf.lit, hf.mul, hf.sub, hf.sq]

theorem d2 (p : TOD ℝ) (I1 : K) : (todD2 p I1).map f = todD2 p (f I1) := by
  unfold todD2; split <;> simp [hf.addIf, hf.lit, hf.mul, hf.sub]

theorem d11 (p : TOD ℝ) (I1 : K) : (todD11 p I1).map f = todD11 p (f I1) := by
  unfold todD11; split <;> simp [hf.add, hf.lit, hf.mul, hf.sub]

theorem d12 (p : TOD ℝ) : (todD12 (K := K) p).map f = todD12 p := by
  unfold todD12; split <;> simp [hf.lit]

theorem I2 (C : Vec6 K) : f (Rnd.I2 C) = Rnd.I2 fun a => f (C a) := by
  simp only [Rnd.I2, hf.divNat, hf.sub, hf.sq, hf.trace, hf.ddot]

theorem dI2dC (C : Vec6 K) (a : Fin 6) : f (Rnd.dI2dC C a) = Rnd.dI2dC (fun a => f (C a)) a := by
  simp only [Rnd.dI2dC, hf.sub, hf.mul, hf.trace, hf.eye]

theorem addTerm (x : K) (w : Option K) (t : K) : f (Rnd.addTerm x w t) = Rnd.addTerm (f x) (w.map f) (f t) := by
  cases w <;> simp [Rnd.addTerm, hf.add, hf.mul]

theorem invGrad (p : TOD ℝ) (C : Vec6 K) (a : Fin 6) : f (Rnd.invGrad p C a) = Rnd.invGrad p (fun a => f (C a)) a := by
  simp only [Rnd.invGrad, hf.addTerm, hf.lit, hf.d1, hf.d2, hf.eye, hf.dI2dC, hf.trace, hf.I2]

theorem d2I2dCdC (a b : Fin 6) : f (Rnd.d2I2dCdC a b) = Rnd.d2I2dCdC a b := by
  simp only [Rnd.d2I2dCdC, hf.sub, hf.dya, hf.cdyaSelf, hf.eye]

theorem invHess (p : TOD ℝ) (C : Vec6 K) (a b : Fin 6) :
    f (Rnd.invHess p C a b) = Rnd.invHess p (fun a => f (C a)) a b := by
  simp only [Rnd.invHess, hf.addTerm, hf.lit, hf.d11, hf.d2, hf.d12, hf.eye, hf.dI2dC, hf.trace, hf.add, hf.dya,
    hf.d2I2dCdC]

theorem cauchyGreen (F : Full2 K) (a : Fin 6) : f (Rnd.cauchyGreen F a) = Rnd.cauchyGreen (fun i j => f (F i j)) a := by
  simp only [Rnd.cauchyGreen, asvoigt, hf.sum3, List.map_cons, List.map_nil]

theorem piolaStress (F : Full2 K) (S : Vec6 K) (i j : Fin 3) :
    f (Rnd.piolaStress F S i j) = Rnd.piolaStress (fun i j => f (F i j)) (fun a => f (S a)) i j := by
  simp only [Rnd.piolaStress, astensor, hf.sum3, List.map_cons, List.map_nil]

theorem piolaElasticity (F : Full2 K) (S : Vec6 K) (C4 : Mat6 K) (i j k l : Fin 3) :
    f (Rnd.piolaElasticity F S C4 i j k l) =
      Rnd.piolaElasticity (fun i j => f (F i j)) (fun a => f (S a)) (fun a b => f (C4 a b)) i j k l := by
  simp only [Rnd.piolaElasticity, astensor4, hf.add, hf.sum33, List.map_cons, List.map_nil, hf.cdya_ik, hf.eye]

theorem defS (p : TOD ℝ) (F : Full2 K) (a : Fin 6) : f (Rnd.defS p F a) = Rnd.defS p (fun i j => f (F i j)) a := by
  simp only [Rnd.defS, hf.mul, hf.lit, hf.invGrad, hf.cauchyGreen]

theorem defGradient (p : TOD ℝ) (F : Full2 K) (i j : Fin 3) :
    f (Rnd.defGradient p F i j) = Rnd.defGradient p (fun i j => f (F i j)) i j := by
  simp only [Rnd.defGradient, hf.piolaStress, hf.defS]

theorem defHessian (p : TOD ℝ) (F : Full2 K) (i j k l : Fin 3) :
    f (Rnd.defHessian p F i j k l) = Rnd.defHessian p (fun i j => f (F i j)) i j k l := by
  simp only [Rnd.defHessian, hf.piolaElasticity, hf.defS, hf.mul, hf.lit, hf.invHess, hf.cauchyGreen]

theorem distS {d : K → K} {d' : L → L} (hd : ∀ x, f (d x) = d' (f x)) (t : K) (p : TOD ℝ) (C : Vec6 K) (a : Fin 6) :
    f (Rnd.distS t d p C a) = Rnd.distS (f t) d' p (fun a => f (C a)) a := by
  simp only [Rnd.distS, hf.sub, hf.mul, hf.lit, hf.invGrad, hf.divNat, hf.ddot, hf.inv hd]

theorem dilS {d : K → K} {d' : L → L} (hd : ∀ x, f (d x) = d' (f x)) (t : K) (p : TOD ℝ) (C : Vec6 K) (a : Fin 6) :
    f (Rnd.dilS t d p C a) = Rnd.dilS (f t) d' p (fun a => f (C a)) a := by
  simp only [Rnd.dilS, hf.mul, hf.lit, hf.invGrad, hf.divNat, hf.trace, hf.inv hd]

end IsHom

end Hel.Rnd
