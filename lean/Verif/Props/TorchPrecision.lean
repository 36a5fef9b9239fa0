import Verif.Props.Torch
import Verif.Spec.TorchPrecision
import Verif.Proofs.RoundingOrder
import Verif.Proofs.Binary64

/-!
# C72: energy functions differentiated by PyTorch in its default precision
-/

namespace Props
open Spec Hel Hel.Torch

variable {Z : Type} {P : Precision} (m : TorchModel (Num P)) (eng : Engine) (z : Z)

/-- two roundings at once -/
theorem within_round2 {u y y' x b : ℝ} {n : ℕ} (h : Within u n y x b) (hx : |x| ≤ b)
    (hu : 0 ≤ u) (h' : |y' - y| ≤ ((1 + u) ^ 2 - 1) * |y|) : Within u (n + 2) y' x b := by
  unfold Within at *
  have h1 : |y| ≤ (1 + u) ^ n * b := by
    have := abs_sub_abs_le_abs_sub y x
    linarith
  have h2 : |y' - x| ≤ |y' - y| + |y - x| := abs_sub_le _ _ _
  have h0 : 0 ≤ (1 + u) ^ 2 - 1 := by nlinarith
  have h3 : ((1 + u) ^ 2 - 1) * |y| ≤ ((1 + u) ^ 2 - 1) * ((1 + u) ^ n * b) := by gcongr
  rw [pow_add]
  linarith

theorem within_pow {u y x b : ℝ} {n : ℕ} (hu : 0 ≤ u) (h : Within u n y x b) (hx : |x| ≤ b) (k : ℕ) :
    Within u (k * n) (y ^ k) (x ^ k) (b ^ k) := by
  induction k with
  | zero => simpa using Within.refl 0 hu 1 zero_le_one
  | succ k ih =>
    have hxk : |x ^ k| ≤ b ^ k := by rw [abs_pow]; gcongr
    have := ih.mul h hxk hx
    rw [pow_succ, pow_succ, pow_succ, Nat.succ_mul]
    exact this

theorem abs_eval_le {e : Expr} (hp : e.Polynomial) (x : Fin 3 → ℝ) : |e.eval x| ≤ e.majorant.eval fun i => |x i| := by
  induction e with
  | const c => exact le_rfl
  | leaf i => exact le_rfl
  | neg a ih => simpa [Expr.eval, Expr.majorant] using ih hp
  | saved a ih => exact ih hp
  | add a b ha hb => exact (abs_add_le _ _).trans (add_le_add (ha hp.1) (hb hp.2))
  | sub a b ha hb => exact (abs_sub _ _).trans (add_le_add (ha hp.1) (hb hp.2))
  | mul a b ha hb =>
    simp only [Expr.eval, Expr.majorant, abs_mul]
    exact mul_le_mul (ha hp.1) (hb hp.2) (abs_nonneg _) ((abs_nonneg _).trans (ha hp.1))
  | npow a n ih =>
    simp only [Expr.eval, Expr.majorant, abs_pow]
    exact pow_le_pow_left₀ (abs_nonneg _) (ih hp) n
  | div | pow | exp | log => exact hp.elim

/-- the numbers in the leaf tensors -/
noncomputable abbrev single (P : Precision) (x : Fin 3 → ℝ) : Fin 3 → Num P := fun i => ⟨P.rnd (x i)⟩

theorem within_eval {e : Expr} (hp : e.Polynomial) (x : Fin 3 → ℝ) :
    Within P.u e.roundings (e.eval (single P x)).val (e.eval x) (e.majorant.eval fun i => |x i|) := by
  have one : ∀ c : ℝ, Within P.u 1 (P.rnd c) c |c| := fun c =>
    (Within.refl 0 P.u_nonneg c (abs_nonneg c)).round P.u_nonneg le_rfl (P.rnd_error c)
  induction e with
  | const c => exact one c
  | leaf i => exact one (x i)
  | neg a ih =>
    have := ih hp
    unfold Within at *
    simp only [Expr.eval, Expr.majorant, Expr.roundings]
    rw [← abs_neg]
    refine le_trans (le_of_eq ?_) this
    congr 1
    change -(-_ - -_) = _
    ring
  | saved a ih => exact ih hp
  | add a b ha hb =>
    have h1 := (ha hp.1).mono P.u_nonneg (abs_eval_le hp.1 x) (le_max_left _ b.roundings)
    have h2 := (hb hp.2).mono P.u_nonneg (abs_eval_le hp.2 x) (le_max_right a.roundings _)
    exact (h1.add h2).round P.u_nonneg (abs_eval_le (e := .add a b) hp x) (P.rnd_error _)
  | sub a b ha hb =>
    have h1 := (ha hp.1).mono P.u_nonneg (abs_eval_le hp.1 x) (le_max_left _ b.roundings)
    have h2 := (hb hp.2).mono P.u_nonneg (abs_eval_le hp.2 x) (le_max_right a.roundings _)
    have h3 : Within P.u (max a.roundings b.roundings) ((a.eval (single P x)).val - (b.eval (single P x)).val)
        (a.eval x - b.eval x) (a.majorant.eval (fun i => |x i|) + b.majorant.eval fun i => |x i|) := by
      unfold Within at *
      have : |(a.eval (single P x)).val - (b.eval (single P x)).val - (a.eval x - b.eval x)| ≤
          |(a.eval (single P x)).val - a.eval x| + |(b.eval (single P x)).val - b.eval x| := by
        rw [show (a.eval (single P x)).val - (b.eval (single P x)).val - (a.eval x - b.eval x) =
          ((a.eval (single P x)).val - a.eval x) - ((b.eval (single P x)).val - b.eval x) by ring]
        exact abs_sub _ _
      linarith
    exact h3.round P.u_nonneg (abs_eval_le (e := .sub a b) hp x) (P.rnd_error _)
  | mul a b ha hb =>
    exact ((ha hp.1).mul (hb hp.2) (abs_eval_le hp.1 x) (abs_eval_le hp.2 x)).round P.u_nonneg
      (abs_eval_le (e := .mul a b) hp x) (P.rnd_error _)
  | npow a n ih =>
    have h1 := within_pow P.u_nonneg (ih hp) (abs_eval_le (e := a) hp x) n
    have h2 : |(a.eval x) ^ n| ≤ (a.majorant.eval fun i => |x i|) ^ n := abs_eval_le (e := .npow a n) hp x
    have h3 := within_round2 h1 h2 P.u_nonneg (P.npow_error _ n)
    refine h3.mono P.u_nonneg h2 ?_
    simp only [Expr.roundings, Nat.succ_mul]
    omega
  | div | pow | exp | log => exact hp.elim

theorem polynomial_accumulate {a b : Option Expr} (ha : ∀ d ∈ a, d.Polynomial) (hb : ∀ d ∈ b, d.Polynomial) :
    ∀ d ∈ Expr.accumulate a b, d.Polynomial := by
  intro d hd
  rcases accumulate_some hd with ⟨h, -⟩ | ⟨h, -⟩ | ⟨x, y, h1, h2, rfl⟩
  · exact ha d h
  · exact hb d h
  · exact ⟨ha x h1, hb y h2⟩

/-- derivatives of polynomials are polynomials -/
theorem polynomial_backward (i : Fin 3) {e g : Expr} (he : e.Polynomial) (hg : g.Polynomial) :
    ∀ d ∈ e.backward i g, d.Polynomial := by
  induction e generalizing g with
  | const => intro d hd; cases hd
  | leaf j =>
    intro d hd
    simp only [Expr.backward] at hd
    split_ifs at hd
    · cases hd; exact hg
    · cases hd
  | neg a ih => exact ih he hg
  | saved a ih => exact ih he hg
  | add a b ha hb => exact polynomial_accumulate (ha he.1 hg) (hb he.2 hg)
  | sub a b ha hb => exact polynomial_accumulate (ha he.1 hg) (hb he.2 hg)
  | mul a b ha hb => exact polynomial_accumulate (ha he.1 ⟨hg, he.2⟩) (hb he.2 ⟨hg, he.1⟩)
  | npow a n ih =>
    refine ih he ?_
    split_ifs
    · trivial
    · exact ⟨hg, trivial, he⟩
  | div | pow | exp | log => exact he.elim

/-- the majorant of the derivative is the derivative of the majorant -/
theorem majorant_backward (i : Fin 3) {e : Expr} (he : e.Polynomial) (g : Expr) :
    (e.backward i g).map Expr.majorant = e.majorant.backward i g.majorant := by
  have acc : ∀ a b : Option Expr, (Expr.accumulate a b).map Expr.majorant =
      Expr.accumulate (a.map Expr.majorant) (b.map Expr.majorant) := by
    intro a b
    cases a <;> cases b <;> rfl
  induction e generalizing g with
  | const => rfl
  | leaf j => by_cases h : j = i <;> simp [Expr.backward, Expr.majorant, h]
  | neg a ih => exact ih he (.neg g)
  | saved a ih => exact ih he g
  | add a b ha hb => simp only [Expr.backward, acc, ha he.1, hb he.2, Expr.majorant]
  | sub a b ha hb => simp only [Expr.backward, acc, ha he.1, hb he.2, Expr.majorant]
  | mul a b ha hb => simp only [Expr.backward, acc, ha he.1, hb he.2, Expr.majorant]
  | npow a n ih =>
    simp only [Expr.backward, ih he, Expr.majorant]
    congr 1
    split_ifs <;> simp [Expr.majorant]
  | div | pow | exp | log => exact he.elim

theorem one_le_roundings {e : Expr} (he : e.Polynomial) : 1 ≤ e.roundings := by
  induction e with
  | const | leaf => exact le_rfl
  | neg a ih | saved a ih => exact ih he
  | add | sub | mul | npow => simp [Expr.roundings]
  | div | pow | exp | log => exact he.elim

theorem roundings_backward (i : Fin 3) {e : Expr} (he : e.Polynomial) (g : Expr) :
    ∀ d ∈ e.backward i g, d.roundings ≤ g.roundings + 2 * e.roundings := by
  have acc : ∀ {a b : Option Expr} {k : ℕ}, (∀ d ∈ a, d.roundings ≤ k) → (∀ d ∈ b, d.roundings ≤ k) →
      ∀ d ∈ Expr.accumulate a b, d.roundings ≤ k + 1 := by
    intro a b k ha hb d hd
    rcases accumulate_some hd with ⟨h, -⟩ | ⟨h, -⟩ | ⟨x, y, h1, h2, rfl⟩
    · exact (ha d h).trans (Nat.le_succ k)
    · exact (hb d h).trans (Nat.le_succ k)
    · simp only [Expr.roundings]
      have := ha x h1
      have := hb y h2
      omega
  induction e generalizing g with
  | const => intro d hd; cases hd
  | leaf j =>
    intro d hd
    simp only [Expr.backward] at hd
    split_ifs at hd
    · cases hd; omega
    · cases hd
  | neg a ih => exact ih he (.neg g)
  | saved a ih => exact ih he g
  | add a b ha hb =>
    intro d hd
    have := acc (k := g.roundings + 2 * max a.roundings b.roundings) (fun d hd => (ha he.1 _ d hd).trans (by omega))
      (fun d hd => (hb he.2 _ d hd).trans (by omega)) d hd
    simp only [Expr.roundings]
    omega
  | sub a b ha hb =>
    intro d hd
    have := acc (k := g.roundings + 2 * max a.roundings b.roundings) (fun d hd => (ha he.1 _ d hd).trans (by omega))
      (fun d hd => (hb he.2 _ d hd).trans (by simp only [Expr.roundings]; omega)) d hd
    simp only [Expr.roundings]
    omega
  | mul a b ha hb =>
    intro d hd
    have := acc (k := g.roundings + 1 + 2 * a.roundings + 2 * b.roundings)
      (fun d hd => (ha he.1 _ d hd).trans (by simp only [Expr.roundings]; omega))
      (fun d hd => (hb he.2 _ d hd).trans (by simp only [Expr.roundings]; omega)) d hd
    simp only [Expr.roundings]
    omega
  | npow a n ih =>
    intro d hd
    refine (ih he _ d hd).trans ?_
    have := one_le_roundings he
    have h1 : a.roundings ≤ (n + 1) * a.roundings := Nat.le_mul_of_pos_left _ (by omega)
    split_ifs with hn
    · simp only [Expr.roundings]
      omega
    · simp only [Expr.roundings]
      obtain ⟨k, rfl⟩ := Nat.exists_eq_succ_of_ne_zero hn
      simp only [Nat.succ_eq_add_one, Nat.add_sub_cancel]
      have e1 : (k + 1 + 1) * a.roundings = (k + 1) * a.roundings + a.roundings := by ring
      have h2 : a.roundings ≤ (k + 1) * a.roundings := Nat.le_mul_of_pos_left _ (by omega)
      omega
  | div | pow | exp | log => exact he.elim

/-- the numbers returned for a derivative, zero for `None` -/
noncomputable def valIn (P : Precision) (x : Fin 3 → ℝ) (o : Option Expr) : ℝ :=
  ((o.map (Expr.eval (single P x))).map Num.val).getD 0

theorem leaves_single (x : Fin 3 → ℝ) : (![⟨P.rnd (x 0)⟩, ⟨P.rnd (x 1)⟩, ⟨P.rnd (x 2)⟩] : Fin 3 → Num P) = single P x := by
  funext i
  fin_cases i <;> rfl

variable {m eng z}

theorem grad_in {e : Expr} (he : m.func (.leaf 0) (.leaf 1) (.leaf 2) = .ok (.tensor e)) {x g : Fin 3 → ℝ}
    (hg : InvMat.Grad (m.matIn P eng) z x g) (i : Fin 3) : g i = valIn P x (d1 e i) := by
  obtain ⟨s, r, hr, rfl⟩ := hg
  simp only [Returns, TorchModel.matIn, PyM.lift_run, leaves_single] at hr
  rcases hg : m.gradientObj eng (single P x) z true false false eng.fresh with ⟨_ | o, s'⟩ <;> rw [hg] at hr
  · exact absurd hr (by simp [Except.map])
  · obtain ⟨f, hf, ho⟩ := gradientObj_ok hg
    rw [he] at hf
    obtain rfl : Obj.tensor e = f := by simpa using hf
    subst ho
    simp only [Except.map, Except.ok.injEq, toOption_out] at hr
    subst hr
    fin_cases i <;> rfl

/-- the pair of indices in the order in which the code differentiates -/
def ordered (i j : Fin 3) : Fin 3 × Fin 3 := if i ≤ j then (i, j) else (j, i)

theorem hess_in {e : Expr} (he : m.func (.leaf 0) (.leaf 1) (.leaf 2) = .ok (.tensor e)) {x : Fin 3 → ℝ}
    {h : Fin 3 → Fin 3 → ℝ} (hh : InvMat.Hess (m.matIn P eng) z x h) (i j : Fin 3) :
    h i j = valIn P x (d2 e (ordered i j).1 (ordered i j).2) := by
  obtain ⟨s, r, hr, rfl⟩ := hh
  simp only [Returns, TorchModel.matIn, PyM.lift_run, leaves_single] at hr
  rcases hg : m.hessianObj eng (single P x) z true eng.fresh with ⟨_ | o, s'⟩ <;> rw [hg] at hr
  · exact absurd hr (by simp [Except.map])
  · obtain ⟨f, hf, ho⟩ := hessianObj_ok hg
    rw [he] at hf
    obtain rfl : Obj.tensor e = f := by simpa using hf
    subst ho
    simp only [Except.map, Except.ok.injEq, toOption_out, next_out] at hr
    subst hr
    fin_cases i <;> fin_cases j <;> rfl

theorem polynomial_defined {e : Expr} (he : e.Polynomial) (x : Fin 3 → ℝ) : e.Defined x := by
  induction e with
  | const | leaf => trivial
  | neg a ih | npow a n ih | saved a ih => exact ih he
  | add a b ha hb | sub a b ha hb | mul a b ha hb => exact ⟨ha he.1, hb he.2⟩
  | div | pow | exp | log => exact he.elim

theorem polynomial_majorant {e : Expr} (he : e.Polynomial) : e.majorant.Polynomial := by
  induction e with
  | const | leaf => trivial
  | neg a ih | npow a n ih | saved a ih => exact ih he
  | add a b ha hb | sub a b ha hb | mul a b ha hb => exact ⟨ha he.1, hb he.2⟩
  | div | pow | exp | log => exact he.elim

theorem moves_update (x : Fin 3 → ℝ) (i : Fin 3) : Moves3 (fun t => Function.update x i t) (Pi.single i 1) (x i) := by
  intro j
  rcases eq_or_ne j i with rfl | h
  · simpa using hasDerivAt_id' (x j)
  · simpa [Function.update_of_ne h, Pi.single_eq_of_ne h] using hasDerivAt_const (x i) (x j)

theorem partial_eval {e : Expr} (he : e.Polynomial) (x : Fin 3 → ℝ) (i : Fin 3) : Partial (fun y => e.eval y) i x (e.pd i x) := by
  have h := Expr.hasDerivAt_eval e (moves_update x i) (by simpa using polynomial_defined he x)
  refine h.congr_deriv ?_
  rw [Finset.sum_eq_single i (fun b _ hb => by simp [Pi.single_eq_of_ne hb]) (by simp)]
  simp

theorem partial_pd {e : Expr} (he : e.Polynomial) (x : Fin 3 → ℝ) (i j : Fin 3) :
    Partial (fun y => e.pd i y) j x (e.pd2 i j x) := by
  have h := hasDerivAt_d1 e (moves_update x j) (by simpa using polynomial_defined he x) i
  simp only [val_d1] at h
  refine h.congr_deriv ?_
  rw [Finset.sum_eq_single j (fun b _ hb => by simp [Pi.single_eq_of_ne hb]) (by simp)]
  simp

theorem within_valIn {o : Option Expr} (ho : ∀ d ∈ o, d.Polynomial) {k : ℕ} (hk : ∀ d ∈ o, d.roundings ≤ k) (x : Fin 3 → ℝ) :
    Within P.u k (valIn P x o) (Expr.val x o) (Expr.val (fun i => |x i|) (o.map Expr.majorant)) := by
  rcases o with _ | d
  · simp [valIn, Expr.val, Within]
  · exact (within_eval (ho d rfl) x).mono P.u_nonneg (abs_eval_le (ho d rfl) x) (hk d rfl)

/-- The derivatives of a polynomial energy which `TorchModel.gradient` returns differ from the exact derivatives at most by
`2 n + 1` roundings in torch's default dtype, relative to the derivative of the polynomial without cancellation. -/
theorem C72_gradient (e : Expr) (he : m.func (.leaf 0) (.leaf 1) (.leaf 2) = .ok (.tensor e)) (hp : e.Polynomial)
    (x g : Fin 3 → ℝ) (hg : InvMat.Grad (m.matIn P eng) z x g) (i : Fin 3) (d b : ℝ)
    (hd : Partial (fun y => e.eval y) i x d) (hb : Partial (fun y => e.majorant.eval y) i (fun k => |x k|) b) :
    Within P.u (2 * e.roundings + 1) (g i) d b := by
  obtain rfl := hd.unique (partial_eval hp x i)
  obtain rfl := hb.unique (partial_eval (polynomial_majorant hp) (fun k => |x k|) i)
  rw [grad_in he hg, ← val_d1 e i x, ← val_d1 e.majorant i]
  have h1 := within_valIn (P := P) (polynomial_backward i hp (g := .const 1) trivial)
    (k := 2 * e.roundings + 1) (fun d hd => (roundings_backward i hp (.const 1) d hd).trans (by simp only [Expr.roundings]; omega)) x
  rw [majorant_backward i hp] at h1
  rwa [show (Expr.const 1).majorant = .const 1 by simp [Expr.majorant]] at h1

/-- The second derivatives which `TorchModel.hessian` returns differ from the exact ones at most by `4 n + 3` roundings. -/
theorem C72_hessian (e : Expr) (he : m.func (.leaf 0) (.leaf 1) (.leaf 2) = .ok (.tensor e)) (hp : e.Polynomial)
    (x : Fin 3 → ℝ) (h : Fin 3 → Fin 3 → ℝ) (hh : InvMat.Hess (m.matIn P eng) z x h) (i j : Fin 3) (D B : (Fin 3 → ℝ) → ℝ)
    (d b : ℝ) (hD : ∀ y, Partial (fun y => e.eval y) i y (D y)) (hd : Partial D j x d)
    (hB : ∀ y, Partial (fun y => e.majorant.eval y) i y (B y)) (hb : Partial B j (fun k => |x k|) b) :
    Within P.u (4 * e.roundings + 3) (h i j) d b := by
  obtain rfl : D = fun y => e.pd i y := funext fun y => (hD y).unique (partial_eval hp y i)
  obtain rfl : B = fun y => e.majorant.pd i y := funext fun y => (hB y).unique (partial_eval (polynomial_majorant hp) y i)
  obtain rfl := hd.unique (partial_pd hp x i j)
  obtain rfl := hb.unique (partial_pd (polynomial_majorant hp) (fun k => |x k|) i j)
  rw [hess_in he hh]
  have key : ∀ i j, Within P.u (4 * e.roundings + 3) (valIn P x (d2 e i j)) (e.pd2 i j x) (e.majorant.pd2 i j fun k => |x k|) := by
    intro i j
    have p1 := polynomial_backward i hp (g := .const 1) trivial
    have r1 := roundings_backward i hp (.const 1)
    have m1 := majorant_backward i hp (.const 1)
    rw [show (Expr.const 1).majorant = .const 1 by simp [Expr.majorant]] at m1
    have v1 := Expr.pdv_backward i j x e (.const 1)
    have v2 := Expr.pdv_backward i j (fun k => |x k|) e.majorant (.const 1)
    simp only [Expr.pd, Expr.eval_const, zero_mul, zero_add, one_mul] at v1 v2
    rw [← v1, ← v2, ← m1]
    simp only [d2]
    rcases hd : e.backward i (.const 1) with _ | d
    · simp [valIn, Expr.pdv, Within]
    · rw [hd] at p1 r1
      have h2 := within_valIn (P := P) (polynomial_backward j (p1 d rfl) (g := .const 1) trivial)
        (k := 4 * e.roundings + 3) (fun d' hd' => (roundings_backward j (p1 d rfl) (.const 1) d' hd').trans (by
          have := r1 d rfl
          simp only [Expr.roundings] at this ⊢
          omega)) x
      rw [majorant_backward j (p1 d rfl), show (Expr.const 1).majorant = .const 1 by simp [Expr.majorant],
        Expr.val_backward, Expr.val_backward, Expr.eval_const, Expr.eval_const, one_mul, one_mul] at h2
      exact h2
  have h3 := key (ordered i j).1 (ordered i j).2
  by_cases hij : i ≤ j
  · simpa [ordered, hij] using h3
  · rw [Expr.pd2_comm i j, Expr.pd2_comm i j]
    simpa [ordered, hij] using h3

/-! ### binary formats -/

/-- The nearest number with `p` bits, ties to even (IEEE 754 with an unbounded exponent). -/
noncomputable def nearest (p : ℕ) (x : ℝ) : ℝ :=
  Rnd.Binary64.nearestEven (x / 2 ^ (Int.log 2 |x| + 1 - p)) * 2 ^ (Int.log 2 |x| + 1 - p)

theorem nearest_error (p : ℕ) (x : ℝ) : |nearest p x - x| ≤ 2 ^ (-(p : ℤ)) * |x| := by
  rcases eq_or_ne x 0 with rfl | hx
  · have := Rnd.Binary64.nearestEven_int 0
    simp only [Int.cast_zero] at this
    simp [nearest, this]
  have hu : (0 : ℝ) < 2 ^ (Int.log 2 |x| + 1 - p) := by positivity
  have h := Rnd.Binary64.nearestEven_error (x / 2 ^ (Int.log 2 |x| + 1 - p))
  have e : nearest p x - x = (Rnd.Binary64.nearestEven (x / 2 ^ (Int.log 2 |x| + 1 - p)) - x / 2 ^ (Int.log 2 |x| + 1 - p)) *
      2 ^ (Int.log 2 |x| + 1 - p) := by
    unfold nearest
    field_simp
  have h2 := Int.zpow_log_le_self (b := 2) (r := |x|) (by norm_num) (abs_pos.2 hx)
  push_cast at h2
  rw [e, abs_mul, abs_of_pos hu]
  calc _ ≤ 1 / 2 * (2 : ℝ) ^ (Int.log 2 |x| + 1 - p) := by gcongr
    _ = 2 ^ (-(p : ℤ)) * 2 ^ Int.log 2 |x| := by
      rw [← zpow_add₀ (by norm_num), show Int.log 2 |x| + 1 - (p : ℤ) = -(p : ℤ) + Int.log 2 |x| + 1 by ring,
        zpow_add_one₀ (by norm_num)]
      ring
    _ ≤ _ := by gcongr

/-- `torch.float32` (24 bits) and `torch.float64` (53 bits) -/
noncomputable def binary (p : ℕ) : Precision where
  u := 2 ^ (-(p : ℤ))
  u_nonneg := by positivity
  rnd := nearest p
  rnd_error := nearest_error p
  npow x n := nearest p (x ^ n)
  npow_error x n := (nearest_error p (x ^ n)).trans (by
    have : (0 : ℝ) ≤ 2 ^ (-(p : ℤ)) := by positivity
    gcongr
    nlinarith)
  pow x y := nearest p (x ^ y)
  exp x := nearest p (Real.exp x)
  log x := nearest p (Real.log x)

/-- numbers next to one are converted to one -/
theorem nearest_one (p : ℕ) (hp : 0 < p) {x : ℝ} (h : |x - 1| < 2 ^ (-(p : ℤ) - 1)) : nearest p x = 1 := by
  obtain ⟨h1, h2⟩ := abs_lt.1 h
  have hsmall : (2 : ℝ) ^ (-(p : ℤ) - 1) ≤ 1 / 4 := by
    rw [show (1 / 4 : ℝ) = 2 ^ (-2 : ℤ) by norm_num]
    exact zpow_le_zpow_right₀ (by norm_num) (by omega)
  have hx : 0 < x := by linarith
  have nat : ∀ (y : ℝ) (n : ℤ), |y - n| < 1 / 2 → Rnd.Binary64.nearestEven y = n := by
    intro y n hy
    have h3 := Rnd.Binary64.nearestEven_error y
    have h4 : |(Rnd.Binary64.nearestEven y : ℝ) - n| < 1 := by
      calc _ ≤ |(Rnd.Binary64.nearestEven y : ℝ) - y| + |y - n| := abs_sub_le _ _ _
        _ < 1 := by linarith
    have h5 : |Rnd.Binary64.nearestEven y - n| < 1 := by exact_mod_cast h4
    have := Int.abs_lt_one_iff.1 h5
    omega
  unfold nearest
  rw [abs_of_pos hx]
  rcases le_or_gt 1 x with hx1 | hx1
  · have hl : Int.log 2 x = 0 := by
      apply le_antisymm
      · refine Int.lt_add_one_iff.1 ?_
        rw [← Int.lt_zpow_iff_log_lt (by norm_num) hx]
        norm_num
        linarith
      · rw [← Int.zpow_le_iff_le_log (by norm_num) hx]
        simpa using hx1
    have e1 : x / (2 : ℝ) ^ ((0 : ℤ) + 1 - p) = x * 2 ^ ((p : ℤ) - 1) := by
      rw [div_eq_mul_inv, ← zpow_neg]
      congr 2
      ring
    obtain ⟨k, hk⟩ : ∃ k : ℕ, (p : ℤ) - 1 = k := ⟨p - 1, by omega⟩
    have e2 : Rnd.Binary64.nearestEven (x / (2 : ℝ) ^ ((0 : ℤ) + 1 - p)) = 2 ^ k := by
      apply nat
      rw [e1, hk]
      push_cast
      rw [zpow_natCast, show x * 2 ^ k - 2 ^ k = (x - 1) * 2 ^ k by ring, abs_mul, abs_of_pos (show (0 : ℝ) < 2 ^ k by positivity)]
      calc |x - 1| * 2 ^ k < 2 ^ (-(p : ℤ) - 1) * 2 ^ k := by gcongr
        _ = 2 ^ (-2 : ℤ) := by
          rw [← zpow_natCast, ← zpow_add₀ (by norm_num), ← hk]
          congr 1
          ring
        _ < 1 / 2 := by norm_num
    rw [hl, e2]
    push_cast
    rw [← zpow_natCast, ← zpow_add₀ (by norm_num), ← hk]
    simp
  · have hl : Int.log 2 x = -1 := by
      apply le_antisymm
      · refine Int.lt_add_one_iff.1 ?_
        rw [← Int.lt_zpow_iff_log_lt (by norm_num) hx]
        simpa using hx1
      · rw [← Int.zpow_le_iff_le_log (by norm_num) hx]
        norm_num
        linarith
    have e2 : Rnd.Binary64.nearestEven (x / (2 : ℝ) ^ ((-1 : ℤ) + 1 - p)) = 2 ^ p := by
      apply nat
      have e1 : x / (2 : ℝ) ^ ((-1 : ℤ) + 1 - p) = x * 2 ^ p := by
        rw [div_eq_mul_inv, ← zpow_neg, ← zpow_natCast]
        congr 2
        ring
      rw [e1]
      push_cast
      rw [show x * 2 ^ p - 2 ^ p = (x - 1) * 2 ^ p by ring, abs_mul, abs_of_pos (show (0 : ℝ) < 2 ^ p by positivity)]
      calc |x - 1| * 2 ^ p < 2 ^ (-(p : ℤ) - 1) * 2 ^ p := by gcongr
        _ = 2 ^ (-1 : ℤ) := by
          rw [← zpow_natCast, ← zpow_add₀ (by norm_num)]
          congr 1
          ring
        _ = 1 / 2 := by norm_num
    rw [hl, e2]
    push_cast
    rw [← zpow_natCast, ← zpow_add₀ (by norm_num)]
    simp

/-- In a format with `p` bits a volume change `I3 = 1 + ε` with `|ε| < 2^(-p-1)` has no effect, whatever the energy is: all
results are those of the volume-preserving deformation. -/
theorem C72_resolution (p : ℕ) (hp : 0 < p) (m : TorchModel (Num (binary p))) (eng : Engine) (z : Z) (I1 I2 I3 : ℝ)
    (h : |I3 - 1| < 2 ^ (-(p : ℤ) - 1)) :
    (m.matIn (binary p) eng).gradient I1 I2 I3 z = (m.matIn (binary p) eng).gradient I1 I2 1 z ∧
    (m.matIn (binary p) eng).hessian I1 I2 I3 z = (m.matIn (binary p) eng).hessian I1 I2 1 z := by
  have h1 : (binary p).rnd I3 = 1 := nearest_one p hp h
  have h2 : (binary p).rnd 1 = 1 := nearest_one p hp (by rw [sub_self, abs_zero]; positivity)
  simp only [TorchModel.matIn, h1, h2, and_self]

/-- A stiff volumetric energy `K/2 (I3 - 1)²` in single precision: for `|I3 - 1| < 2^-25` the derivative is returned as zero,
the exact derivative `K (I3 - 1)` is lost completely. -/
theorem C72_volumetric (K : ℝ) (eng : Engine) (z : Z) (x g : Fin 3 → ℝ) (hx : |x 2 - 1| < 2 ^ (-25 : ℤ))
    (hg : InvMat.Grad (TorchModel.matIn (binary 24)
      ⟨fun _ _ I3 => .ok (.tensor (.mul (.const (K / 2)) (.npow (.sub I3 (.const 1)) 2)))⟩ eng) z x g) :
    g 2 = 0 ∧ Partial (fun y => K / 2 * (y 2 - 1) ^ 2) 2 x (K * (x 2 - 1)) := by
  have z0 : ∀ p, nearest p 0 = 0 := fun p => by
    have := nearest_error p 0
    simpa using this
  have one : ∀ y : ℝ, |y - 1| < 2 ^ (-25 : ℤ) → nearest 24 y = 1 := fun y hy => nearest_one 24 (by norm_num) (by norm_num at hy ⊢; exact hy)
  constructor
  · rw [grad_in rfl hg]
    have e1 : d1 (.mul (.const (K / 2)) (.npow (.sub (.leaf 2) (.const 1)) 2)) 2 =
        some (.mul (.mul (.const 1) (.saved (.const (K / 2)))) (.mul (.const (2 : ℕ)) (.npow (.saved (.sub (.leaf 2) (.const 1))) 1))) := by
      simp [d1, Expr.backward, Expr.accumulate]
    rw [e1]
    change nearest 24 (_ * nearest 24 (_ * nearest 24 (nearest 24 (nearest 24 (x 2) - nearest 24 1) ^ 1))) = 0
    rw [one _ hx, one 1 (by rw [sub_self, abs_zero]; positivity)]
    simp [z0]
  · have h := partial_eval (e := .mul (.const (K / 2)) (.npow (.sub (.leaf 2) (.const 1)) 2)) ⟨trivial, trivial, trivial⟩ x 2
    simp only [Expr.pd, Expr.eval, Elementwise.const] at h
    refine h.congr_deriv ?_
    norm_num
    ring

/-- the same object up to the numbers in an array -/
def Alike {K K' : Type} : Obj K → Obj K' → Prop
  | .none, .none => True
  | .tensor e, .tensor e' => e = e'
  | .array _, .array _ => True
  | .other, .other => True
  | _, _ => False

theorem grad_alike {K K' : Type} [Neg K] [Add K] [Sub K] [Mul K] [Div K] [Pow K ℕ] [Elementwise K]
    [Neg K'] [Add K'] [Sub K'] [Mul K'] [Div K'] [Pow K' ℕ] [Elementwise K'] (eng : Engine) (L : Fin 3 → K) (L' : Fin 3 → K')
    {f : Obj K} {f' : Obj K'} (hf : Alike f f') (i : Fin 3) (n c r : Bool) (s : eng.graph) :
    (∃ er s', grad eng L f i n c r s = (.error er, s') ∧ grad eng L' f' i n c r s = (.error er, s')) ∨
    ∃ o o' s', grad eng L f i n c r s = (.ok o, s') ∧ grad eng L' f' i n c r s = (.ok o', s') ∧ Alike o o' := by
  rcases f with _ | e | a | _ <;> rcases f' with _ | e' | a' | _ <;> simp only [Alike] at hf
  · exact Or.inr ⟨.none, .none, s, rfl, rfl, trivial⟩
  · subst hf
    rcases ha : autograd eng e i c r s with ⟨er | o, s'⟩
    · exact Or.inl ⟨er, s', by simp only [grad, PyM.bind_run, ha], by simp only [grad, PyM.bind_run, ha]⟩
    · refine Or.inr ?_
      simp only [grad, PyM.bind_run, ha]
      rcases o with _ | d
      · exact ⟨.none, .none, s', rfl, rfl, trivial⟩
      · rcases n
        · exact ⟨.tensor d, .tensor d, s', rfl, rfl, rfl⟩
        · exact ⟨.array _, .array _, s', rfl, rfl, trivial⟩
  · exact Or.inr ⟨.none, .none, s, rfl, rfl, trivial⟩
  · exact Or.inr ⟨.none, .none, s, rfl, rfl, trivial⟩

/-- what a method returns, up to the numbers -/
theorem gradientObj_alike {m' : TorchModel ℝ} {e : Expr} (he : m.func (.leaf 0) (.leaf 1) (.leaf 2) = .ok (.tensor e))
    (he' : m'.func (.leaf 0) (.leaf 1) (.leaf 2) = .ok (.tensor e)) (L : Fin 3 → Num P) (L' : Fin 3 → ℝ) (n c r : Bool)
    (s : eng.graph) :
    (∃ er s', m.gradientObj eng L z n c r s = (.error er, s') ∧ m'.gradientObj eng L' z n c r s = (.error er, s')) ∨
    ∃ o1 o2 o3 o1' o2' o3' s', m.gradientObj eng L z n c r s = (.ok (o1, o2, o3, z), s') ∧
      m'.gradientObj eng L' z n c r s = (.ok (o1', o2', o3', z), s') ∧ Alike o1 o1' ∧ Alike o2 o2' ∧ Alike o3 o3' := by
  have hf : Alike (Obj.tensor e : Obj (Num P)) (Obj.tensor e : Obj ℝ) := rfl
  simp only [TorchModel.gradientObj, PyM.bind_run, PyM.lift_run, he, he']
  rcases grad_alike eng L L' hf 0 n c r s with ⟨er, s1, h1, h1'⟩ | ⟨o1, o1', s1, h1, h1', a1⟩
  · exact Or.inl ⟨er, s1, by rw [h1], by rw [h1']⟩
  rw [h1, h1']
  dsimp only
  rcases grad_alike eng L L' hf 1 n c r s1 with ⟨er, s2, h2, h2'⟩ | ⟨o2, o2', s2, h2, h2', a2⟩
  · exact Or.inl ⟨er, s2, by rw [h2], by rw [h2']⟩
  rw [h2, h2']
  dsimp only
  rcases grad_alike eng L L' hf 2 n c r s2 with ⟨er, s3, h3, h3'⟩ | ⟨o3, o3', s3, h3, h3', a3⟩
  · exact Or.inl ⟨er, s3, by rw [h3], by rw [h3']⟩
  rw [h3, h3']
  exact Or.inr ⟨o1, o2, o3, o1', o2', o3', s3, rfl, rfl, a1, a2, a3⟩

theorem hessianObj_alike {m' : TorchModel ℝ} {e : Expr} (he : m.func (.leaf 0) (.leaf 1) (.leaf 2) = .ok (.tensor e))
    (he' : m'.func (.leaf 0) (.leaf 1) (.leaf 2) = .ok (.tensor e)) (L : Fin 3 → Num P) (L' : Fin 3 → ℝ) (n : Bool)
    (s : eng.graph) :
    (∃ er s', m.hessianObj eng L z n s = (.error er, s') ∧ m'.hessianObj eng L' z n s = (.error er, s')) ∨
    ∃ o o' s', m.hessianObj eng L z n s = (.ok o, s') ∧ m'.hessianObj eng L' z n s = (.ok o', s') := by
  simp only [TorchModel.hessianObj, PyM.bind_run]
  rcases gradientObj_alike (z := z) he he' L L' false true false s with ⟨er, s0, h0, h0'⟩ |
    ⟨o1, o2, o3, o1', o2', o3', s0, h0, h0', a1, a2, a3⟩
  · exact Or.inl ⟨er, s0, by rw [h0], by rw [h0']⟩
  rw [h0, h0']
  dsimp only
  rcases grad_alike eng L L' a1 0 n false false s0 with ⟨er, s1, h1, h1'⟩ | ⟨p1, p1', s1, h1, h1', -⟩
  · exact Or.inl ⟨er, s1, by rw [h1], by rw [h1']⟩
  rw [h1, h1']
  dsimp only
  rcases grad_alike eng L L' a2 1 n false false s1 with ⟨er, s2, h2, h2'⟩ | ⟨p2, p2', s2, h2, h2', -⟩
  · exact Or.inl ⟨er, s2, by rw [h2], by rw [h2']⟩
  rw [h2, h2']
  dsimp only
  rcases grad_alike eng L L' a3 2 n false false s2 with ⟨er, s3, h3, h3'⟩ | ⟨p3, p3', s3, h3, h3', -⟩
  · exact Or.inl ⟨er, s3, by rw [h3], by rw [h3']⟩
  rw [h3, h3']
  dsimp only
  rcases grad_alike eng L L' a1 1 n false false s3 with ⟨er, s4, h4, h4'⟩ | ⟨p4, p4', s4, h4, h4', -⟩
  · exact Or.inl ⟨er, s4, by rw [h4], by rw [h4']⟩
  rw [h4, h4']
  dsimp only
  rcases grad_alike eng L L' a2 2 n false false s4 with ⟨er, s5, h5, h5'⟩ | ⟨p5, p5', s5, h5, h5', -⟩
  · exact Or.inl ⟨er, s5, by rw [h5], by rw [h5']⟩
  rw [h5, h5']
  dsimp only
  rcases grad_alike eng L L' a1 2 n false false s5 with ⟨er, s6, h6, h6'⟩ | ⟨p6, p6', s6, h6, h6', -⟩
  · exact Or.inl ⟨er, s6, by rw [h6], by rw [h6']⟩
  rw [h6, h6']
  exact Or.inr ⟨_, _, s6, rfl, rfl⟩

/-- In the default dtype the methods return for the same energies as in exact arithmetic, those of C56, at all points. -/
theorem C72_returns (m' : TorchModel ℝ) (e : Expr) (he : m.func (.leaf 0) (.leaf 1) (.leaf 2) = .ok (.tensor e))
    (he' : m'.func (.leaf 0) (.leaf 1) (.leaf 2) = .ok (.tensor e)) (x y : Fin 3 → ℝ) :
    ((∃ g, InvMat.Grad (m.matIn P eng) z x g) ↔ ∃ g, InvMat.Grad (m'.mat eng) z y g) ∧
    ((∃ h, InvMat.Hess (m.matIn P eng) z x h) ↔ ∃ h, InvMat.Hess (m'.mat eng) z y h) := by
  have G : ∀ {μ : Type} (M : InvMat ℝ Z μ) (x : Fin 3 → ℝ), (∃ g, InvMat.Grad M z x g) ↔
      ∃ s r, Returns (M.gradient (x 0) (x 1) (x 2) z) s r := fun M x =>
    ⟨fun ⟨_, s, r, h, _⟩ => ⟨s, r, h⟩, fun ⟨s, r, h⟩ => ⟨_, s, r, h, rfl⟩⟩
  have H : ∀ {μ : Type} (M : InvMat ℝ Z μ) (x : Fin 3 → ℝ), (∃ g, InvMat.Hess M z x g) ↔
      ∃ s r, Returns (M.hessian (x 0) (x 1) (x 2) z) s r := fun M x =>
    ⟨fun ⟨_, s, r, h, _⟩ => ⟨s, r, h⟩, fun ⟨s, r, h⟩ => ⟨_, s, r, h, rfl⟩⟩
  rw [G, G, H, H]
  simp only [Returns, TorchModel.matIn, TorchModel.mat, PyM.lift_run]
  constructor
  · rcases gradientObj_alike (z := z) he he' ![⟨P.rnd (x 0)⟩, ⟨P.rnd (x 1)⟩, ⟨P.rnd (x 2)⟩] ![y 0, y 1, y 2] true false false
      eng.fresh with ⟨er, s', h, h'⟩ | ⟨_, _, _, _, _, _, s', h, h', -⟩ <;> rw [h, h'] <;> simp [Except.map]
  · rcases hessianObj_alike (z := z) he he' ![⟨P.rnd (x 0)⟩, ⟨P.rnd (x 1)⟩, ⟨P.rnd (x 2)⟩] ![y 0, y 1, y 2] true
      eng.fresh with ⟨er, s', h, h'⟩ | ⟨_, _, s', h, h'⟩ <;> rw [h, h'] <;> simp [Except.map]

/-- the Yeoh energy as a tensor -/
noncomputable def yeohTensor (C10 C20 C30 : ℝ) (I1 : Expr) : Expr :=
  .add (.add (.mul (.const C10) (.sub I1 (.const 3))) (.mul (.const C20) (.npow (.sub I1 (.const 3)) 2)))
    (.mul (.const C30) (.npow (.sub I1 (.const 3)) 3))

/-- The hypotheses are met by the Yeoh energy in single precision, on the engine which releases buffers: it is a polynomial, the
methods return, and the first derivative `C10 + 2 C20 (I1 - 3) + 3 C30 (I1 - 3)²` is off by at most 29 roundings. -/
example (C10 C20 C30 : ℝ) (x : Fin 3 → ℝ) :
    let m : TorchModel (Num (binary 24)) := ⟨fun I1 _ _ => .ok (.tensor (yeohTensor C10 C20 C30 I1))⟩
    (∃ h, InvMat.Hess (m.matIn (binary 24) releasing) () x h) ∧
    ∃ g, InvMat.Grad (m.matIn (binary 24) releasing) () x g ∧
      |g 0 - (C10 + 2 * C20 * (x 0 - 3) + 3 * C30 * (x 0 - 3) ^ 2)| ≤
        ((1 + 2 ^ (-24 : ℤ)) ^ 29 - 1) * (|C10| + 2 * |C20| * (|x 0| + 3) + 3 * |C30| * (|x 0| + 3) ^ 2) := by
  intro m
  have hr := C72_returns (z := ()) (eng := releasing) (m := m) (yeoh C10 C20 C30) (yeohTensor C10 C20 C30 (.leaf 0)) rfl rfl x x
  have hp : (yeohTensor C10 C20 C30 (.leaf 0)).Polynomial := by simp [yeohTensor, Expr.Polynomial]
  refine ⟨hr.2.2 ?_, ?_⟩
  · refine (C56_hessian_buffers_partial _ _ _ rfl (by simp [Expr.Written, Keeps]) x).2
      ⟨⟨0, by simp [Expr.Uses]⟩, fun i j hij => ?_, fun i => ?_⟩
    · fin_cases i <;> fin_cases j <;> simp_all [Expr.Couples, Expr.Uses]
    · simp [Expr.Uses, Expr.Curved, Expr.Linked, Expr.Nested, Expr.Couples]
  · obtain ⟨g, hg⟩ := hr.1.2 ((C56_buffers_partial _ _ _ rfl (by simp [Expr.Written, Keeps]) x).2
      ⟨⟨0, by simp [Expr.Uses]⟩, fun i j hij => by fin_cases i <;> fin_cases j <;> simp_all [Expr.Couples, Expr.Uses]⟩)
    refine ⟨g, hg, ?_⟩
    have h := C72_gradient (yeohTensor C10 C20 C30 (.leaf 0)) rfl hp x g hg 0 _ _ (partial_eval hp x 0)
      (partial_eval (polynomial_majorant hp) _ 0)
    have e1 : (yeohTensor C10 C20 C30 (.leaf 0)).pd 0 x = C10 + 2 * C20 * (x 0 - 3) + 3 * C30 * (x 0 - 3) ^ 2 := by
      simp only [yeohTensor, Expr.pd, Expr.eval, Elementwise.const]
      norm_num
      ring
    have e2 : (yeohTensor C10 C20 C30 (.leaf 0)).majorant.pd 0 (fun k => |x k|) =
        |C10| + 2 * |C20| * (|x 0| + 3) + 3 * |C30| * (|x 0| + 3) ^ 2 := by
      simp only [yeohTensor, Expr.majorant, Expr.pd, Expr.eval, Elementwise.const]
      norm_num
      ring
    rw [e1, e2] at h
    exact h

end Props
