import Verif.Spec.RoundingTangent
import Verif.Model.RoundingTangent
import Verif.Proofs.RoundingStretches
import Verif.Proofs.DividedDiff
import Mathlib.Analysis.SpecialFunctions.Pow.Deriv

/-! The coefficients of the tangent of `Stretches(Ogden)` in floating-point arithmetic. -/

namespace Hel.Rnd
open Spec Matrix

variable (R : RoundingSqrt)

/-! ### the second derivatives -/

theorem sqrt_rpow2 {x : ℝ} (hx : 0 < x) (α : ℝ) : √x ^ (α - 2) = x ^ ((α - 2) / 2) := by
  rw [Real.sqrt_eq_rpow, ← Real.rpow_mul hx.le]
  congr 1; ring

theorem rpow_sub_four {x : ℝ} (hx : 0 < x) (α : ℝ) : x ^ ((α - 2) / 2) = x ^ ((α - 4) / 2) * x := by
  rw [← Real.rpow_add_one hx.ne']
  congr 1; ring

theorem rate2_sum (mu alpha : List ℝ) {x : ℝ} (hx : 0 < x) :
    ((mu.zip alpha).map fun p => 2 * p.1 / p.2 * (p.2 - 1) * √x ^ (p.2 - 2)).sum / (4 * √x * √x) -
      ogdenRate mu alpha x / (2 * √x ^ 2) = ogdenRate2 mu alpha x := by
  rw [mul_assoc 4, Real.mul_self_sqrt hx.le, Real.sq_sqrt hx.le]
  unfold ogdenRate ogdenRate2
  induction mu.zip alpha with
  | nil => simp
  | cons p l ih =>
    rw [List.map_cons, List.sum_cons, List.map_cons, List.sum_cons, List.map_cons, List.sum_cons, ← ih, sqrt_rpow2 hx,
      rpow_sub_four hx]
    have := hx.ne'
    have e : ∀ c y : ℝ, 2 * p.1 / p.2 * (p.2 - 1) * (y * x) / (4 * x) - p.1 / p.2 * (y * x) / (2 * x) =
        p.1 / p.2 * ((p.2 - 2) / 2) * y := fun c y => by
      have e1 : 2 * p.1 / p.2 * (p.2 - 1) * (y * x) / (4 * x) = p.1 / p.2 * ((p.2 - 1) / 2) * y := by
        field_simp
        ring
      have e2 : p.1 / p.2 * (y * x) / (2 * x) = p.1 / p.2 * (1 / 2) * y := by field_simp
      rw [e1, e2]; ring
    rw [← e 0]
    ring

theorem rate2P_sum (mu alpha : List ℝ) {x : ℝ} (hx : 0 < x) :
    ((mu.zip alpha).map fun p => 2 * |p.1| / |p.2| * |p.2 - 1| * √x ^ (p.2 - 2)).sum / (4 * √x * √x) +
      ogdenRateP mu alpha x / (2 * √x ^ 2) = ogdenRate2P mu alpha x := by
  rw [mul_assoc 4, Real.mul_self_sqrt hx.le, Real.sq_sqrt hx.le]
  unfold ogdenRateP ogdenRate2P
  induction mu.zip alpha with
  | nil => simp
  | cons p l ih =>
    rw [List.map_cons, List.sum_cons, List.map_cons, List.sum_cons, List.map_cons, List.sum_cons, ← ih, sqrt_rpow2 hx,
      rpow_sub_four hx, abs_div]
    have := hx.ne'
    have e : ∀ c y : ℝ, 2 * |p.1| / |p.2| * |p.2 - 1| * (y * x) / (4 * x) + |p.1| / |p.2| * (y * x) / (2 * x) =
        |p.1| / |p.2| * ((|p.2 - 1| + 1) / 2) * y := fun c y => by
      have e1 : 2 * |p.1| / |p.2| * |p.2 - 1| * (y * x) / (4 * x) = |p.1| / |p.2| * (|p.2 - 1| / 2) * y := by
        field_simp
        ring
      have e2 : |p.1| / |p.2| * (y * x) / (2 * x) = |p.1| / |p.2| * (1 / 2) * y := by field_simp
      rw [e1, e2]; ring
    rw [← e 0]
    ring

/-- The loop of `Ogden.hessian`. -/
theorem ogden_loop2 (T : Ctx) (l l' : ℝ) (hl : 0 < l) (ps : List (ℝ × ℝ))
    (h : ∀ p ∈ ps, p.2 ≠ 0 ∧ |T.R.pow l' (T.R.sub p.2 2) - l ^ (p.2 - 2)| ≤ (T.q - 1) * |l ^ (p.2 - 2)|)
    (acc : Cert T) {k : ℕ} (ha : acc.a ≤ 1) (hb : acc.b ≤ k) (hk : 5 ≤ k) :
    ∃ x : Cert T, x.fl = ps.foldl (fun d2W p => T.R.add d2W (T.R.mul (T.R.mul (T.R.div (T.R.mul 2 p.1) p.2)
        (T.R.sub p.2 1)) (T.R.pow l' (T.R.sub p.2 2)))) acc.fl ∧
      x.ex = acc.ex + (ps.map fun p => 2 * p.1 / p.2 * (p.2 - 1) * l ^ (p.2 - 2)).sum ∧
      x.m = acc.m + (ps.map fun p => 2 * |p.1| / |p.2| * |p.2 - 1| * l ^ (p.2 - 2)).sum ∧ x.a ≤ 1 ∧ x.b ≤ k + ps.length := by
  induction ps generalizing acc k with
  | nil => exact ⟨acc, rfl, by simp, by simp, ha, by simpa using hb⟩
  | cons p ps ih =>
    obtain ⟨hp, hq⟩ := h p (List.mem_cons_self ..)
    let d : Cert T :=
      { fl := T.R.sub p.2 1
        ex := p.2 - 1
        m := |p.2 - 1|
        a := 0
        b := 1
        maj := le_rfl
        err := by simpa [Ctx.E] using T.R.sub_error p.2 1 }
    let t : Cert T := Cert.mul (Cert.mul (Cert.divData p.2 hp (Cert.mul (Cert.ofReal 2) (Cert.ofReal p.1))) d) (Cert.rel _ _ hq)
    obtain ⟨x, h1, h2, h3, h4, h5⟩ := ih (fun p' hp' => h p' (List.mem_cons_of_mem _ hp')) (Cert.add acc t) (k := k + 1)
      (by change max acc.a 1 ≤ 1; omega) (by change max acc.b 5 + 1 ≤ k + 1; omega) (by omega)
    refine ⟨x, h1, ?_, ?_, h4, ?_⟩
    · rw [h2, List.map_cons, List.sum_cons, ← add_assoc]; rfl
    · rw [h3, List.map_cons, List.sum_cons, ← add_assoc]
      change acc.m + |2| * |p.1| / |p.2| * |p.2 - 1| * |l ^ (p.2 - 2)| + _ = _
      rw [abs_two, abs_of_pos (Real.rpow_pos_of_pos hl _)]
    · rw [List.length_cons]; omega

/-- The computed root. -/
noncomputable def sqrtC (T : Ctx) {x s : ℝ} (h : |s - √x| ≤ T.R.u * √x) : Cert T where
  fl := s
  ex := √x
  m := √x
  a := 0
  b := 1
  maj := by rw [abs_of_nonneg (Real.sqrt_nonneg x)]
  err := by simpa [Ctx.E] using h

theorem denominator (T : Ctx) (c : Cert T) (hm : c.m = |c.ex|) (ha : c.a = 0) (hb : c.b ≤ 5)
    (hs : (1 + T.R.u) ^ 5 < 2) (hq : 1 / (2 - (1 + T.R.u) ^ 5) ≤ T.q) :
    |c.fl - c.ex| ≤ (1 - 1 / T.q) * |c.ex| := by
  have h := c.err_mono (a := 0) (b := 5) ha.le hb
  rw [hm] at h
  refine h.trans (mul_le_mul_of_nonneg_right ?_ (abs_nonneg _))
  have hq0 : 0 < T.q := lt_of_lt_of_le one_pos T.one_le
  have : 1 / T.q ≤ 2 - (1 + T.R.u) ^ 5 := by
    rw [div_le_iff₀ (by linarith)] at hq
    rw [div_le_iff₀ hq0]; linarith
  unfold Ctx.E
  rw [pow_zero, one_mul]
  linarith

/-- The second derivative of the energy with respect to a squared stretch, as computed by `Stretches.hessian`. -/
theorem ogden_coefficient2 {ε a b L G q D L₂ : ℝ} {mu alpha : List ℝ} (hα : ∀ p ∈ alpha, p ≠ 0)
    (hB : OgdenTangentBounds R.u ε mu alpha a b L G q D L₂) (hq : 1 ≤ q) {x : ℝ} (hx : x ∈ Set.Icc a b) :
    ∃ c : Cert (ctxQ R hq), c.fl = R.sub (R.div (R.ogdenHessian ⟨mu, alpha⟩ (R.sqrt x)) (R.mul (R.mul 4 (R.sqrt x)) (R.sqrt x)))
        (R.div (R.rateC ⟨mu, alpha⟩ (R.sqrt x)) (R.mul 2 (R.sq (R.sqrt x)))) ∧
      c.ex = ogdenRate2 mu alpha x ∧ c.m = ogdenRate2P mu alpha x ∧ c.a ≤ 3 ∧ c.b ≤ (mu.zip alpha).length + 7 := by
  have hx0 : 0 < x := hB.pos.trans_le hx.1
  have hl : 0 < √x := Real.sqrt_pos.2 hx0
  have hu := R.u_nonneg
  have hu1 : R.u < 1 := by nlinarith [hB.small]
  have hl' := R.sqrt_error x hx0
  obtain ⟨y, h1, h2, h3, h4, h5⟩ := ogden_loop2 (ctxQ R hq) (√x) (R.sqrt x) hl (mu.zip alpha) (fun p hp => by
    refine ⟨hα _ (List.of_mem_zip hp).2, ?_⟩
    refine (pow_accuracy_of R.toRounding hl hu1 hl' (R.sub_error _ _)).trans ?_
    refine mul_le_mul_of_nonneg_right (sub_le_sub_right ?_ _) (abs_nonneg _)
    refine le_trans (le_of_eq ?_) (hB.power2 _ (List.of_mem_zip hp).2 x hx)
    unfold ogdenFactor2
    rw [Real.log_sqrt hx0.le, abs_div, abs_two]
    ring_nf) (Cert.ofReal 0) (k := 5) (Nat.zero_le _) (Nat.zero_le _) le_rfl
  obtain ⟨g, g1, g2, g3, g4, g5⟩ := ogden_coefficient R hα hB.toOgdenBounds hq hx
  let s : Cert (ctxQ R hq) := sqrtC _ hl'
  have hd1 := denominator (ctxQ R hq) (Cert.mul (Cert.mul (Cert.ofReal 4) s) s) (by
      change |4| * √x * √x = |4 * √x * √x|
      rw [abs_mul, abs_mul, abs_of_pos hl]) rfl (by change 0 + 1 + 1 + 1 + 1 ≤ 5; omega) hB.small2 hB.reciprocal2
  have hd2 := denominator (ctxQ R hq) (Cert.mul (Cert.ofReal 2) (Cert.sq s)) (by
      change |2| * √x ^ 2 = |2 * √x ^ 2|
      rw [abs_mul, abs_of_pos (pow_pos hl 2)]) rfl (by change 0 + (1 + 1 + 2) + 1 ≤ 5; omega) hB.small2 hB.reciprocal2
  refine ⟨Cert.sub (Cert.divBy (4 * √x * √x) _ (by positivity) hd1 y) (Cert.divBy (2 * √x ^ 2) _ (by positivity) hd2 g),
    ?_, ?_, ?_, ?_, ?_⟩
  · change R.sub (R.div y.fl _) (R.div g.fl _) = _
    rw [h1, g1]; rfl
  · change y.ex / _ - g.ex / _ = _
    rw [h2, g2, ← rate2_sum mu alpha hx0]
    change (0 + _) / _ - _ = _
    rw [zero_add]
  · change y.m / _ + g.m / _ = _
    rw [h3, g3, ← rate2P_sum mu alpha hx0]
    change (|0| + _) / _ + _ = _
    rw [abs_zero, zero_add, abs_of_pos (by positivity : 0 < 4 * √x * √x), abs_of_pos (by positivity : 0 < 2 * √x ^ 2)]
  · change max (y.a + 1) (g.a + 1) ≤ 3; omega
  · change max (y.b + 1) (g.b + 1) + 1 ≤ _; omega

/-- The computed difference of two squared stretches. -/
theorem computed_difference {x y : ℝ} (hx : 0 < x) (hy : 0 < y) :
    |R.sub (R.sq (R.sqrt x)) (R.sq (R.sqrt y)) - (x - y)| ≤ ((1 + R.u) ^ 5 - 1) * (x + y) := by
  let T : Ctx := ctxQ R le_rfl
  have h := (Cert.sub (Cert.sq (sqrtC T (R.sqrt_error x hx))) (Cert.sq (sqrtC T (R.sqrt_error y hy)))).err
  change |R.sub (R.sq (R.sqrt x)) (R.sq (R.sqrt y)) - (√x ^ 2 - √y ^ 2)| ≤ (T.E 0 5 - 1) * (√x ^ 2 + √y ^ 2) at h
  rw [Real.sq_sqrt hx.le, Real.sq_sqrt hy.le] at h
  simpa [Ctx.E, T] using h

theorem computed_zero {x y : ℝ} (hu : R.u < 1) (hx : 0 < x) (hy : 0 < y) :
    R.div 0 (R.mul (R.mul 4 (R.sqrt x)) (R.sqrt y)) = 0 := by
  have hpos : ∀ {t t' : ℝ}, t ≠ 0 → |t' - t| ≤ R.u * |t| → t' ≠ 0 := fun {t t'} ht h h0 => by
    rw [h0, zero_sub, abs_neg] at h
    have := abs_pos.2 ht
    nlinarith
  have h1 : ∀ {x : ℝ}, 0 < x → R.sqrt x ≠ 0 := fun {x} hx => hpos (Real.sqrt_pos.2 hx).ne' (by
    rw [abs_of_pos (Real.sqrt_pos.2 hx)]; exact R.sqrt_error x hx)
  have h2 : R.mul (R.mul 4 (R.sqrt x)) (R.sqrt y) ≠ 0 :=
    hpos (mul_ne_zero (hpos (mul_ne_zero four_ne_zero (h1 hx)) (R.mul_error _ _)) (h1 hy)) (R.mul_error _ _)
  have := R.div_error 0 _ h2
  rw [zero_div, abs_zero, mul_zero, sub_zero] at this
  exact abs_nonpos_iff.1 this

/-! ### the divided differences -/

theorem ogdenRate_deriv (mu alpha : List ℝ) {x : ℝ} (hx : 0 < x) :
    HasDerivAt (ogdenRate mu alpha) (ogdenRate2 mu alpha x) x := by
  unfold ogdenRate2
  have e : ogdenRate mu alpha = fun x => ((mu.zip alpha).map fun p => p.1 / p.2 * x ^ ((p.2 - 2) / 2)).sum := rfl
  rw [e]
  induction mu.zip alpha with
  | nil => simpa using hasDerivAt_const x (0 : ℝ)
  | cons p l ih =>
    simp only [List.map_cons, List.sum_cons]
    refine HasDerivAt.add ?_ ih
    have h := (Real.hasDerivAt_rpow_const (x := x) (p := (p.2 - 2) / 2) (Or.inl hx.ne')).const_mul (p.1 / p.2)
    rw [show (p.2 - 2) / 2 - 1 = (p.2 - 4) / 2 by ring, ← mul_assoc] at h
    exact h

theorem abs_rate2_le (mu alpha : List ℝ) {x : ℝ} (hx : 0 < x) : |ogdenRate2 mu alpha x| ≤ ogdenRate2P mu alpha x := by
  unfold ogdenRate2 ogdenRate2P
  induction mu.zip alpha with
  | nil => simp
  | cons p l ih =>
    rw [List.map_cons, List.sum_cons, List.map_cons, List.sum_cons]
    refine (abs_add_le _ _).trans (add_le_add ?_ ih)
    rw [abs_mul, abs_mul, abs_of_pos (Real.rpow_pos_of_pos hx _)]
    have h : |(p.2 - 2) / 2| ≤ (|p.2 - 1| + 1) / 2 := by
      rw [abs_div, abs_two, show p.2 - 2 = (p.2 - 1) - 1 by ring]
      have := abs_sub (p.2 - 1) 1
      rw [abs_one] at this
      linarith
    have := (Real.rpow_pos_of_pos hx ((p.2 - 4) / 2)).le
    gcongr

variable {R} {ε a b L G q D L₂ : ℝ} {mu alpha : List ℝ}

/-- The divided differences of the derivative of Ogden's energy. -/
noncomputable abbrev ogdenDD (mu alpha : List ℝ) : ℝ → ℝ → ℝ := divDiff (ogdenRate mu alpha) (ogdenRate2 mu alpha)

theorem ogdenDD_le (hB : OgdenTangentBounds R.u ε mu alpha a b L G q D L₂) {x y : ℝ} (hx : x ∈ Set.Icc a b)
    (hy : y ∈ Set.Icc a b) : |ogdenDD mu alpha x y| ≤ D :=
  abs_divDiff_le (fun t ht => ogdenRate_deriv mu alpha (hB.pos.trans_le ht.1))
    (fun t ht => (abs_rate2_le mu alpha (hB.pos.trans_le ht.1)).trans (hB.bound2 t ht)) hx hy

theorem ogdenDD_lipschitz (hB : OgdenTangentBounds R.u ε mu alpha a b L G q D L₂) {x y z : ℝ} (hx : x ∈ Set.Icc a b)
    (hy : y ∈ Set.Icc a b) (hz : z ∈ Set.Icc a b) : |ogdenDD mu alpha x y - ogdenDD mu alpha x z| ≤ L₂ * |y - z| :=
  divDiff_lipschitz (fun t ht => ogdenRate_deriv mu alpha (hB.pos.trans_le ht.1)) hB.nonneg2 hB.lipschitz2 hx hy hz

theorem coefError_nonneg (R : RoundingSqrt) (hq : 1 ≤ q) (n : ℕ) : 0 ≤ coefError R.u q n :=
  sub_nonneg.2 ((ctxQ R hq).one_le_E 3 (n + 7))

theorem diag_error (hα : ∀ p ∈ alpha, p ≠ 0) (hB : OgdenTangentBounds R.u ε mu alpha a b L G q D L₂) (hq : 1 ≤ q)
    {w : Fin 3 → ℝ} (hw : ∀ c, w c ∈ Set.Icc a b) (c : Fin 3) :
    |R.d2WdlC2 ⟨mu, alpha⟩ (fun c => R.sqrt (w c)) (![0, 1, 2] c) - ogdenRate2 mu alpha (w c)| ≤
      coefError R.u q (mu.zip alpha).length * D := by
  obtain ⟨x, h1, h2, h3, h4, h5⟩ := ogden_coefficient2 R hα hB hq (hw c)
  have h := x.err_mono h4 h5
  rw [h1, h2, h3] at h
  have e : R.d2WdlC2 ⟨mu, alpha⟩ (fun c => R.sqrt (w c)) (![0, 1, 2] c) =
      R.sub (R.div (R.ogdenHessian ⟨mu, alpha⟩ (R.sqrt (w c))) (R.mul (R.mul 4 (R.sqrt (w c))) (R.sqrt (w c))))
        (R.div (R.rateC ⟨mu, alpha⟩ (R.sqrt (w c))) (R.mul 2 (R.sq (R.sqrt (w c))))) := by
    have e1 : GenInv.ia (![0, 1, 2] c) = c := by fin_cases c <;> rfl
    have e2 : GenInv.ib (![0, 1, 2] c) = c := by fin_cases c <;> rfl
    unfold RoundingSqrt.d2WdlC2
    simp only [e1, e2, if_true]
  rw [e]
  refine h.trans ?_
  exact mul_le_mul_of_nonneg_left (hB.bound2 _ (hw c)) (coefError_nonneg R hq _)

theorem off_zero (hB : OgdenTangentBounds R.u ε mu alpha a b L G q D L₂)
    {w : Fin 3 → ℝ} (hw : ∀ c, w c ∈ Set.Icc a b) {k : Fin 6} (hk : GenInv.ia k ≠ GenInv.ib k) :
    R.d2WdlC2 ⟨mu, alpha⟩ (fun c => R.sqrt (w c)) k = 0 := by
  unfold RoundingSqrt.d2WdlC2
  simp only [if_neg hk]
  exact computed_zero R (by nlinarith [hB.small, R.u_nonneg]) (hB.pos.trans_le (hw _).1) (hB.pos.trans_le (hw _).1)

/-- The computed coefficients of the crossed terms. -/
theorem cross_error (hα : ∀ p ∈ alpha, p ≠ 0) (hB : OgdenTangentBounds R.u ε mu alpha a b L G q D L₂) (hq : 1 ≤ q)
    {τ : ℝ} (hτ : 0 < τ) {w : Fin 3 → ℝ} (hw : ∀ c, w c ∈ Set.Icc a b) {k : Fin 6} (hk : GenInv.ia k ≠ GenInv.ib k) :
    |R.crossFactor τ ⟨mu, alpha⟩ (fun c => R.sqrt (w c)) k - ogdenDD mu alpha (w (GenInv.ia k)) (w (GenInv.ib k))| ≤
      crossError R.u (coefError R.u q (mu.zip alpha).length) τ b G D L₂ := by
  set n := (mu.zip alpha).length
  set e := coefError R.u q n with he
  have he0 : 0 ≤ e := coefError_nonneg R hq n
  have hu := R.u_nonneg
  set x := w (GenInv.ia k) with hx
  set y := w (GenInv.ib k) with hy
  have hxm : x ∈ Set.Icc a b := hw _
  have hym : y ∈ Set.Icc a b := hw _
  have hx0 : 0 < x := hB.pos.trans_le hxm.1
  have hy0 : 0 < y := hB.pos.trans_le hym.1
  have hb0 : 0 < b := hx0.trans_le hxm.2
  have hDD := ogdenDD_le hB hxm hym
  have hD0 : 0 ≤ D := (abs_nonneg _).trans hDD
  have hG0 : 0 ≤ G := (abs_nonneg _).trans (abs_rate_le hB.toOgdenBounds hxm)
  set v := R.sub (R.sq (R.sqrt x)) (R.sq (R.sqrt y)) with hv
  have h5 : (1 + R.u) ^ 5 - 1 ≤ e := by
    have h := (ctxQ R hq).E_mono (a := 0) (a' := 3) (b := 5) (b' := n + 7) (by omega) (by omega)
    unfold Ctx.E at h
    rw [pow_zero, one_mul] at h
    exact sub_le_sub_right h 1
  have hve : |v - (x - y)| ≤ 2 * e * b := by
    refine (computed_difference R hx0 hy0).trans ?_
    have h1 : x + y ≤ 2 * b := by linarith [hxm.2, hym.2]
    have h0 : 0 ≤ x + y := by linarith
    calc ((1 + R.u) ^ 5 - 1) * (x + y) ≤ e * (2 * b) := mul_le_mul h5 h1 h0 he0
      _ = _ := by ring
  have hL0 := hB.nonneg2
  unfold crossError
  by_cases hclose : |v| ≤ τ
  · have e1 : R.crossFactor τ ⟨mu, alpha⟩ (fun c => R.sqrt (w c)) k =
        R.sub (R.d2WdlC2 ⟨mu, alpha⟩ (fun c => R.sqrt (w c)) (![0, 1, 2] (GenInv.ib k))) 0 := by
      rw [← off_zero hB hw hk]
      exact if_pos hclose
    rw [e1]
    have hd := diag_error hα hB hq hw (GenInv.ib k)
    rw [← he, ← hy] at hd
    set d := R.d2WdlC2 ⟨mu, alpha⟩ (fun c => R.sqrt (w c)) (![0, 1, 2] (GenInv.ib k))
    have hr := R.sub_error d 0
    rw [sub_zero] at hr
    have hself : ogdenDD mu alpha y y = ogdenRate2 mu alpha y := divDiff_self ..
    have h1 := ogdenDD_lipschitz hB hym hym hxm
    rw [hself, show ogdenDD mu alpha y x = ogdenDD mu alpha x y from divDiff_symm ..] at h1
    have h2 : |y - x| ≤ τ + 2 * e * b := by
      rw [abs_sub_comm]
      have := abs_sub_abs_le_abs_sub (x - y) v
      rw [abs_sub_comm (x - y) v] at this
      linarith
    have h3 : |ogdenRate2 mu alpha y| ≤ D := by rw [← hself]; exact ogdenDD_le hB hym hym
    have h4 : |d| ≤ D + e * D := by
      have := abs_sub_abs_le_abs_sub d (ogdenRate2 mu alpha y)
      linarith
    have h6 : |R.sub d 0 - ogdenDD mu alpha x y| ≤ R.u * (D + e * D) + e * D + L₂ * (τ + 2 * e * b) := by
      have t1 := abs_sub_le (R.sub d 0) d (ogdenDD mu alpha x y)
      have t2 := abs_sub_le d (ogdenRate2 mu alpha y) (ogdenDD mu alpha x y)
      have t3 := mul_le_mul_of_nonneg_left h4 hu
      have t4 := mul_le_mul_of_nonneg_left h2 hL0
      linarith
    refine h6.trans ?_
    have : 0 ≤ (1 + R.u) * (2 * e * (G + b * D) / τ) := by positivity
    nlinarith
  · have e1 : R.crossFactor τ ⟨mu, alpha⟩ (fun c => R.sqrt (w c)) k =
        R.div (R.sub (R.rateC ⟨mu, alpha⟩ (R.sqrt x)) (R.rateC ⟨mu, alpha⟩ (R.sqrt y))) v := if_neg hclose
    rw [e1]
    push Not at hclose
    have hv0 : v ≠ 0 := abs_pos.1 (hτ.trans hclose)
    obtain ⟨p, p1, p2, p3, p4, p5⟩ := ogden_coefficient R hα hB.toOgdenBounds hq hxm
    obtain ⟨r, r1, r2, r3, r4, r5⟩ := ogden_coefficient R hα hB.toOgdenBounds hq hym
    have hN := (Cert.sub p r).err_mono (a := 3) (b := n + 7) (by change max p.a r.a ≤ 3; omega)
      (by change max p.b r.b + 1 ≤ _; omega)
    change |R.sub p.fl r.fl - (p.ex - r.ex)| ≤ e * (p.m + r.m) at hN
    rw [p1, p2, p3, r1, r2, r3] at hN
    set N := R.sub (R.rateC ⟨mu, alpha⟩ (R.sqrt x)) (R.rateC ⟨mu, alpha⟩ (R.sqrt y)) with hNdef
    have hN' : |N - (ogdenRate mu alpha x - ogdenRate mu alpha y)| ≤ 2 * e * G := by
      refine hN.trans ?_
      have := hB.bound x hxm
      have := hB.bound y hym
      nlinarith
    have hmul : ogdenRate mu alpha x - ogdenRate mu alpha y = ogdenDD mu alpha x y * (x - y) := by
      unfold ogdenDD divDiff
      by_cases hxy : x = y
      · rw [hxy]; simp
      · rw [if_neg hxy, div_mul_cancel₀ _ (sub_ne_zero.2 hxy)]
    have hquot : |N / v - ogdenDD mu alpha x y| ≤ 2 * e * (G + b * D) / τ := by
      have e2 : N / v - ogdenDD mu alpha x y =
          ((N - (ogdenRate mu alpha x - ogdenRate mu alpha y)) - ogdenDD mu alpha x y * (v - (x - y))) / v := by
        rw [hmul]; field_simp; ring
      rw [e2, abs_div]
      have h1 : |(N - (ogdenRate mu alpha x - ogdenRate mu alpha y)) - ogdenDD mu alpha x y * (v - (x - y))| ≤
          2 * e * (G + b * D) := by
        refine (abs_sub _ _).trans ?_
        rw [abs_mul]
        have := mul_le_mul hDD hve (abs_nonneg _) hD0
        nlinarith
      exact div_le_div₀ (by positivity) h1 hτ hclose.le
    have hr := R.div_error N v hv0
    have h1 : |N / v| ≤ D + 2 * e * (G + b * D) / τ := by
      have := abs_sub_abs_le_abs_sub (N / v) (ogdenDD mu alpha x y)
      linarith
    have h2 := mul_le_mul_of_nonneg_left h1 hu
    have h3 := abs_sub_le (R.div N v) (N / v) (ogdenDD mu alpha x y)
    have h4 : 0 ≤ (1 + R.u) * (e * D) := by positivity
    have h6 : 0 ≤ L₂ * (τ + 2 * e * b) := by positivity
    have h7 : |R.div N v - ogdenDD mu alpha x y| ≤ (1 + R.u) * (2 * e * (G + b * D) / τ) + R.u * D := by
      linarith
    refine h7.trans ?_
    rw [mul_add]
    linarith

end Hel.Rnd
