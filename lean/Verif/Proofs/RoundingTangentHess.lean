import Verif.Proofs.RoundingTangentExact

/-! The computed tangent of Ogden materials against the exact one. -/

namespace Hel.Rnd
open Spec Matrix

variable {R : RoundingSqrt} {ε a b L G q D L₂ : ℝ} {mu alpha : List ℝ}

theorem crossError_ge (hB : OgdenTangentBounds R.u ε mu alpha a b L G q D L₂) {e τ : ℝ} (he : 0 ≤ e) (hτ : 0 < τ) (hG : 0 ≤ G)
    (hD : 0 ≤ D) (hb : 0 ≤ b) : e * D ≤ crossError R.u e τ b G D L₂ := by
  have hu := R.u_nonneg
  have hL := hB.nonneg2
  unfold crossError
  have h1 : 0 ≤ 2 * e * (G + b * D) / τ := by positivity
  have h2 : 0 ≤ L₂ * (τ + 2 * e * b) := by positivity
  nlinarith [mul_nonneg he hD, mul_nonneg hu hD, mul_nonneg hu (mul_nonneg he hD), mul_nonneg hu h1]

/-- All coefficients. -/
theorem coef_error (hα : ∀ p ∈ alpha, p ≠ 0) (hB : OgdenTangentBounds R.u ε mu alpha a b L G q D L₂) (hq : 1 ≤ q)
    {τ : ℝ} (hτ : 0 < τ) {w : Fin 3 → ℝ} (hw : ∀ c, w c ∈ Set.Icc a b) (c d : Fin 3) :
    |pairCoef (R.d2WdlC2 ⟨mu, alpha⟩ fun c => R.sqrt (w c)) (R.crossFactor τ ⟨mu, alpha⟩ fun c => R.sqrt (w c)) c d -
      ogdenDD mu alpha (w c) (w d)| ≤ crossError R.u (coefError R.u q (mu.zip alpha).length) τ b G D L₂ := by
  have hD0 : 0 ≤ D := (abs_nonneg _).trans (ogdenDD_le hB (hw 0) (hw 0))
  have hG0 : 0 ≤ G := (abs_nonneg _).trans (abs_rate_le hB.toOgdenBounds (hw 0))
  have hb0 : 0 ≤ b := (hB.pos.trans_le (hw 0).1).le.trans (hw 0).2
  unfold pairCoef
  split_ifs with h
  · subst h
    rw [show ogdenDD mu alpha (w c) (w c) = ogdenRate2 mu alpha (w c) from divDiff_self _ _ _]
    exact (diag_error hα hB hq hw c).trans (crossError_ge hB (coefError_nonneg R hq _) hτ hG0 hD0 hb0)
  · have hk : GenInv.ia (tab c d) ≠ GenInv.ib (tab c d) := by
      revert h
      fin_cases c <;> fin_cases d <;> simp [tab, GenInv.ia, GenInv.ib]
    have h1 := cross_error hα hB hq hτ hw hk
    have h2 : ogdenDD mu alpha (w (GenInv.ia (tab c d))) (w (GenInv.ib (tab c d))) = ogdenDD mu alpha (w c) (w d) := by
      have h3 : (GenInv.ia (tab c d) = c ∧ GenInv.ib (tab c d) = d) ∨ (GenInv.ia (tab c d) = d ∧ GenInv.ib (tab c d) = c) := by
        revert h
        fin_cases c <;> fin_cases d <;> simp [tab, GenInv.ia, GenInv.ib]
      rcases h3 with ⟨h3, h4⟩ | ⟨h3, h4⟩
      · rw [h3, h4]
      · rw [h3, h4]
        exact divDiff_symm _ _ _ _
    rwa [h2] at h1

/-- The computed tangent at given principal stretches. -/
theorem rounded_tangent (hα : ∀ p ∈ alpha, p ≠ 0) (hB : OgdenTangentBounds R.u ε mu alpha a b L G q D L₂) (hq : 1 ≤ q)
    {τ : ℝ} (hτ : 0 < τ) {w : Fin 3 → ℝ} (hw : ∀ c, w c ∈ Set.Icc a b) {V v : Ten2 ℝ} (hV : Orthogonal V)
    (hv : ∀ i c, |v i c - V i c| ≤ ε) (i j : Fin 6) :
    |(stretchesHess (R.arr6 (R.d2WdlC2 ⟨mu, alpha⟩ fun c => R.sqrt (w c))) (R.arr6 (R.crossFactor τ ⟨mu, alpha⟩ fun c => R.sqrt (w c)))
        (R.arr33 v) i j).val - stretchesHess (R.d2WdlC2 ⟨mu, alpha⟩ fun c => R.sqrt (w c))
          (R.crossFactor τ ⟨mu, alpha⟩ fun c => R.sqrt (w c)) V i j| ≤
      (q ^ 4 * (1 + R.u) ^ 18 - 1) * (9 * (D + crossError R.u (coefError R.u q (mu.zip alpha).length) τ b G D L₂)) := by
  have hv' : ∀ i c, |v i c - V i c| ≤ (ctxQ R hq).q - 1 := fun i c => (hv i c).trans (le_sub_iff_add_le'.2 hB.vectors)
  set x := crossError R.u (coefError R.u q (mu.zip alpha).length) τ b G D L₂
  set d2 := R.d2WdlC2 ⟨mu, alpha⟩ fun c => R.sqrt (w c)
  set f := R.crossFactor τ ⟨mu, alpha⟩ fun c => R.sqrt (w c)
  have hc : ∀ c d, |pairCoef d2 f c d| ≤ D + x := fun c d => by
    have h1 := coef_error hα hB hq hτ hw c d
    have h2 := ogdenDD_le hB (hw c) (hw d)
    have := abs_add_le (pairCoef d2 f c d - ogdenDD mu alpha (w c) (w d)) (ogdenDD mu alpha (w c) (w d))
    rw [sub_add_cancel] at this
    linarith
  have z3 : d2 3 = 0 := off_zero hB hw (by decide)
  have z4 : d2 4 = 0 := off_zero hB hw (by decide)
  have z5 : d2 5 = 0 := off_zero hB hw (by decide)
  have h0 : |d2 0| ≤ D + x := hc 0 0
  have h1 : |d2 1| ≤ D + x := hc 1 1
  have h2 : |d2 2| ≤ D + x := hc 2 2
  have h3 : |f 3| ≤ D + x := hc 0 1
  have h4 : |f 4| ≤ D + x := hc 1 2
  have h5 : |f 5| ≤ D + x := hc 0 2
  refine (rounded_stretchesHess (ctxQ R hq) d2 f hV hv' i j).trans ?_
  refine mul_le_mul_of_nonneg_left ?_ (sub_nonneg.2 ((ctxQ R hq).one_le_E 4 18))
  rw [z3, z4, z5, abs_zero]
  linarith

/-- The computed hessian of `Stretches(Ogden)` at a neighbour `c` of `C`, against the exact one at `C`. -/
theorem rounded_hessian {Z : Type} (lapack solver : Eigh) (hl : EighValid lapack) {η τ : ℝ} (hα : ∀ p ∈ alpha, p ≠ 0)
    (hB : OgdenTangentBounds R.u ε mu alpha (a - η) (b + η) L G q D L₂) (hq : 1 ≤ q) (hτ : 0 < τ) (z : Z) {c : Vec6 ℝ}
    {C : Ten2 ℝ} {H : Ten4 ℝ} (hη0 : 0 ≤ η) (hC : SpectrumIn C a b)
    (hs : ∃ B V : Ten2 ℝ, Spectral B (solver (T2 c)).1 V ∧ frob (B - C) ≤ η ∧ ∀ i a, |(solver (T2 c)).2 i a - V i a| ≤ ε)
    (hH : Material.Hess (Stretches.material lapack (Ogden.mat ⟨mu, alpha⟩)) z C H) (i j k l : Fin 3) :
    |H i j k l| ≤ D + L₂ * (1 / 10 ^ 8) ∧ |astensor4 (R.stretchesHessian solver τ ⟨mu, alpha⟩ c) i j k l - H i j k l| ≤
      tangentError (q ^ 4 * (1 + R.u) ^ 18) (crossError R.u (coefError R.u q (mu.zip alpha).length) τ (b + η) G D L₂) D +
        (4 * L₂ * η + L₂ * (1 / 10 ^ 8)) := by
  have hminor : ∀ i j k l, H i j k l = H i j l k := by
    obtain ⟨_, _, _, -, h, -⟩ := hH
    exact h.minor.2
  obtain ⟨B, V, hBV, hd', hv⟩ := hs
  have hw := Spectral.mem hBV (SpectrumIn.perturb hC hd')
  obtain ⟨s, U, K, hsp, hm, hHX, hK⟩ := ogden_exact_hess lapack hl z hB (by linarith) (by linarith) hC hH
  have e : (fun i j => astensor c j i) = T2 c := by
    funext i j
    exact (T2_stores c).symm.apply i j
  set w := (solver (T2 c)).1
  set d2 := R.d2WdlC2 ⟨mu, alpha⟩ fun c => R.sqrt (w c) with hd2
  set f := R.crossFactor τ ⟨mu, alpha⟩ fun c => R.sqrt (w c) with hf
  set x := crossError R.u (coefError R.u q (mu.zip alpha).length) τ (b + η) G D L₂
  have h1 : |astensor4 (R.stretchesHessian solver τ ⟨mu, alpha⟩ c) i j k l - astensor4 (stretchesHess d2 f (show Full2 ℝ from V)) i j k l| ≤
      (q ^ 4 * (1 + R.u) ^ 18 - 1) * (9 * (D + x)) := by
    have := rounded_tangent hα hB hq hτ hw hBV.orthogonal hv (tab i j) (tab k l)
    have e1 : astensor4 (R.stretchesHessian solver τ ⟨mu, alpha⟩ c) i j k l =
        (stretchesHess (R.arr6 d2) (R.arr6 f) (R.arr33 (solver (T2 c)).2) (tab i j) (tab k l)).val := by
      unfold RoundingSqrt.stretchesHessian
      rw [e]
      rfl
    rw [e1]
    exact this
  have h2 : |astensor4 (stretchesHess d2 f (show Full2 ℝ from V)) i j k l - H i j k l| ≤ x + (4 * L₂ * η + L₂ * (1 / 10 ^ 8)) := by
    refine component_le (fun i j k l => by simp only [astensor4]; rw [tab_comm k l]) hminor (fun X hX hX1 => ?_) i j k l
    have z3 : d2 3 = 0 := off_zero hB hw (by decide)
    have z4 : d2 4 = 0 := off_zero hB hw (by decide)
    have z5 : d2 5 = 0 := off_zero hB hw (by decide)
    have hL := hB.nonneg2
    have hx0 : 0 ≤ x := (abs_nonneg _).trans (coef_error hα hB hq hτ hw 0 0)
    have hX0 := frob_nonneg X
    have t1 : frob (spectralDeriv V (pairCoef d2 f) X - spectralDeriv V (fun a b => ogdenDD mu alpha (w a) (w b)) X) ≤ x := by
      rw [spectralDeriv_sub]
      refine (frob_spectralDeriv hBV.orthogonal (fun a b => coef_error hα hB hq hτ hw a b) X).trans ?_
      exact mul_le_of_le_one_right hx0 hX1
    have t2 : frob (spectralDeriv V (fun a b => ogdenDD mu alpha (w a) (w b)) X -
        spectralDeriv U (fun a b => ogdenDD mu alpha (s a) (s b)) X) ≤ 4 * L₂ * η := by
      refine (spectralDeriv_perturb hBV hsp (ogdenDD mu alpha) hL (fun a c b => ogdenDD_lipschitz hB (hw a) (hw c) (hm b))
        (fun a d b => ?_) X).trans ?_
      · have e1 : ogdenDD mu alpha (s d) (s b) = ogdenDD mu alpha (s b) (s d) := divDiff_symm _ _ _ _
        have e2 : ogdenDD mu alpha (w a) (s b) = ogdenDD mu alpha (s b) (w a) := divDiff_symm _ _ _ _
        rw [e1, e2]
        exact ogdenDD_lipschitz hB (hm b) (hm d) (hw a)
      · have e1 : 4 * L₂ * frob X ≤ 4 * L₂ := mul_le_of_le_one_right (by positivity) hX1
        exact mul_le_mul e1 hd' (frob_nonneg _) (by positivity)
    have t3 : frob (spectralDeriv U (fun a b => ogdenDD mu alpha (s a) (s b)) X - spectralDeriv U K X) ≤ L₂ * (1 / 10 ^ 8) := by
      rw [spectralDeriv_sub]
      refine (frob_spectralDeriv hsp.orthogonal (fun a b => ?_) X).trans (mul_le_of_le_one_right (by positivity) hX1)
      rw [abs_sub_comm]
      exact hK a b
    rw [hHX X hX, contract_stretchesHess d2 f z3 z4 z5 V hX]
    have t4 := frob_add_le (spectralDeriv V (pairCoef d2 f) X - spectralDeriv V (fun a b => ogdenDD mu alpha (w a) (w b)) X)
      (spectralDeriv V (fun a b => ogdenDD mu alpha (w a) (w b)) X - spectralDeriv U (fun a b => ogdenDD mu alpha (s a) (s b)) X)
    rw [sub_add_sub_cancel] at t4
    have t5 := frob_add_le (spectralDeriv V (pairCoef d2 f) X - spectralDeriv U (fun a b => ogdenDD mu alpha (s a) (s b)) X)
      (spectralDeriv U (fun a b => ogdenDD mu alpha (s a) (s b)) X - spectralDeriv U K X)
    rw [sub_add_sub_cancel] at t5
    linarith
  refine ⟨?_, ?_⟩
  · have h3 := component_le (H := H) (H' := fun _ _ _ _ => 0) (c := D + L₂ * (1 / 10 ^ 8)) hminor (fun _ _ _ _ => rfl)
      (fun X hX hX1 => by
        have e0 : contract42 (fun _ _ _ _ => (0 : ℝ)) X = 0 := by
          ext i j
          simp [contract42]
        rw [e0, sub_zero, hHX X hX]
        have hK' : ∀ a b, |K a b| ≤ D + L₂ * (1 / 10 ^ 8) := fun a b => by
          have := abs_add_le (K a b - ogdenDD mu alpha (s a) (s b)) (ogdenDD mu alpha (s a) (s b))
          rw [sub_add_cancel] at this
          linarith [hK a b, ogdenDD_le hB (hm a) (hm b)]
        exact (frob_spectralDeriv hsp.orthogonal hK' X).trans
          (mul_le_of_le_one_right ((abs_nonneg _).trans (hK' 0 0)) hX1)) i j k l
    rwa [sub_zero] at h3
  unfold tangentError
  have := (abs_sub_le _ _ _).trans (add_le_add h1 h2)
  linarith

/-! ### the deformation space -/

theorem IsHom.defElasticity {K L : Type} [Arith K] [Arith L] {f : K → L} (hf : IsHom f) (F : Full2 K) (S : Vec6 K) (C4 : Mat6 K)
    (i j k l : Fin 3) : f (Rnd.defElasticity F S C4 i j k l) =
      Rnd.defElasticity (fun i j => f (F i j)) (fun a => f (S a)) (fun a b => f (C4 a b)) i j k l := by
  simp only [Rnd.defElasticity, hf.piolaElasticity, hf.mul, hf.lit]

/-- The computed elasticity tensor of given derivatives of the energy. -/
theorem rounded_defElasticity (R : Rounding) (F : Ten2 ℝ) {g : Vec6 ℝ} {E : Ten2 ℝ} (hE : E.IsSymm) {M δ : ℝ}
    (hg : ∀ i, |g i - asvoigt E i| ≤ δ) (hM : ∀ i j, |E i j| ≤ M) {h : Mat6 ℝ} {H : Ten4 ℝ} {M' δ' : ℝ}
    (hh : ∀ i j k l, |astensor4 h i j k l - H i j k l| ≤ δ') (hM' : ∀ i j k l, |H i j k l| ≤ M') (i J k L : Fin 3) :
    |(defElasticity (R.arr33 F) (R.arr6 g) (fun a b => (⟨h a b⟩ : Fl R)) i J k L).val -
        piolaT F ((2 : ℝ) • E) (fun i j k l => 4 * H i j k l) i J k L| ≤
      4 * (∑ I, |F i I|) * (∑ K, |F k K|) * ((1 + R.u) ^ 14 * (M' + δ') - M') +
        (if i = k then 2 * ((1 + R.u) ^ 14 * (M + δ) - M) else 0) := by
  have h0 : Within R.u 14 (defElasticity (R.arr33 F) (R.arr6 g) (fun a b => (⟨h a b⟩ : Fl R)) i J k L).val
      (defElasticity F g h i J k L)
      (defElasticity (fun i j => (lit (F i j) : Maj)) (fun a => lit (g a)) (fun a b => lit (h a b)) i J k L).val :=
    Props.within_of _ (Cert.hom_fl.defElasticity (fun i j => lit (F i j)) (fun a => lit (g a)) (fun a b => lit (h a b)) i J k L)
      (Cert.hom_ex.defElasticity ..) (Cert.hom_m.defElasticity ..) (Cert.hom_cnt.defElasticity ..)
      (Cnt.le_piolaElasticity (a := 0) (b := 1) (a' := 0) (b' := 1) (fun _ _ => ⟨le_rfl, le_rfl⟩) (fun _ => ⟨le_rfl, le_rfl⟩)
        (fun _ _ => ⟨le_rfl, le_rfl⟩) i J k L).2
  have e1 : defElasticity F g h i J k L = (∑ I, ∑ K, F i I * F k K * (4 * astensor4 h I J K L)) +
      (1 : Ten2 ℝ) i k * (2 * T2 g J L) := by
    have : defElasticity F g h = piolaT F (T2 (fun a => 2 * g a)) (astensor4 fun a b => 4 * h a b) := piolaElasticity_exact F _ _
    rw [this, T2_smul]
    rfl
  have e2 : (defElasticity (fun i j => (lit (F i j) : Maj)) (fun a => lit (g a)) (fun a b => lit (h a b)) i J k L).val =
      (∑ I, ∑ K, |F i I| * |F k K| * (4 * |astensor4 h I J K L|)) + (1 : Ten2 ℝ) i k * (2 * |T2 g J L|) := by
    unfold defElasticity
    rw [Maj.val_piolaElasticity]
    simp only [pushP, dyadIK]
    congr 1
    · refine Finset.sum_congr rfl fun I _ => Finset.sum_congr rfl fun K _ => ?_
      change |F i I| * |F k K| * (|4| * |h (tab I J) (tab K L)|) = _
      rw [show |(4 : ℝ)| = 4 by norm_num]; rfl
    · change (1 : Ten2 ℝ) i k * (|2| * |g (tab J L)|) = _
      rw [abs_two]; rfl
  have hg' : |T2 g J L - E J L| ≤ δ := by
    have e3 : E J L = asvoigt E (tab J L) := by
      have := congrFun (congrFun (T2_eq (Props.C01_asvoigt_stores hE)) J) L
      rw [← this]; rfl
    rw [e3]; exact hg _
  have hg2 : |T2 g J L| ≤ M + δ := by
    have := abs_sub_abs_le_abs_sub (T2 g J L) (E J L)
    linarith [hM J L]
  have hh2 : ∀ i j k l, |astensor4 h i j k l| ≤ M' + δ' := fun i j k l => by
    have := abs_sub_abs_le_abs_sub (astensor4 h i j k l) (H i j k l)
    linarith [hM' i j k l, hh i j k l]
  have h14 : 0 ≤ (1 + R.u) ^ 14 - 1 := sub_nonneg.2 (one_le_pow₀ (by linarith [R.u_nonneg]))
  have hone : (1 : Ten2 ℝ) i k = if i = k then 1 else 0 := Matrix.one_apply
  have hid : ∀ x : ℝ, (1 : Ten2 ℝ) i k * x = if i = k then x else 0 := fun x => by rw [hone]; split_ifs <;> ring
  have hFF : ∀ c : ℝ, ∑ I, ∑ K, |F i I| * |F k K| * (4 * c) = 4 * (∑ I, |F i I|) * (∑ K, |F k K|) * c := fun c => by
    rw [mul_assoc 4, Finset.sum_mul_sum, Finset.mul_sum, Finset.sum_mul]
    refine Finset.sum_congr rfl fun I _ => ?_
    rw [Finset.mul_sum, Finset.sum_mul]
    exact Finset.sum_congr rfl fun K _ => by ring
  have h1 : |(defElasticity (R.arr33 F) (R.arr6 g) (fun a b => (⟨h a b⟩ : Fl R)) i J k L).val - defElasticity F g h i J k L| ≤
      ((1 + R.u) ^ 14 - 1) * (4 * (∑ I, |F i I|) * (∑ K, |F k K|) * (M' + δ') + if i = k then 2 * (M + δ) else 0) := by
    rw [e2] at h0
    refine h0.trans (mul_le_mul_of_nonneg_left (add_le_add ?_ ?_) h14)
    · rw [← hFF]
      refine Finset.sum_le_sum fun I _ => Finset.sum_le_sum fun K _ => ?_
      have := hh2 I J K L
      gcongr
    · rw [hid]
      split_ifs
      · linarith
      · exact le_rfl
  have h2 : |defElasticity F g h i J k L - piolaT F ((2 : ℝ) • E) (fun i j k l => 4 * H i j k l) i J k L| ≤
      4 * (∑ I, |F i I|) * (∑ K, |F k K|) * δ' + if i = k then 2 * δ else 0 := by
    rw [e1]
    simp only [piolaT, dyadIK]
    rw [add_sub_add_comm]
    refine (abs_add_le _ _).trans (add_le_add ?_ ?_)
    · rw [← hFF, ← Finset.sum_sub_distrib]
      refine (Finset.abs_sum_le_sum_abs _ _).trans (Finset.sum_le_sum fun I _ => ?_)
      rw [← Finset.sum_sub_distrib]
      refine (Finset.abs_sum_le_sum_abs _ _).trans (Finset.sum_le_sum fun K _ => ?_)
      rw [← mul_sub, ← mul_sub, abs_mul, abs_mul, abs_mul, show |(4 : ℝ)| = 4 by norm_num]
      have := hh I J K L
      gcongr
    · rw [hid, hid, Matrix.smul_apply, smul_eq_mul]
      split_ifs
      · rw [← mul_sub, abs_mul, abs_two]; linarith
      · simp
  refine (abs_sub_le _ _ _).trans ((add_le_add h1 h2).trans_eq ?_)
  split_ifs <;> ring

end Hel.Rnd
