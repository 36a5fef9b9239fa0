import Verif.Spec.RoundingOgdenCurve
import Verif.Proofs.RoundingOgdenCurve

/-!
# Floating-point rounding: simulated curves of Ogden materials (C92)

The curves which `Simulation` computes with Ogden materials in floating-point arithmetic, against the textbook curves.
-/

namespace Props
open Spec Hel Rnd

variable {Z : Type}

/-- The computed stretches lie in the given range. -/
theorem computed_in {R : RoundingSqrt} (hu : (1 + R.u) ^ 2 < 2) {k : LoadKind} {a b l : ℝ} (hp : 0 < l) (hA : k.accuracy R.u < 2)
    (h : k.StretchesIn (k.accuracy R.u) a b l) (i : Fin 3) :
    0 < k.computedF R l i i ∧ 0 < k.F l i i ∧ a ≤ k.computedF R l i i ^ 2 ∧ k.computedF R l i i ^ 2 ≤ b ∧
      a ≤ k.F l i i ^ 2 ∧ k.F l i i ^ 2 ≤ b ∧ k.computedF R l i i ^ 2 ≤ k.accuracy R.u ^ 2 * k.F l i i ^ 2 ∧
      |k.computedF R l i i ^ 2 - k.F l i i ^ 2| ≤ (k.accuracy R.u ^ 2 - 1) * k.F l i i ^ 2 := by
  have h1 := accuracy_one_le R.u_nonneg hu k
  obtain ⟨ha, hb⟩ := h i
  have hF : 0 < k.F l i i := by
    rw [loadF_eq, Matrix.diagonal_apply_eq]
    exact loadStretches_pos k hp i
  have hc := (C79_defgrad R hu k hp i i).1
  rw [abs_of_pos hF, abs_le] at hc
  set A := k.accuracy R.u
  set x := k.F l i i
  set y := k.computedF R l i i
  have h2 : (2 - A) * x ≤ y := by linarith
  have h3 : y ≤ A * x := by linarith
  have h4 : 0 < (2 - A) * x := mul_pos (by linarith) hF
  have hy : 0 < y := h4.trans_le h2
  have e1 : ((2 - A) * x) ^ 2 ≤ y ^ 2 := pow_le_pow_left₀ h4.le h2 2
  have e2 : y ^ 2 ≤ (A * x) ^ 2 := pow_le_pow_left₀ hy.le h3 2
  have e3 : ((2 - A) * x) ^ 2 ≤ x ^ 2 := pow_le_pow_left₀ h4.le (by nlinarith) 2
  have e4 : x ^ 2 ≤ (A * x) ^ 2 := pow_le_pow_left₀ hF.le (by nlinarith) 2
  refine ⟨hy, hF, ha.trans e1, e2.trans hb, ha.trans e3, e4.trans hb, by rwa [mul_pow] at e2, ?_⟩
  rw [abs_le]
  have hx2 := sq_nonneg x
  constructor
  · nlinarith [mul_nonneg (mul_nonneg (sub_nonneg.2 h1) (sub_nonneg.2 h1)) hx2]
  · nlinarith

/-- The textbook curve in terms of the derivative of the energy with respect to the squared stretches. -/
theorem ogden_exact_curve (k : LoadKind) {l : ℝ} (hp : 0 < l) (mu alpha : List ℝ) :
    ((mu.zip alpha).map fun p => ogdenCurve k p.1 p.2 l).sum =
      2 * l * ogdenRate mu alpha (l ^ 2) - 2 * k.F l 2 2 ^ 2 / l * ogdenRate mu alpha (k.F l 2 2 ^ 2) := by
  have e0 : loadStretches k l 0 = l := by cases k <;> rfl
  have e2 : loadStretches k l 2 = k.F l 2 2 := by rw [loadF_eq, Matrix.diagonal_apply_eq]
  have h2 : 0 < k.F l 2 2 := by rw [← e2]; exact loadStretches_pos k hp 2
  have e : ((mu.zip alpha).map fun p => ogdenCurve k p.1 p.2 l).sum =
      ((mu.zip alpha).map fun p => 2 * p.1 / p.2 * l ^ (p.2 - 1)).sum -
        ((mu.zip alpha).map fun p => 2 * p.1 / p.2 * k.F l 2 2 ^ (p.2 - 1)).sum * k.F l 2 2 / l := by
    induction mu.zip alpha with
    | nil => simp
    | cons p L ih =>
      simp only [List.map_cons, List.sum_cons] at ih ⊢
      rw [ih, ← ogdenCurve_sum k hp p, e0, e2]
      ring
  rw [e, ogden_principal mu alpha hp, ogden_principal mu alpha h2]
  ring

set_option maxHeartbeats 1000000 in
/-- One data point in the deformation space. -/
theorem C92_point (R : RoundingSqrt) (lapack solver : Eigh) (hl : EighValid lapack) {ε a b L G q η E l : ℝ} (hε : 0 ≤ ε)
    {mu alpha : List ℝ} (hα : ∀ p ∈ alpha, p ≠ 0) (k : LoadKind) (hp : 0 < l) (hA : k.accuracy R.u < 2)
    (hk : k.StretchesIn (k.accuracy R.u) a b l) (hη : η = ((1 + ε) * (1 + R.u) ^ 5 - 1) * (3 * b))
    (hB : OgdenBounds R.u ε mu alpha (a - η) (b + η) L G q)
    (hE : E = (q ^ 4 * (1 + R.u) ^ ((mu.zip alpha).length + 18) - 1) * (3 * G) + (1 + R.u) ^ 6 * L * η)
    (hs : ∀ C : Ten2 ℝ, C.IsSymm → EighAccurate ε C (solver C).1 (solver C).2) :
    |R.ogdenDeformationCurve solver (k.computedF R) ⟨mu, alpha⟩ l - ((mu.zip alpha).map fun p => ogdenCurve k p.1 p.2 l).sum| ≤
      ogdenCurveError R.u (k.accuracy R.u) l (k.F l 2 2 ^ 2) G L E := by
  have hu := R.u_nonneg
  have hin := fun i => computed_in (R := R) hB.small hp hA hk i
  set A := k.accuracy R.u
  set Fc := k.computedF R l with hFc
  set d : Fin 3 → ℝ := fun i => Fc i i with hd
  have hdiag : Fc = Matrix.diagonal d := ogden_computedF_diagonal R k l
  have hq : 1 ≤ q := le_trans (by linarith) hB.vectors
  have hb0 : 0 ≤ b := (sq_nonneg _).trans (hin 0).2.2.2.1
  have h5 : 1 ≤ (1 + R.u) ^ 5 := one_le_pow₀ (by linarith)
  have hc0 : 0 ≤ (1 + ε) * (1 + R.u) ^ 5 - 1 := sub_nonneg.2 (one_le_mul_of_one_le_of_one_le (by linarith) h5)
  have hη0 : 0 ≤ η := by rw [hη]; positivity
  set η' := ((1 + ε) * (1 + R.u) ^ 5 - 1) * frob Fc ^ 2 with hη'
  have hfrob : frob Fc ^ 2 ≤ 3 * b := by
    rw [hdiag, frob_diagonal, Fin.sum_univ_three]
    have := (hin 0).2.2.2.1
    have := (hin 1).2.2.2.1
    have := (hin 2).2.2.2.1
    simp only [hd]
    linarith
  have hηη : η' ≤ η := by rw [hη]; exact mul_le_mul_of_nonneg_left hfrob hc0
  -- the exact stress for the computed deformation gradient
  have hret := C52_ogden lapack hl mu alpha hα () { material := { material := () } } (l := d)
    (fun i => (hin i).1) orthogonal_one orthogonal_one
  simp only [Matrix.one_mul, Matrix.transpose_one, Matrix.mul_one] at hret
  rw [← hdiag] at hret
  have herr := fun i => C80_stress R lapack solver hl hε hα () (F := Fc)
    (by rw [hdiag]; exact spectrum_diagonal fun i => ⟨(hin i).2.2.1, (hin i).2.2.2.1⟩) hη'
    (OgdenBounds.mono hB (by linarith) (by linarith)) hs ⟨_, _, hret⟩ i i
  have hmem : ∀ x, a ≤ x → x ≤ b → x ∈ Set.Icc (a - η) (b + η) := fun x h1 h2 => ⟨by linarith, by linarith⟩
  have hG : ∀ x, a ≤ x → x ≤ b → |ogdenRate mu alpha x| ≤ G := fun x h1 h2 =>
    (ogdenRate_le mu alpha (by linarith [hB.pos])).trans (hB.bound x (hmem x h1 h2))
  have hG0 : 0 ≤ G := (abs_nonneg _).trans (hG _ (hin 0).2.2.1 (hin 0).2.2.2.1)
  have hL := hB.nonneg
  have hQ : 1 ≤ q ^ 4 * (1 + R.u) ^ ((mu.zip alpha).length + 18) :=
    one_le_mul_of_one_le_of_one_le (one_le_pow₀ hq) (one_le_pow₀ (by linarith))
  have hE0 : 0 ≤ E := by
    rw [hE]
    exact add_nonneg (mul_nonneg (by linarith) (by linarith)) (by positivity)
  have herr' : ∀ i, |R.ogdenDeformation solver ⟨mu, alpha⟩ Fc i i - 2 * d i * ogdenRate mu alpha (d i ^ 2)| ≤ 2 * d i * E := by
    intro i
    have e0 : ∀ v : Fin 3 → ℝ, ((Matrix.diagonal v : Ten2 ℝ) * (1 : Ten2 ℝ)) i i = v i := fun v => by
      rw [Matrix.mul_one, Matrix.diagonal_apply_eq]
    have h1 := (le_of_eq (congrArg (fun t => |R.ogdenDeformation solver ⟨mu, alpha⟩ Fc i i - t|) (e0 _)).symm).trans (herr i)
    rw [ogden_principal mu alpha (hin i).1] at h1
    have e1 : ∑ I, |Fc i I| = d i := by
      rw [hdiag]
      have hdi : |d i| = d i := abs_of_pos (hin i).1
      fin_cases i <;> simpa [Fin.sum_univ_three, Matrix.diagonal_apply] using hdi
    rw [e1] at h1
    refine h1.trans (mul_le_mul_of_nonneg_left ?_ (by linarith [(hin i).1]))
    rw [hE]
    exact add_le_add le_rfl (mul_le_mul_of_nonneg_left hηη (by positivity))
  have hgi : ∀ i, |2 * d i * ogdenRate mu alpha (d i ^ 2)| ≤ 2 * d i * G := fun i => by
    have h0 : 0 < d i := (hin i).1
    rw [abs_mul, abs_of_pos (by linarith)]
    exact mul_le_mul_of_nonneg_left (hG _ (hin i).2.2.1 (hin i).2.2.2.1) (by linarith)
  have hd0 : d 0 = l := (C79_defgrad R hB.small k hp 0 0).2
  have hF0 : k.F l 0 0 = l := by cases k <;> rfl
  have main := loadStress_error R (F := Fc) (P := R.ogdenDeformation solver ⟨mu, alpha⟩ Fc) hp (hin 2).1.le hd0 rfl
    (herr' 0) (herr' 2) (hgi 0) (hgi 2)
  obtain ⟨y, hy, hyF⟩ : ∃ y, y = d 2 ∧ y = Fc 2 2 := ⟨_, rfl, rfl⟩
  rw [hd0, ← hy, ← hyF] at main
  -- the exact curve
  have hexact := ogden_exact_curve k hp mu alpha
  rw [hexact]
  obtain ⟨-, hx0, hya, hyb, hxa, hxb, hyA, hxy⟩ := hin 2
  rw [← hyF] at hya hyb hyA hxy
  set x := k.F l 2 2
  have hx2 := sq_nonneg x
  have hlip := hB.lipschitz _ (hmem _ hya hyb) _ (hmem _ hxa hxb)
  have hA1 : 1 ≤ A := accuracy_one_le hu hB.small k
  have hA2 : 0 ≤ A ^ 2 - 1 := sub_nonneg.2 (one_le_pow₀ hA1)
  have hdiff : |y ^ 2 * ogdenRate mu alpha (y ^ 2) - x ^ 2 * ogdenRate mu alpha (x ^ 2)| ≤
      (A ^ 2 - 1) * x ^ 2 * (G + L * x ^ 2) := by
    calc |y ^ 2 * ogdenRate mu alpha (y ^ 2) - x ^ 2 * ogdenRate mu alpha (x ^ 2)| =
        |(y ^ 2 - x ^ 2) * ogdenRate mu alpha (y ^ 2) + x ^ 2 * (ogdenRate mu alpha (y ^ 2) - ogdenRate mu alpha (x ^ 2))| := by ring_nf
      _ ≤ |y ^ 2 - x ^ 2| * |ogdenRate mu alpha (y ^ 2)| + x ^ 2 * |ogdenRate mu alpha (y ^ 2) - ogdenRate mu alpha (x ^ 2)| := by
        refine (abs_add_le _ _).trans (le_of_eq ?_)
        rw [abs_mul, abs_mul, abs_of_nonneg hx2]
      _ ≤ |y ^ 2 - x ^ 2| * G + x ^ 2 * (L * |y ^ 2 - x ^ 2|) :=
        add_le_add (mul_le_mul_of_nonneg_left (hG _ hya hyb) (abs_nonneg _)) (mul_le_mul_of_nonneg_left hlip hx2)
      _ = |y ^ 2 - x ^ 2| * (G + L * x ^ 2) := by ring
      _ ≤ _ := mul_le_mul_of_nonneg_right hxy (by positivity)
  have hlast : |2 * y * ogdenRate mu alpha (y ^ 2) * y / l - 2 * x ^ 2 / l * ogdenRate mu alpha (x ^ 2)| ≤
      2 * x ^ 2 / l * (A ^ 2 - 1) * (G + L * x ^ 2) := by
    have e : 2 * y * ogdenRate mu alpha (y ^ 2) * y / l - 2 * x ^ 2 / l * ogdenRate mu alpha (x ^ 2) =
        2 / l * (y ^ 2 * ogdenRate mu alpha (y ^ 2) - x ^ 2 * ogdenRate mu alpha (x ^ 2)) := by ring
    rw [e, abs_mul, abs_of_pos (by positivity)]
    calc _ ≤ 2 / l * ((A ^ 2 - 1) * x ^ 2 * (G + L * x ^ 2)) := mul_le_mul_of_nonneg_left hdiff (by positivity)
      _ = _ := by ring
  have h3 : 1 ≤ (1 + R.u) ^ 3 := one_le_pow₀ (by linarith)
  have hK : 0 ≤ (1 + R.u) ^ 3 * (G + E) - G := by
    have := mul_le_mul_of_nonneg_right h3 (add_nonneg hG0 hE0)
    linarith
  have hyA' : y ^ 2 / l ≤ A ^ 2 * x ^ 2 / l := div_le_div_of_nonneg_right hyA hp.le
  change |R.stress Fc (R.ogdenDeformation solver ⟨mu, alpha⟩ Fc) - _| ≤ _
  calc |R.stress Fc (R.ogdenDeformation solver ⟨mu, alpha⟩ Fc) -
        (2 * l * ogdenRate mu alpha (l ^ 2) - 2 * x ^ 2 / l * ogdenRate mu alpha (x ^ 2))| =
      |(R.stress Fc (R.ogdenDeformation solver ⟨mu, alpha⟩ Fc) -
        (2 * l * ogdenRate mu alpha (l ^ 2) - 2 * y * ogdenRate mu alpha (y ^ 2) * y / l)) -
        (2 * y * ogdenRate mu alpha (y ^ 2) * y / l - 2 * x ^ 2 / l * ogdenRate mu alpha (x ^ 2))| := by ring_nf
    _ ≤ _ := (abs_sub _ _).trans (add_le_add main hlast)
    _ = 2 * (l + y ^ 2 / l) * ((1 + R.u) ^ 3 * (G + E) - G) + 2 * x ^ 2 / l * (A ^ 2 - 1) * (G + L * x ^ 2) := by ring
    _ ≤ _ := by
      unfold ogdenCurveError
      refine add_le_add (mul_le_mul_of_nonneg_right ?_ hK) le_rfl
      linarith

/-- The curve which is simulated with an Ogden material on the deformation space in floating-point arithmetic with a
backward stable eigenvalue solver.  Every data point may be computed with another order of the operations and another
solver. -/
theorem C92_deformation (lapack : Eigh) (hl : EighValid lapack) {mu alpha : List ℝ} (hα : ∀ p ∈ alpha, p ≠ 0)
    (sim : Simulation Z) (k : LoadKind) (lab : Option String) (hk : sim.loadcase = k.case lab) (p : List ℝ)
    (hm : sim.material (Kwargs.ofList (sim.labels.zip p)) = .ok (ogdenDeformation lapack mu alpha))
    (x : List ℝ) (hne : x ≠ []) (hx : ∀ l ∈ x, 0 < l) : ∃ y, sim.stressCurveFit x p = .ok y ∧
    List.Forall₂ (fun l f => ∀ (R : RoundingSqrt) (solver : Eigh) (ε a b L G q η E : ℝ), 0 ≤ ε → k.accuracy R.u < 2 →
      k.StretchesIn (k.accuracy R.u) a b l → η = ((1 + ε) * (1 + R.u) ^ 5 - 1) * (3 * b) →
      OgdenBounds R.u ε mu alpha (a - η) (b + η) L G q →
      E = (q ^ 4 * (1 + R.u) ^ ((mu.zip alpha).length + 18) - 1) * (3 * G) + (1 + R.u) ^ 6 * L * η →
      (∀ C : Ten2 ℝ, C.IsSymm → EighAccurate ε C (solver C).1 (solver C).2) →
      |R.ogdenDeformationCurve solver (k.computedF R) ⟨mu, alpha⟩ l - f| ≤
        ogdenCurveError R.u (k.accuracy R.u) l (k.F l 2 2 ^ 2) G L E) x y := by
  refine ⟨_, C42_ogden lapack hl mu alpha hα sim k lab hk p (.inl hm) x hne hx, ?_⟩
  rw [List.forall₂_map_right_iff, List.forall₂_same]
  intro l hlx R solver ε a b L G q η E hε hA hk hη hB hE hs
  exact C92_point R lapack solver hl hε hα k (hx l hlx) hA hk hη hB hE hs

theorem accuracy_tendsto {u : ℕ → ℝ} (hu : Filter.Tendsto u .atTop (nhds 0)) (k : LoadKind) :
    Filter.Tendsto (fun n => k.accuracy (u n)) .atTop (nhds 1) := by
  have h1 : Filter.Tendsto (fun n => 1 + u n) .atTop (nhds (1 + 0)) := hu.const_add 1
  cases k
  · have := h1.div (hu.const_sub 1) (by norm_num)
    have e : (1 + 0 : ℝ) / (1 - 0) = 1 := by norm_num
    rwa [e] at this
  · have e : (1 + 0 : ℝ) = 1 := by norm_num
    rwa [e] at h1
  · have := h1.div ((h1.pow 2).const_sub 2) (by norm_num)
    have e : (1 + 0 : ℝ) / (2 - (1 + 0) ^ 2) = 1 := by norm_num
    rwa [e] at this

/-- The squared stretches of a load case have positive bounds. -/
theorem loadRange_exists (k : LoadKind) {l : ℝ} (hp : 0 < l) : ∃ a b, 0 < a ∧ a ≤ b ∧ ∀ i, a ≤ k.F l i i ^ 2 ∧ k.F l i i ^ 2 ≤ b := by
  have h0 : ∀ i, 0 < k.F l i i ^ 2 := fun i => by
    rw [loadF_eq, Matrix.diagonal_apply_eq]
    exact pow_pos (loadStretches_pos k hp i) 2
  refine ⟨min (k.F l 0 0 ^ 2) (min (k.F l 1 1 ^ 2) (k.F l 2 2 ^ 2)), ∑ i, k.F l i i ^ 2,
    lt_min (h0 0) (lt_min (h0 1) (h0 2)), ?_, fun i => ⟨?_, ?_⟩⟩
  · refine (min_le_left _ _).trans ?_
    exact Finset.single_le_sum (f := fun i => k.F l i i ^ 2) (fun i _ => (h0 i).le) (Finset.mem_univ 0)
  · fin_cases i
    · exact min_le_left _ _
    · exact (min_le_right _ _).trans (min_le_left _ _)
    · exact (min_le_right _ _).trans (min_le_right _ _)
  · exact Finset.single_le_sum (f := fun i => k.F l i i ^ 2) (fun i _ => (h0 i).le) (Finset.mem_univ i)

/-- The curves which are computed with increasing precision of the arithmetic and of the solver converge to the
textbook curve. -/
theorem C92_converges (R : ℕ → RoundingSqrt) (solver : ℕ → Eigh) (ε : ℕ → ℝ)
    (hR : Filter.Tendsto (fun n => (R n).u) .atTop (nhds 0)) (hε : Filter.Tendsto ε .atTop (nhds 0)) (hε0 : ∀ n, 0 ≤ ε n)
    (hs : ∀ n, ∀ C : Ten2 ℝ, C.IsSymm → EighAccurate (ε n) C (solver n C).1 (solver n C).2)
    {mu alpha : List ℝ} (hα : ∀ p ∈ alpha, p ≠ 0) (k : LoadKind) {l : ℝ} (hp : 0 < l) :
    Filter.Tendsto (fun n => (R n).ogdenDeformationCurve (solver n) (k.computedF (R n)) ⟨mu, alpha⟩ l) .atTop
      (nhds ((mu.zip alpha).map fun p => ogdenCurve k p.1 p.2 l).sum) := by
  obtain ⟨lapack, hl⟩ := exists_eigh
  obtain ⟨a, b, ha, hab, hr⟩ := loadRange_exists k hp
  obtain ⟨A, hA⟩ : ∃ A, ∀ α ∈ alpha, |α - 1| ≤ A := by
    refine ⟨(alpha.map fun α => |α - 1|).sum, fun α h => ?_⟩
    exact List.single_le_sum (by
      intro x hx
      obtain ⟨y, -, rfl⟩ := List.mem_map.1 hx
      exact abs_nonneg _) _ (List.mem_map.2 ⟨α, h, rfl⟩)
  have ha2 : 0 < a / 4 := by linarith
  obtain ⟨Λ, hΛ⟩ : ∃ Λ, ∀ x ∈ Set.Icc (a / 4) (2 * b + a / 4), |Real.log x| ≤ Λ := by
    refine ⟨max |Real.log (a / 4)| |Real.log (2 * b + a / 4)|, fun x hx => ?_⟩
    have h1 := Real.log_le_log ha2 hx.1
    have h2 := Real.log_le_log (ha2.trans_le hx.1) hx.2
    exact abs_le_max_abs_abs h1 h2
  set L := ogdenL mu alpha (a / 4) (2 * b + a / 4)
  set G := ogdenG mu alpha (a / 4) (2 * b + a / 4)
  set η : ℕ → ℝ := fun n => ((1 + ε n) * (1 + (R n).u) ^ 5 - 1) * (3 * (2 * b)) with hη
  have hηt : Filter.Tendsto η .atTop (nhds 0) := by
    have := ((((hε.const_add 1).mul ((hR.const_add 1).pow 5)).sub_const 1)).mul_const (3 * (2 * b))
    simpa using this
  have hu2 : Filter.Tendsto (fun n => (1 + (R n).u) ^ 2) .atTop (nhds 1) := by
    simpa using (hR.const_add 1).pow 2
  have hq := ogdenQ_tendsto (A := A) (Λ := Λ) hR hε
  have hacc := accuracy_tendsto hR k
  set n0 := (mu.zip alpha).length
  set E : ℕ → ℝ := fun n => (ogdenQ (R n).u (ε n) A Λ ^ 4 * (1 + (R n).u) ^ (n0 + 18) - 1) * (3 * G) + (1 + (R n).u) ^ 6 * L * η n
  have hE : Filter.Tendsto E .atTop (nhds 0) := by
    have := ((((hq.pow 4).mul ((hR.const_add 1).pow (n0 + 18))).sub_const 1).mul_const (3 * G)).add
      ((((hR.const_add 1).pow 6).mul_const L).mul hηt)
    simpa using this
  set X := k.F l 2 2 ^ 2
  have hlim : Filter.Tendsto (fun n => ogdenCurveError (R n).u (k.accuracy (R n).u) l X G L (E n)) .atTop (nhds 0) := by
    have h1 := ((((hacc.pow 2).mul_const X).div_const l).const_add l).const_mul 2
    have h2 := ((((hR.const_add 1).pow 3).mul (hE.const_add G)).sub_const G)
    have h3 := (((hacc.pow 2).sub_const 1).const_mul (2 * X / l)).mul_const (G + L * X)
    have := (h1.mul h2).add h3
    simpa [ogdenCurveError] using this
  rw [tendsto_iff_dist_tendsto_zero]
  refine squeeze_zero' (Filter.Eventually.of_forall fun _ => dist_nonneg) ?_ hlim
  have hlow : ∀ᶠ n in .atTop, 1 / 2 < (2 - k.accuracy (R n).u) ^ 2 := by
    have h1 : Filter.Tendsto (fun n => (2 - k.accuracy (R n).u) ^ 2) .atTop (nhds ((2 - 1) ^ 2)) := (hacc.const_sub 2).pow 2
    exact h1.eventually_const_lt (by norm_num)
  have hupp : ∀ᶠ n in .atTop, k.accuracy (R n).u ^ 2 < 2 := by
    have h1 : Filter.Tendsto (fun n => k.accuracy (R n).u ^ 2) .atTop (nhds (1 ^ 2)) := hacc.pow 2
    exact h1.eventually_lt_const (by norm_num)
  filter_upwards [hηt.eventually (gt_mem_nhds ha2), hu2.eventually (gt_mem_nhds one_lt_two),
    hacc.eventually (gt_mem_nhds one_lt_two), hlow, hupp] with n h1 h2 h3 h4 h5
  have hB : OgdenBounds (R n).u (ε n) mu alpha (a / 2 - η n) (2 * b + η n) L G (ogdenQ (R n).u (ε n) A Λ) :=
    OgdenBounds.mono (C80_constants mu alpha (R n).u_nonneg h2 ha2 hA hΛ) (by linarith) (by linarith)
  refine C92_point (R n) lapack (solver n) hl (hε0 n) hα k hp h3 (fun i => ?_) rfl hB rfl (hs n)
  have h6 := hr i
  constructor
  · rw [mul_pow]
    nlinarith
  · rw [mul_pow]
    nlinarith [sq_nonneg (k.F l i i)]

theorem curveError_double {u A l X b G L E : ℝ} (hu : 0 ≤ u) (hu53 : u ≤ 1 / 9007199254740992) (hp : 0 < l) (hX0 : 0 ≤ X)
    (hX : X ≤ b) (hG : 0 ≤ G) (hL : 0 ≤ L) (hE0 : 0 ≤ E) (hE1 : E ≤ 1 / 4398046511104 * G + 1 / 35184372088832 * (L * b))
    (hA1 : 1 ≤ A) (hA2 : A ^ 2 ≤ 1 + 1 / 1125899906842624) :
    ogdenCurveError u A l X G L E ≤ 2 * (l + X / l) * (1 / 1099511627776 * G + 1 / 8796093022208 * L * b) := by
  have h3 : (1 + u) ^ 3 ≤ 1 + 1 / 2251799813685248 := by
    have : (1 + u) ^ 3 ≤ (1 + 1 / 9007199254740992) ^ 3 := by gcongr
    exact this.trans (by norm_num)
  have hLb : 0 ≤ L * b := mul_nonneg hL (hX0.trans hX)
  have hK : (1 + u) ^ 3 * (G + E) - G ≤ 1 / 2199023255552 * G + 1 / 17592186044416 * (L * b) := by
    have := mul_le_mul_of_nonneg_right h3 (add_nonneg hG hE0)
    linarith
  have hXl : 0 ≤ X / l := div_nonneg hX0 hp.le
  have hM : 0 ≤ 1 / 2199023255552 * G + 1 / 17592186044416 * (L * b) := by positivity
  have t1 : 2 * (l + A ^ 2 * X / l) * ((1 + u) ^ 3 * (G + E) - G) ≤
      2 * (l + (1 + 1 / 1125899906842624) * (X / l)) * (1 / 2199023255552 * G + 1 / 17592186044416 * (L * b)) := by
    have e : A ^ 2 * X / l ≤ (1 + 1 / 1125899906842624) * (X / l) := by
      rw [mul_div_assoc]
      exact mul_le_mul_of_nonneg_right hA2 hXl
    have e0 : 0 ≤ A ^ 2 * X / l := by positivity
    calc _ ≤ 2 * (l + A ^ 2 * X / l) * (1 / 2199023255552 * G + 1 / 17592186044416 * (L * b)) :=
          mul_le_mul_of_nonneg_left hK (by linarith)
      _ ≤ _ := mul_le_mul_of_nonneg_right (by linarith) hM
  have t2 : 2 * X / l * (A ^ 2 - 1) * (G + L * X) ≤ 2 * (X / l) * (1 / 1125899906842624) * (G + L * b) := by
    have e1 : G + L * X ≤ G + L * b := by
      have := mul_le_mul_of_nonneg_left hX hL
      linarith
    have e2 : 0 ≤ G + L * X := by positivity
    have e3 : 0 ≤ A ^ 2 - 1 := sub_nonneg.2 (one_le_pow₀ hA1)
    rw [mul_div_assoc]
    exact mul_le_mul (mul_le_mul_of_nonneg_left (by linarith) (by linarith)) e1 e2 (by positivity)
  unfold ogdenCurveError
  refine (add_le_add t1 t2).trans ?_
  have m1 : 0 ≤ l * G := mul_nonneg hp.le hG
  have m2 : 0 ≤ l * (L * b) := mul_nonneg hp.le hLb
  have m3 : 0 ≤ X / l * G := mul_nonneg hXl hG
  have m4 : 0 ≤ X / l * (L * b) := mul_nonneg hXl hLb
  linarith

set_option maxHeartbeats 1000000 in
/-- Double precision: at most six terms with exponents between `-15` and `17`, squared stretches between `a` and `b`. -/
theorem C92_double (R : RoundingSqrt) (hR : R.u ≤ 2 ^ (-53 : ℤ)) (solver : Eigh) {ε a b l : ℝ}
    (hε : 0 ≤ ε) (hε' : ε ≤ 2 ^ (-48 : ℤ)) {mu alpha : List ℝ} (hlen : alpha.length ≤ 6)
    (hα : ∀ p ∈ alpha, p ≠ 0 ∧ |p - 1| ≤ 16) (k : LoadKind) (hp : 0 < l) (ha : 0 < a)
    (hr : ∀ i, a ≤ k.F l i i ^ 2 ∧ k.F l i i ^ 2 ≤ b)
    (hlog : ∀ x ∈ Set.Icc (a / 2) (b + a / 2), |Real.log x| ≤ 8) (hcond : 2 ^ (-42 : ℤ) * b ≤ a)
    (hs : ∀ C : Ten2 ℝ, C.IsSymm → EighAccurate ε C (solver C).1 (solver C).2) :
    |R.ogdenDeformationCurve solver (k.computedF R) ⟨mu, alpha⟩ l - ((mu.zip alpha).map fun p => ogdenCurve k p.1 p.2 l).sum| ≤
      2 * (l + k.F l 2 2 ^ 2 / l) * (2 ^ (-40 : ℤ) * ogdenG mu alpha (a / 2) (b + a / 2) +
        2 ^ (-43 : ℤ) * ogdenL mu alpha (a / 2) (b + a / 2) * b) := by
  obtain ⟨lapack, hl⟩ := exists_eigh
  have hu := R.u_nonneg
  have h53 : (2 : ℝ) ^ (-53 : ℤ) = 1 / 9007199254740992 := by norm_num
  have h48 : (2 : ℝ) ^ (-48 : ℤ) = 1 / 281474976710656 := by norm_num
  have h46 : (2 : ℝ) ^ (-46 : ℤ) = 1 / 70368744177664 := by norm_num
  have h43 : (2 : ℝ) ^ (-43 : ℤ) = 1 / 8796093022208 := by norm_num
  have h42 : (2 : ℝ) ^ (-42 : ℤ) = 1 / 4398046511104 := by norm_num
  have h40 : (2 : ℝ) ^ (-40 : ℤ) = 1 / 1099511627776 := by norm_num
  have hq := ogdenQ_double hu hR hε'
  obtain ⟨hsmall, hacc, -⟩ := accuracy_double hu hR k
  have hA1 := accuracy_one_le hu hsmall k
  have hu53 := hR
  rw [h53] at hu53 hacc
  have hε48 := hε'
  rw [h48] at hε48
  rw [h46] at hq
  rw [h42] at hcond
  set A := k.accuracy R.u
  have ha2 : 0 < a / 2 := by linarith
  have hab : a ≤ b := (hr 0).1.trans (hr 0).2
  have hA2 : A ^ 2 ≤ 1 + 1 / 1125899906842624 := by
    have : A ^ 2 ≤ (1 + 3.01 * (1 / 9007199254740992)) ^ 2 := pow_le_pow_left₀ (by linarith) hacc 2
    exact this.trans (by norm_num)
  have hA3 : 3 / 4 ≤ (2 - A) ^ 2 := by nlinarith
  set b' := b + a / 4 with hb'
  set η := ((1 + ε) * (1 + R.u) ^ 5 - 1) * (3 * b') with hη
  have hη1 : (1 + ε) * (1 + R.u) ^ 5 - 1 ≤ 1 / 140737488355328 * (63 / 64) := by
    have : (1 + ε) * (1 + R.u) ^ 5 ≤ (1 + 1 / 281474976710656) * (1 + 1 / 9007199254740992) ^ 5 := by gcongr
    refine (sub_le_sub_right this 1).trans (by norm_num)
  have hη0 : 0 ≤ η := by
    refine mul_nonneg (sub_nonneg.2 ?_) (by linarith)
    exact one_le_mul_of_one_le_of_one_le (by linarith) (one_le_pow₀ (by linarith))
  have hη2 : η ≤ 1 / 140737488355328 * (63 / 64) * (3 * b') := mul_le_mul_of_nonneg_right hη1 (by linarith)
  have hηa : η ≤ a / 4 := by linarith
  have hB : OgdenBounds R.u ε mu alpha (3 / 4 * a - η) (b' + η) (ogdenL mu alpha (a / 2) (b + a / 2))
      (ogdenG mu alpha (a / 2) (b + a / 2)) (ogdenQ R.u ε 16 8) :=
    OgdenBounds.mono (C80_constants (ε := ε) mu alpha hu hsmall ha2 (fun α h => (hα α h).2) hlog) (by linarith) (by linarith)
  have hk : k.StretchesIn A (3 / 4 * a) b' l := by
    intro i
    obtain ⟨h1, h2⟩ := hr i
    rw [mul_pow, mul_pow]
    refine ⟨mul_le_mul hA3 h1 ha.le (by positivity), ?_⟩
    calc A ^ 2 * k.F l i i ^ 2 ≤ (1 + 1 / 1125899906842624) * b := mul_le_mul hA2 h2 (sq_nonneg _) (by norm_num)
      _ ≤ _ := by linarith
  refine (C92_point R lapack solver hl hε (fun p hp => (hα p hp).1) k hp (by linarith) hk hη hB rfl hs).trans ?_
  have hL := hB.nonneg
  have hG : 0 ≤ ogdenG mu alpha (a / 2) (b + a / 2) := by
    refine List.sum_nonneg fun t ht => ?_
    obtain ⟨p, -, rfl⟩ := List.mem_map.1 ht
    have : 0 < (a / 2) ^ ((p.2 - 2) / 2) := Real.rpow_pos_of_pos ha2 _
    have := this.le.trans (le_max_left _ ((b + a / 2) ^ ((p.2 - 2) / 2)))
    positivity
  have hn : (mu.zip alpha).length ≤ 6 := by rw [List.length_zip]; omega
  have hq1 : 1 ≤ ogdenQ R.u ε 16 8 := le_trans (by linarith) hB.vectors
  have hE : ogdenQ R.u ε 16 8 ^ 4 * (1 + R.u) ^ ((mu.zip alpha).length + 18) - 1 ≤ 1 / 4398046511104 / 3 := by
    have e1 : (1 + R.u) ^ ((mu.zip alpha).length + 18) ≤ (1 + 1 / 9007199254740992) ^ 24 :=
      (pow_le_pow_right₀ (by linarith) (by omega : (mu.zip alpha).length + 18 ≤ 24)).trans (by gcongr)
    have e2 : ogdenQ R.u ε 16 8 ^ 4 ≤ (1 + 1 / 70368744177664) ^ 4 := by gcongr
    have e3 := mul_le_mul e2 e1 (by positivity) (by positivity)
    refine (sub_le_sub_right e3 1).trans (by norm_num)
  have h6 : (1 + R.u) ^ 6 ≤ 64 / 63 := by
    have : (1 + R.u) ^ 6 ≤ (1 + 1 / 9007199254740992) ^ 6 := by gcongr
    exact this.trans (by norm_num)
  set G := ogdenG mu alpha (a / 2) (b + a / 2)
  set L := ogdenL mu alpha (a / 2) (b + a / 2)
  set E := (ogdenQ R.u ε 16 8 ^ 4 * (1 + R.u) ^ ((mu.zip alpha).length + 18) - 1) * (3 * G) + (1 + R.u) ^ 6 * L * η with hEd
  have hLb : 0 ≤ L * b := mul_nonneg hL (by linarith)
  have hE1 : E ≤ 1 / 4398046511104 * G + 1 / 35184372088832 * (L * b) := by
    have e1 := mul_le_mul_of_nonneg_right hE (by linarith : 0 ≤ 3 * G)
    have e2 : (1 + R.u) ^ 6 * L * η ≤ 64 / 63 * L * (1 / 140737488355328 * (63 / 64) * (3 * b')) := by gcongr
    have e3 : L * b' ≤ L * (5 / 4 * b) := mul_le_mul_of_nonneg_left (by linarith) hL
    linarith
  have hE0 : 0 ≤ E := by
    have : 1 ≤ ogdenQ R.u ε 16 8 ^ 4 * (1 + R.u) ^ ((mu.zip alpha).length + 18) :=
      one_le_mul_of_one_le_of_one_le (one_le_pow₀ hq1) (one_le_pow₀ (by linarith))
    rw [hEd]
    exact add_nonneg (mul_nonneg (by linarith) (by linarith)) (by positivity)
  rw [h40, h43]
  exact curveError_double hu hu53 hp (sq_nonneg _) (hr 2).2 hG hL hE0 hE1 hA1 hA2

/-- The hypotheses are met: two terms, biaxial tension to the stretch two, in double precision with an inexact solver. -/
example : ∃ (R : RoundingSqrt) (solver : Eigh), R.u ≤ 2 ^ (-53 : ℤ) ∧ 0 < R.u ∧
    (∀ C : Ten2 ℝ, C.IsSymm → EighAccurate (2 ^ (-50 : ℤ)) C (solver C).1 (solver C).2) ∧
    (∀ p ∈ [3, (-2 : ℝ)], p ≠ 0 ∧ |p - 1| ≤ 16) ∧
    (∀ i, 1 / 16 ≤ LoadKind.biaxial.F 2 i i ^ 2 ∧ LoadKind.biaxial.F 2 i i ^ 2 ≤ 4) ∧
    (∀ x ∈ Set.Icc ((1 / 16 : ℝ) / 2) (4 + 1 / 16 / 2), |Real.log x| ≤ 8) ∧ (2 : ℝ) ^ (-42 : ℤ) * 4 ≤ 1 / 16 := by
  obtain ⟨solver, hs⟩ := inexact_solver
  refine ⟨binary64Sqrt, solver, le_rfl, ?_, fun C hC => (hs C hC).1, ?_, ?_, fun x hx => ?_, by norm_num⟩
  · change 0 < Binary64.rounding.u
    rw [Binary64.rounding_u]; positivity
  · intro p hp
    simp only [List.mem_cons, List.not_mem_nil, or_false] at hp
    rcases hp with rfl | rfl <;> norm_num [abs_le]
  · intro i
    fin_cases i <;> norm_num [LoadKind.F, Matrix.diagonal_apply]
  · have h0 : 0 < x := by linarith [hx.1]
    have h1 := Real.log_le_sub_one_of_pos h0
    have h2 : Real.log (1 / 32) ≤ Real.log x := Real.log_le_log (by norm_num) (by linarith [hx.1])
    have h3 : Real.log (1 / 32) = -(5 * Real.log 2) := by
      rw [one_div, Real.log_inv, show (32 : ℝ) = 2 ^ 5 by norm_num, Real.log_pow]; norm_num
    have h4 := Real.log_le_sub_one_of_pos (two_pos : (0 : ℝ) < 2)
    exact abs_le.2 ⟨by linarith, by linarith [hx.2]⟩

end Props
