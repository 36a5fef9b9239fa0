import Verif.Proofs.RoundingStretches
import Verif.Props.RoundingLab
import Verif.Props.Prediction
import Mathlib.Analysis.Calculus.MeanValue
import Mathlib.Analysis.SpecialFunctions.Pow.Deriv
import Mathlib.Analysis.SpecialFunctions.Pow.Continuity

/-!
# Floating-point rounding: Ogden materials (C80)

The derivative of the energy and the first Piola-Kirchhoff stress of an Ogden material, as computed in floating-point
arithmetic with a backward stable eigenvalue solver, against the exact values.
-/

namespace Props
open Spec Hel Rnd

variable {Z : Type}

/-! ### constants -/

theorem rpow_le_max {a b x : ℝ} (ha : 0 < a) (hx : x ∈ Set.Icc a b) (p : ℝ) : x ^ p ≤ max (a ^ p) (b ^ p) := by
  rcases le_total 0 p with hp | hp
  · exact le_max_of_le_right (Real.rpow_le_rpow (ha.le.trans hx.1) hx.2 hp)
  · exact le_max_of_le_left (Real.rpow_le_rpow_of_nonpos ha hx.1 hp)

theorem rpow_lipschitz_Icc {a b x y : ℝ} (ha : 0 < a) (hx : x ∈ Set.Icc a b) (hy : y ∈ Set.Icc a b) (p : ℝ) :
    |x ^ p - y ^ p| ≤ |p| * max (a ^ (p - 1)) (b ^ (p - 1)) * |x - y| := by
  refine Convex.norm_image_sub_le_of_norm_hasDerivWithin_le (f := fun x : ℝ => x ^ p) (f' := fun x => p * x ^ (p - 1))
    (s := Set.Icc a b) (fun t ht => ?_) (fun t ht => ?_) (convex_Icc a b) hy hx
  · exact (Real.hasDerivAt_rpow_const (Or.inl (ha.trans_le ht.1).ne')).hasDerivWithinAt
  · rw [Real.norm_eq_abs, abs_mul, abs_of_pos (Real.rpow_pos_of_pos (ha.trans_le ht.1) _)]
    exact mul_le_mul_of_nonneg_left (rpow_le_max ha ht _) (abs_nonneg _)

/-- A Lipschitz constant of the derivative of Ogden's energy for squared stretches between `a` and `b`. -/
noncomputable def ogdenL (mu alpha : List ℝ) (a b : ℝ) : ℝ :=
  ((mu.zip alpha).map fun p => |p.1 / p.2| * (|(p.2 - 2) / 2| * max (a ^ ((p.2 - 2) / 2 - 1)) (b ^ ((p.2 - 2) / 2 - 1)))).sum

/-- A bound of the derivative of Ogden's energy for squared stretches between `a` and `b`. -/
noncomputable def ogdenG (mu alpha : List ℝ) (a b : ℝ) : ℝ :=
  ((mu.zip alpha).map fun p => |p.1 / p.2| * max (a ^ ((p.2 - 2) / 2)) (b ^ ((p.2 - 2) / 2))).sum

/-- One plus a bound of the relative errors of powers `λ ** (α - 1)` with `|α - 1| ≤ A` and `|log λ²| ≤ Λ`, of
reciprocals and of eigenvectors. -/
noncomputable def ogdenQ (u ε A Λ : ℝ) : ℝ :=
  max ((1 + u) ^ 2 * (1 / (1 - u)) ^ ((1 + u) * A) * Real.exp (u * A * Λ / 2)) (max (1 / (2 - (1 + u) ^ 2)) (1 + ε))

theorem ogdenL_nonneg (mu alpha : List ℝ) {a b : ℝ} (ha : 0 < a) : 0 ≤ ogdenL mu alpha a b := by
  refine List.sum_nonneg fun t ht => ?_
  obtain ⟨p, -, rfl⟩ := List.mem_map.1 ht
  have : 0 < a ^ ((p.2 - 2) / 2 - 1) := Real.rpow_pos_of_pos ha _
  have := this.le.trans (le_max_left _ (b ^ ((p.2 - 2) / 2 - 1)))
  positivity

/-- The explicit constants. -/
theorem C80_constants {u ε A Λ a b : ℝ} (mu alpha : List ℝ) (hu : 0 ≤ u) (hsmall : (1 + u) ^ 2 < 2) (ha : 0 < a)
    (hA : ∀ α ∈ alpha, |α - 1| ≤ A) (hΛ : ∀ x ∈ Set.Icc a b, |Real.log x| ≤ Λ) :
    OgdenBounds u ε mu alpha a b (ogdenL mu alpha a b) (ogdenG mu alpha a b) (ogdenQ u ε A Λ) where
  pos := ha
  small := hsmall
  nonneg := ogdenL_nonneg mu alpha ha
  lipschitz x hx y hy := by
    unfold ogdenRate ogdenL
    induction mu.zip alpha with
    | nil => simp
    | cons p l ih =>
      simp only [List.map_cons, List.sum_cons]
      rw [add_sub_add_comm, ← mul_sub, add_mul]
      refine (abs_add_le _ _).trans (add_le_add ?_ ih)
      rw [abs_mul, mul_assoc]
      exact mul_le_mul_of_nonneg_left (rpow_lipschitz_Icc ha hx hy _) (abs_nonneg _)
  bound x hx := by
    unfold ogdenRateP ogdenG
    induction mu.zip alpha with
    | nil => simp
    | cons p l ih =>
      simp only [List.map_cons, List.sum_cons]
      exact add_le_add (mul_le_mul_of_nonneg_left (rpow_le_max ha hx _) (abs_nonneg _)) ih
  power α hα x hx := by
    refine le_max_of_le_left ?_
    have h1 := hA α hα
    have h2 := hΛ x hx
    have h0 : 0 ≤ A := (abs_nonneg _).trans h1
    have hu1 : u < 1 := by nlinarith
    have h3 : 1 ≤ 1 / (1 - u) := by rw [le_div_iff₀] <;> linarith
    unfold ogdenFactor
    gcongr
  reciprocal := le_max_of_le_right (le_max_left _ _)
  vectors := le_max_of_le_right (le_max_right _ _)

theorem OgdenBounds.mono {u ε a b a' b' L G q : ℝ} {mu alpha : List ℝ} (h : OgdenBounds u ε mu alpha a b L G q)
    (ha : a ≤ a') (hb : b' ≤ b) : OgdenBounds u ε mu alpha a' b' L G q where
  pos := h.pos.trans_le ha
  small := h.small
  nonneg := h.nonneg
  lipschitz x hx y hy := h.lipschitz x (Set.Icc_subset_Icc ha hb hx) y (Set.Icc_subset_Icc ha hb hy)
  bound x hx := h.bound x (Set.Icc_subset_Icc ha hb hx)
  power α hα x hx := h.power α hα x (Set.Icc_subset_Icc ha hb hx)
  reciprocal := h.reciprocal
  vectors := h.vectors

/-! ### C80 -/

/-- The computed derivative of the energy: rounding errors, relative to the largest derivative, and the error of the
eigenvalue solver, multiplied by the Lipschitz constant of the derivative. -/
theorem C80_gradient (R : RoundingSqrt) (lapack solver : Eigh) (hl : EighValid lapack) {ε a b L G q : ℝ} (hε : 0 ≤ ε)
    {mu alpha : List ℝ} (hα : ∀ p ∈ alpha, p ≠ 0) (z : Z) {c : Vec6 ℝ} {C E : Ten2 ℝ} (hc : Stores c C)
    (hC : SpectrumIn C a b) (hB : OgdenBounds R.u ε mu alpha (a - ε * frob C) (b + ε * frob C) L G q)
    (hs : EighAccurate ε C (solver C).1 (solver C).2)
    (hE : Material.Grad (Stretches.material lapack (Ogden.mat ⟨mu, alpha⟩)) z C E) (i j : Fin 3) :
    |astensor (R.stretchesGradient solver ⟨mu, alpha⟩ c) i j - E i j| ≤
      (q ^ 4 * (1 + R.u) ^ ((mu.zip alpha).length + 12) - 1) * (3 * G) + L * (ε * frob C) := by
  have hq : 1 ≤ q := le_trans (by linarith) hB.vectors
  have hsym : E.IsSymm := by
    obtain ⟨s, x, g, z', -, h2, -⟩ := hE
    exact h2.symm
  have h := rounded_framework R lapack solver hl hα hB hq z hc le_rfl (mul_nonneg hε (frob_nonneg _)) hC hs hE (tab i j)
  have e : asvoigt E (tab i j) = E i j := by
    have := congrFun (congrFun (T2_eq (C01_asvoigt_stores hsym)) i) j
    exact this
  rwa [e] at h

/-- The computed stress in the deformation space. -/
theorem C80_stress (R : RoundingSqrt) (lapack solver : Eigh) (hl : EighValid lapack) {ε a b L G q η : ℝ} (hε : 0 ≤ ε)
    {mu alpha : List ℝ} (hα : ∀ p ∈ alpha, p ≠ 0) (z : Z) {F P : Ten2 ℝ} (hC : SpectrumIn (Spec.cauchyGreen F) a b)
    (hη : η = ((1 + ε) * (1 + R.u) ^ 5 - 1) * frob F ^ 2)
    (hB : OgdenBounds R.u ε mu alpha (a - η) (b + η) L G q)
    (hs : ∀ C : Ten2 ℝ, C.IsSymm → EighAccurate ε C (solver C).1 (solver C).2)
    (hP : SpaceObj.Grad (Deformation.obj {} (Stretches.material lapack (Ogden.mat ⟨mu, alpha⟩))) z F P) (i J : Fin 3) :
    |R.ogdenDeformation solver ⟨mu, alpha⟩ F i J - P i J| ≤
      2 * (∑ I, |F i I|) * ((q ^ 4 * (1 + R.u) ^ ((mu.zip alpha).length + 18) - 1) * (3 * G) + (1 + R.u) ^ 6 * L * η) :=
  rounded_ogden R lapack solver hl hε hα hη hB z hC (hs _ (T2_stores _).symm) hP i J

/-- The eigenvalues of a right Cauchy-Green tensor have positive bounds. -/
theorem spectrum_exists {C : Ten2 ℝ} (hC : PosDef C) : ∃ a b, 0 < a ∧ a ≤ b ∧ SpectrumIn C a b := by
  obtain ⟨lapack, hl⟩ := exists_eigh
  have hs := hl C hC.1
  obtain ⟨w, V, hs⟩ : ∃ w, ∃ V : Ten2 ℝ, Spectral C w V := ⟨_, _, hs⟩
  have hV' : V * V.transpose = 1 := mul_eq_one_comm.1 hs.orthogonal
  have hquad : ∀ x : Fin 3 → ℝ, ∑ i, ∑ j, x i * C i j * x j = ∑ a, w a * (∑ i, V i a * x i) ^ 2 := fun x => by
    simp only [hs.sum, Fin.sum_univ_three]; ring
  have hnorm : ∀ x : Fin 3 → ℝ, ∑ i, x i ^ 2 = ∑ a, (∑ i, V i a * x i) ^ 2 := fun x => by
    have e : ∑ a, (∑ i, V i a * x i) ^ 2 = ∑ i, ∑ j, x i * (V * V.transpose) i j * x j := by
      simp only [Matrix.mul_apply, Matrix.transpose_apply, Fin.sum_univ_three]; ring
    rw [e, hV']
    simp [Matrix.one_apply, pow_two]
  have hpos : ∀ a, 0 < w a := fun a => by
    have h1 := hC.2 (fun i => V i a) (fun h0 => by
      have h2 := orthonormal hs.orthogonal a a
      have h3 : ∀ i, V i a = 0 := fun i => congrFun h0 i
      simp [h3] at h2)
    have e : (fun i => V i a) ⬝ᵥ (C.mulVec fun i => V i a) = ∑ i, ∑ j, V i a * C i j * V j a := by
      simp only [dotProduct, Matrix.mulVec, Finset.mul_sum]
      exact Finset.sum_congr rfl fun i _ => Finset.sum_congr rfl fun j _ => by ring
    rw [e, hquad fun i => V i a] at h1
    simp only [orthonormal hs.orthogonal] at h1
    simpa using h1
  refine ⟨min (w 0) (min (w 1) (w 2)), max (w 0) (max (w 1) (w 2)), ?_, ?_, fun x => ?_⟩
  · exact lt_min (hpos 0) (lt_min (hpos 1) (hpos 2))
  · exact (min_le_left _ _).trans (le_max_left _ _)
  · rw [hquad, hnorm, Finset.mul_sum, Finset.mul_sum]
    constructor
    · refine Finset.sum_le_sum fun a _ => mul_le_mul_of_nonneg_right ?_ (sq_nonneg _)
      fin_cases a <;> simp
    · refine Finset.sum_le_sum fun a _ => mul_le_mul_of_nonneg_right ?_ (sq_nonneg _)
      fin_cases a <;> simp

theorem ogdenQ_tendsto {A Λ : ℝ} {u ε : ℕ → ℝ} (hu : Filter.Tendsto u .atTop (nhds 0)) (hε : Filter.Tendsto ε .atTop (nhds 0)) :
    Filter.Tendsto (fun n => ogdenQ (u n) (ε n) A Λ) .atTop (nhds 1) := by
  have h1 : Filter.Tendsto (fun n => (1 + u n) ^ 2) .atTop (nhds 1) := by
    simpa using (hu.const_add 1).pow 2
  have h2 : Filter.Tendsto (fun n => 1 / (1 - u n)) .atTop (nhds 1) := by
    simpa using (hu.const_sub 1).inv₀ (by norm_num)
  have h3 : Filter.Tendsto (fun n => (1 / (1 - u n)) ^ ((1 + u n) * A)) .atTop (nhds 1) := by
    have := h2.rpow ((hu.const_add 1).mul_const A) (Or.inl one_ne_zero)
    rwa [Real.one_rpow] at this
  have h4 : Filter.Tendsto (fun n => Real.exp (u n * A * Λ / 2)) .atTop (nhds 1) := by
    have := (((hu.mul_const A).mul_const Λ).div_const 2).rexp
    simpa using this
  have h5 : Filter.Tendsto (fun n => 1 / (2 - (1 + u n) ^ 2)) .atTop (nhds 1) := by
    have := (h1.const_sub 2).inv₀ (by norm_num)
    rw [show ((2 : ℝ) - 1)⁻¹ = 1 by norm_num] at this
    simpa using this
  have h6 : Filter.Tendsto (fun n => 1 + ε n) .atTop (nhds 1) := by simpa using hε.const_add 1
  have := ((h1.mul h3).mul h4).max (h5.max h6)
  simpa [ogdenQ] using this

/-- The computed stress converges to the exact one if the precision of the arithmetic and of the solver is increased:
also at repeated principal stretches, where the eigenvectors do not converge. -/
theorem C80_converges (R : ℕ → RoundingSqrt) (lapack : Eigh) (hl : EighValid lapack) (solver : ℕ → Eigh) (ε : ℕ → ℝ)
    (hR : Filter.Tendsto (fun n => (R n).u) .atTop (nhds 0)) (hε : Filter.Tendsto ε .atTop (nhds 0)) (hε0 : ∀ n, 0 ≤ ε n)
    (hs : ∀ n, ∀ C : Ten2 ℝ, C.IsSymm → EighAccurate (ε n) C (solver n C).1 (solver n C).2)
    {mu alpha : List ℝ} (hα : ∀ p ∈ alpha, p ≠ 0) (z : Z) {F P : Ten2 ℝ} (hF : F.det ≠ 0)
    (hP : SpaceObj.Grad (Deformation.obj {} (Stretches.material lapack (Ogden.mat ⟨mu, alpha⟩))) z F P) (i J : Fin 3) :
    Filter.Tendsto (fun n => (R n).ogdenDeformation (solver n) ⟨mu, alpha⟩ F i J) .atTop (nhds (P i J)) := by
  obtain ⟨a, b, ha, hab, hC⟩ := spectrum_exists (posDef_cauchyGreen hF)
  obtain ⟨A, hA⟩ : ∃ A, ∀ α ∈ alpha, |α - 1| ≤ A := by
    refine ⟨(alpha.map fun α => |α - 1|).sum, fun α h => ?_⟩
    exact List.single_le_sum (by
      intro x hx
      obtain ⟨y, -, rfl⟩ := List.mem_map.1 hx
      exact abs_nonneg _) _ (List.mem_map.2 ⟨α, h, rfl⟩)
  have ha2 : 0 < a / 2 := by linarith
  obtain ⟨Λ, hΛ⟩ : ∃ Λ, ∀ x ∈ Set.Icc (a / 2) (b + a / 2), |Real.log x| ≤ Λ := by
    refine ⟨max |Real.log (a / 2)| |Real.log (b + a / 2)|, fun x hx => ?_⟩
    have h1 := Real.log_le_log ha2 hx.1
    have h2 := Real.log_le_log (ha2.trans_le hx.1) hx.2
    exact abs_le_max_abs_abs h1 h2
  set L := ogdenL mu alpha (a / 2) (b + a / 2)
  set G := ogdenG mu alpha (a / 2) (b + a / 2)
  set η : ℕ → ℝ := fun n => ((1 + ε n) * (1 + (R n).u) ^ 5 - 1) * frob F ^ 2 with hη
  have hηt : Filter.Tendsto η .atTop (nhds 0) := by
    have := ((((hε.const_add 1).mul ((hR.const_add 1).pow 5)).sub_const 1)).mul_const (frob F ^ 2)
    simpa using this
  have hu2 : Filter.Tendsto (fun n => (1 + (R n).u) ^ 2) .atTop (nhds 1) := by
    simpa using (hR.const_add 1).pow 2
  have hq := ogdenQ_tendsto (A := A) (Λ := Λ) hR hε
  set n0 := (mu.zip alpha).length
  have hlim : Filter.Tendsto (fun n => 2 * (∑ I, |F i I|) * ((ogdenQ (R n).u (ε n) A Λ ^ 4 * (1 + (R n).u) ^ (n0 + 18) - 1) * (3 * G) +
      (1 + (R n).u) ^ 6 * L * η n)) .atTop (nhds 0) := by
    have := (((((hq.pow 4).mul ((hR.const_add 1).pow (n0 + 18))).sub_const 1).mul_const (3 * G)).add
      ((((hR.const_add 1).pow 6).mul_const L).mul hηt)).const_mul (2 * (∑ I, |F i I|))
    simpa using this
  rw [tendsto_iff_dist_tendsto_zero]
  refine squeeze_zero' (Filter.Eventually.of_forall fun _ => dist_nonneg) ?_ hlim
  filter_upwards [hηt.eventually (gt_mem_nhds ha2), hu2.eventually (gt_mem_nhds one_lt_two)] with n h1 h2
  have hB : OgdenBounds (R n).u (ε n) mu alpha (a - η n) (b + η n) L G (ogdenQ (R n).u (ε n) A Λ) :=
    OgdenBounds.mono (C80_constants mu alpha (R n).u_nonneg h2 ha2 hA hΛ) (by linarith) (by linarith)
  exact C80_stress (R n) lapack (solver n) hl (hε0 n) hα z hC rfl hB (hs n) hP i J

theorem ogdenQ_double {u ε : ℝ} (hu : 0 ≤ u) (hu' : u ≤ 2 ^ (-53 : ℤ)) (hε : ε ≤ 2 ^ (-48 : ℤ)) :
    ogdenQ u ε 16 8 ≤ 1 + 2 ^ (-46 : ℤ) := by
  have h53 : (2 : ℝ) ^ (-53 : ℤ) = 1 / 9007199254740992 := by norm_num
  have h48 : (2 : ℝ) ^ (-48 : ℤ) = 1 / 281474976710656 := by norm_num
  have h46 : (2 : ℝ) ^ (-46 : ℤ) = 1 / 70368744177664 := by norm_num
  rw [h53] at hu'
  rw [h48] at hε
  rw [h46]
  have h1 : 1 / (1 - u) ≤ 1 + 1 / 4503599627370496 := by
    rw [div_le_iff₀ (by linarith)]
    nlinarith
  have h0 : 1 ≤ 1 / (1 - u) := by rw [le_div_iff₀] <;> linarith
  have h2 : (1 / (1 - u)) ^ ((1 + u) * 16) ≤ (1 + 1 / 4503599627370496 : ℝ) ^ 17 := by
    refine (Real.rpow_le_rpow_of_exponent_le h0 (by push_cast; linarith : (1 + u) * 16 ≤ ((17 : ℕ) : ℝ))).trans ?_
    rw [Real.rpow_natCast]
    gcongr
  have h3 : Real.exp (u * 16 * 8 / 2) ≤ 1 / (1 - 64 / 9007199254740992) := by
    have e1 : u * 16 * 8 / 2 ≤ 64 / 9007199254740992 := by linarith
    refine (Real.exp_le_exp.2 e1).trans ?_
    have e2 := Real.add_one_le_exp (-(64 / 9007199254740992 : ℝ))
    rw [Real.exp_neg] at e2
    rw [le_div_iff₀ (by norm_num)]
    have e3 := Real.exp_pos (64 / 9007199254740992)
    have := mul_le_mul_of_nonneg_left e2 e3.le
    rw [mul_inv_cancel₀ e3.ne'] at this
    linarith
  refine max_le ?_ (max_le ?_ ?_)
  · calc (1 + u) ^ 2 * (1 / (1 - u)) ^ ((1 + u) * 16) * Real.exp (u * 16 * 8 / 2)
        ≤ (1 + 1 / 9007199254740992) ^ 2 * (1 + 1 / 4503599627370496 : ℝ) ^ 17 * (1 / (1 - 64 / 9007199254740992)) := by
          gcongr
      _ ≤ _ := by norm_num
  · have : (1 + u) ^ 2 ≤ (1 + 1 / 9007199254740992) ^ 2 := by gcongr
    have h4 : 1 / (2 - (1 + u) ^ 2) ≤ 1 / (2 - (1 + 1 / 9007199254740992) ^ 2) := by
      apply one_div_le_one_div_of_le
      · norm_num
      · linarith
    refine h4.trans (by norm_num)
  · refine (add_le_add_right hε 1).trans (by norm_num)

/-- Double precision: at most six terms with exponents between `-15` and `17`, squared stretches whose logarithms are
at most 8, and a deformation gradient which is not ill-conditioned. -/
theorem C80_double (R : RoundingSqrt) (hR : R.u ≤ 2 ^ (-53 : ℤ)) (lapack solver : Eigh) (hl : EighValid lapack) {ε a b : ℝ}
    (hε : 0 ≤ ε) (hε' : ε ≤ 2 ^ (-48 : ℤ)) {mu alpha : List ℝ} (hlen : alpha.length ≤ 6)
    (hα : ∀ p ∈ alpha, p ≠ 0 ∧ |p - 1| ≤ 16) (z : Z) {F P : Ten2 ℝ} (ha : 0 < a) (hC : SpectrumIn (Spec.cauchyGreen F) a b)
    (hlog : ∀ x ∈ Set.Icc (a / 2) (b + a / 2), |Real.log x| ≤ 8) (hcond : 2 ^ (-46 : ℤ) * frob F ^ 2 ≤ a)
    (hs : ∀ C : Ten2 ℝ, C.IsSymm → EighAccurate ε C (solver C).1 (solver C).2)
    (hP : SpaceObj.Grad (Deformation.obj {} (Stretches.material lapack (Ogden.mat ⟨mu, alpha⟩))) z F P) (i J : Fin 3) :
    |R.ogdenDeformation solver ⟨mu, alpha⟩ F i J - P i J| ≤
      2 * (∑ I, |F i I|) * (2 ^ (-42 : ℤ) * ogdenG mu alpha (a / 2) (b + a / 2) +
        2 ^ (-46 : ℤ) * ogdenL mu alpha (a / 2) (b + a / 2) * frob F ^ 2) := by
  have hu := R.u_nonneg
  have h53 : (2 : ℝ) ^ (-53 : ℤ) = 1 / 9007199254740992 := by norm_num
  have h48 : (2 : ℝ) ^ (-48 : ℤ) = 1 / 281474976710656 := by norm_num
  have h46 : (2 : ℝ) ^ (-46 : ℤ) = 1 / 70368744177664 := by norm_num
  have h42 : (2 : ℝ) ^ (-42 : ℤ) = 1 / 4398046511104 := by norm_num
  have hq := ogdenQ_double hu hR hε'
  have hu53 := hR
  rw [h53] at hu53
  have hε48 := hε'
  rw [h48] at hε48
  have ha2 : 0 < a / 2 := by linarith
  have hf := sq_nonneg (frob F)
  set η := ((1 + ε) * (1 + R.u) ^ 5 - 1) * frob F ^ 2 with hη
  have hη1 : (1 + ε) * (1 + R.u) ^ 5 - 1 ≤ 1 / 140737488355328 * (63 / 64) := by
    have : (1 + ε) * (1 + R.u) ^ 5 ≤ (1 + 1 / 281474976710656) * (1 + 1 / 9007199254740992) ^ 5 := by gcongr
    refine (sub_le_sub_right this 1).trans (by norm_num)
  have hη0 : 0 ≤ η := by
    refine mul_nonneg (sub_nonneg.2 ?_) hf
    exact one_le_mul_of_one_le_of_one_le (by linarith) (one_le_pow₀ (by linarith))
  have hη2 : η ≤ 1 / 140737488355328 * (63 / 64) * frob F ^ 2 := mul_le_mul_of_nonneg_right hη1 hf
  have hsmall : (1 + R.u) ^ 2 < 2 := by nlinarith
  have hC80 := C80_constants (ε := ε) mu alpha hu hsmall ha2 (fun α h => (hα α h).2) hlog
  rw [h46] at hcond
  have hB : OgdenBounds R.u ε mu alpha (a - η) (b + η) (ogdenL mu alpha (a / 2) (b + a / 2))
      (ogdenG mu alpha (a / 2) (b + a / 2)) (ogdenQ R.u ε 16 8) := OgdenBounds.mono hC80 (by linarith) (by linarith)
  refine (C80_stress R lapack solver hl hε (fun p hp => (hα p hp).1) z hC rfl hB hs hP i J).trans ?_
  have hL := hB.nonneg
  have hG : 0 ≤ ogdenG mu alpha (a / 2) (b + a / 2) := by
    refine List.sum_nonneg fun t ht => ?_
    obtain ⟨p, -, rfl⟩ := List.mem_map.1 ht
    have : 0 < (a / 2) ^ ((p.2 - 2) / 2) := Real.rpow_pos_of_pos ha2 _
    have := this.le.trans (le_max_left _ ((b + a / 2) ^ ((p.2 - 2) / 2)))
    positivity
  have hn : (mu.zip alpha).length ≤ 6 := by rw [List.length_zip]; omega
  have hq1 : 1 ≤ ogdenQ R.u ε 16 8 := le_trans (by linarith) hB.vectors
  rw [h46] at hq
  have hE : ogdenQ R.u ε 16 8 ^ 4 * (1 + R.u) ^ ((mu.zip alpha).length + 18) - 1 ≤ 1 / 4398046511104 / 3 := by
    have e1 : (1 + R.u) ^ ((mu.zip alpha).length + 18) ≤ (1 + 1 / 9007199254740992) ^ 24 :=
      (pow_le_pow_right₀ (by linarith) (by omega : (mu.zip alpha).length + 18 ≤ 24)).trans (by gcongr)
    have e2 : ogdenQ R.u ε 16 8 ^ 4 ≤ (1 + 1 / 70368744177664) ^ 4 := by gcongr
    have e3 := mul_le_mul e2 e1 (by positivity) (by positivity)
    refine (sub_le_sub_right e3 1).trans (by norm_num)
  have h6 : (1 + R.u) ^ 6 ≤ 64 / 63 := by
    have : (1 + R.u) ^ 6 ≤ (1 + 1 / 9007199254740992) ^ 6 := by gcongr
    exact this.trans (by norm_num)
  have hS : 0 ≤ 2 * ∑ I, |F i I| := by positivity
  refine mul_le_mul_of_nonneg_left (add_le_add ?_ ?_) hS
  · rw [h42]
    have := mul_le_mul_of_nonneg_right hE (by positivity : 0 ≤ 3 * ogdenG mu alpha (a / 2) (b + a / 2))
    linarith
  · rw [h46]
    have e1 : (1 + R.u) ^ 6 * ogdenL mu alpha (a / 2) (b + a / 2) * η ≤ 64 / 63 * ogdenL mu alpha (a / 2) (b + a / 2) *
        (1 / 140737488355328 * (63 / 64) * frob F ^ 2) := by gcongr
    have e2 : 0 ≤ ogdenL mu alpha (a / 2) (b + a / 2) * frob F ^ 2 := mul_nonneg hL hf
    nlinarith

/-- A solver whose eigenvectors are not exactly orthogonal, in double precision. -/
theorem inexact_solver : ∃ solver : Eigh, ∀ C : Ten2 ℝ, C.IsSymm →
    EighAccurate (2 ^ (-50 : ℤ)) C (solver C).1 (solver C).2 ∧ ¬ Orthogonal (solver C).2 := by
  obtain ⟨lapack, hl⟩ := exists_eigh
  refine ⟨fun C => ((lapack C).1, fun i a => (1 + 2 ^ (-50 : ℤ)) * (lapack C).2 i a), fun C hC => ⟨?_, fun h => ?_⟩⟩
  · refine ⟨C, (lapack C).2, hl C hC, ?_, fun i a => ?_⟩
    · rw [sub_self]
      have : frob (0 : Ten2 ℝ) = 0 := by simp [frob]
      rw [this]
      exact mul_nonneg (by positivity) (frob_nonneg _)
    · have h1 : |(lapack C).2 i a| ≤ 1 := abs_le.2 (Orthogonal.abs_le (hl C hC).orthogonal i a)
      rw [show (1 + (2 : ℝ) ^ (-50 : ℤ)) * (lapack C).2 i a - (lapack C).2 i a = 2 ^ (-50 : ℤ) * (lapack C).2 i a by ring,
        abs_mul, abs_of_pos (by positivity)]
      exact mul_le_of_le_one_right (by positivity) h1
  · have h1 := orthonormal h 0 0
    have h2 := orthonormal (hl C hC).orthogonal 0 0
    simp only [if_true] at h1 h2
    have e : ∑ i, (1 + (2 : ℝ) ^ (-50 : ℤ)) * (lapack C).2 i 0 * ((1 + (2 : ℝ) ^ (-50 : ℤ)) * (lapack C).2 i 0) =
        (1 + (2 : ℝ) ^ (-50 : ℤ)) ^ 2 * ∑ i, (lapack C).2 i 0 * (lapack C).2 i 0 := by
      rw [Finset.mul_sum]
      exact Finset.sum_congr rfl fun i _ => by ring
    rw [e, h2] at h1
    norm_num at h1

/-- The hypotheses are met: an Ogden material with two terms, a simple shear with unequal stretches, double precision
and an inexact solver. -/
example : ∃ (R : RoundingSqrt) (solver lapack : Eigh) (P : Ten2 ℝ), R.u ≤ 2 ^ (-53 : ℤ) ∧ 0 < R.u ∧ EighValid lapack ∧
    (∀ C : Ten2 ℝ, C.IsSymm → EighAccurate (2 ^ (-50 : ℤ)) C (solver C).1 (solver C).2) ∧
    (!![1, 1 / 2, 0; 0, 1, 0; 0, 0, (1 : ℝ)]).det ≠ 0 ∧
    SpectrumIn (Spec.cauchyGreen !![1, 1 / 2, 0; 0, 1, 0; 0, 0, (1 : ℝ)]) (1 / 2) 2 ∧
    (∀ x ∈ Set.Icc ((1 / 2 : ℝ) / 2) (2 + 1 / 2 / 2), |Real.log x| ≤ 8) ∧
    2 ^ (-46 : ℤ) * frob !![1, 1 / 2, 0; 0, 1, 0; 0, 0, (1 : ℝ)] ^ 2 ≤ 1 / 2 ∧
    SpaceObj.Grad (Deformation.obj {} (Stretches.material lapack (Ogden.mat ⟨[1, 2], [3, -2]⟩))) ()
      !![1, 1 / 2, 0; 0, 1, 0; 0, 0, 1] P := by
  obtain ⟨solver, hs⟩ := inexact_solver
  obtain ⟨lapack, hl⟩ := exists_eigh
  have hd : (!![1, 1 / 2, 0; 0, 1, 0; 0, 0, (1 : ℝ)]).det ≠ 0 := by simp [Matrix.det_fin_three]
  obtain ⟨P, hP⟩ := ogden_def_total lapack hl [1, 2] [3, -2] () (by simp) _ hd
  refine ⟨binary64Sqrt, solver, lapack, P, ?_, ?_, hl, fun C hC => (hs C hC).1, hd, fun x => ?_, fun x hx => ?_, ?_, hP⟩
  · exact le_rfl
  · change 0 < Binary64.rounding.u
    rw [Binary64.rounding_u]; positivity
  · simp only [Spec.cauchyGreen, Matrix.mul_apply, Matrix.transpose_apply, Fin.sum_univ_three]
    simp
    constructor <;> nlinarith [sq_nonneg (x 0 + x 1), sq_nonneg (x 0 - x 1), sq_nonneg (x 0), sq_nonneg (x 1), sq_nonneg (x 2)]
  · have h0 : 0 < x := by linarith [hx.1]
    have h1 := Real.log_le_sub_one_of_pos h0
    have h2 := Real.log_le_sub_one_of_pos (inv_pos.2 h0)
    rw [Real.log_inv] at h2
    have h3 : x⁻¹ ≤ 4 := by
      rw [inv_le_comm₀ h0 (by norm_num)]
      linarith [hx.1]
    exact abs_le.2 ⟨by linarith, by linarith [hx.2]⟩
  · rw [frob_sq]
    simp [Fin.sum_univ_three]
    norm_num

end Props
