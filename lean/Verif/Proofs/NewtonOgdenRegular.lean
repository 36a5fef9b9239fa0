import Verif.Proofs.NewtonOgdenSpace

/-! # The tangents of stiffening Ogden materials are regular -/

namespace Hel
open Spec Matrix
open Rnd hiding cauchyGreen

variable {Z : Type} {mu alpha : List ℝ} {z : Z}

/-- positive parameters and exponents not below two -/
theorem ogdenRate2_nonneg (h : ∀ p ∈ mu.zip alpha, 0 ≤ p.1 ∧ 2 ≤ p.2) {x : ℝ} (hx : 0 < x) : 0 ≤ ogdenRate2 mu alpha x := by
  unfold ogdenRate2
  refine List.sum_nonneg fun r hr => ?_
  obtain ⟨p, hp, rfl⟩ := List.mem_map.1 hr
  obtain ⟨h1, h2⟩ := h p hp
  have : 0 ≤ (p.2 - 2) / 2 := by linarith
  have : 0 ≤ p.1 / p.2 := div_nonneg h1 (by linarith)
  positivity

theorem ogdenRate_mono (h : ∀ p ∈ mu.zip alpha, 0 ≤ p.1 ∧ 2 ≤ p.2) {x y : ℝ} (hx : 0 < x) (hxy : x ≤ y) :
    ogdenRate mu alpha x ≤ ogdenRate mu alpha y := by
  unfold ogdenRate
  refine List.sum_le_sum fun p hp => ?_
  obtain ⟨h1, h2⟩ := h p hp
  exact mul_le_mul_of_nonneg_left (Real.rpow_le_rpow hx.le hxy (by linarith)) (div_nonneg h1 (by linarith))

theorem ogdenCross_nonneg (h : ∀ p ∈ mu.zip alpha, 0 ≤ p.1 ∧ 2 ≤ p.2) {x y : ℝ} (hx : 0 < x) (hy : 0 < y) :
    0 ≤ ogdenCross mu alpha x y := by
  unfold ogdenCross
  split_ifs
  · exact ogdenRate2_nonneg h hy
  · rcases le_total x y with hxy | hxy
    · exact div_nonneg_of_nonpos (sub_nonpos.2 (ogdenRate_mono h hx hxy)) (sub_nonpos.2 hxy)
    · exact div_nonneg (sub_nonneg.2 (ogdenRate_mono h hy hxy)) (sub_nonneg.2 hxy)

theorem ogdenCoef_nonneg (h : ∀ p ∈ mu.zip alpha, 0 ≤ p.1 ∧ 2 ≤ p.2) {w : Fin 3 → ℝ} (hw : ∀ a, 0 < w a) (a b : Fin 3) :
    0 ≤ ogdenCoef mu alpha w a b := by
  unfold ogdenCoef
  split_ifs
  · exact ogdenRate2_nonneg h (hw a)
  · exact ogdenCross_nonneg h (hw a) (hw b)
  · exact ogdenCross_nonneg h (hw b) (hw a)

/-- `E : (V (k ∘ VᵀEV) Vᵀ) = Σ k_ab (VᵀEV)_ab²` -/
theorem spectral_form (V : Ten2 ℝ) (k : Fin 3 → Fin 3 → ℝ) (E : Ten2 ℝ) :
    ∑ i, ∑ j, E i j * spectralDeriv V k E i j = ∑ a, ∑ b, k a b * (Vᵀ * E * V) a b ^ 2 := by
  simp only [spectralDeriv, Matrix.mul_apply, Matrix.transpose_apply, Matrix.of_apply, Fin.sum_univ_three]
  ring

/-- the tangent on the deformation space, contracted -/
theorem contract_piolaT (F G : Ten2 ℝ) (H : Ten4 ℝ) (U : Ten2 ℝ) (i j : Fin 3) :
    contract42 (piolaT F ((2 : ℝ) • G) fun i j k l => 4 * H i j k l) U i j =
      4 * (F * contract42 H (Fᵀ * U)) i j + 2 * (U * Gᵀ) i j := by
  have e1 : (F * contract42 H (Fᵀ * U)) i j = ∑ k, ∑ l, (∑ I, ∑ K, F i I * F k K * H I j K l) * U k l := by
    simp only [Matrix.mul_apply, contract42, Matrix.transpose_apply, Fin.sum_univ_three]
    ring
  rw [e1]
  simp only [contract42, piolaT, dyadIK, Matrix.smul_apply, smul_eq_mul, Matrix.one_apply, add_mul, Finset.sum_add_distrib]
  congr 1
  · rw [Finset.mul_sum]
    refine Finset.sum_congr rfl fun k _ => ?_
    rw [Finset.mul_sum]
    refine Finset.sum_congr rfl fun l _ => ?_
    rw [← mul_assoc, Finset.mul_sum]
    congr 1
    refine Finset.sum_congr rfl fun I _ => ?_
    rw [Finset.mul_sum]
    exact Finset.sum_congr rfl fun K _ => by ring
  · simp only [Matrix.mul_apply, Matrix.transpose_apply]
    rw [Finset.sum_eq_single i (fun k _ hk => by simp [Ne.symm hk]) (by simp), Finset.mul_sum]
    exact Finset.sum_congr rfl fun l _ => by simp; ring

/-- the quadratic form of the tangent on the deformation space -/
theorem piola_form {F G : Ten2 ℝ} {H : Ten4 ℝ} (h1 : ∀ i j k l, H i j k l = H j i k l) (h2 : ∀ i j k l, H i j k l = H i j l k) (U : Ten2 ℝ) :
    ∑ i, ∑ j, U i j * contract42 (piolaT F ((2 : ℝ) • G) fun i j k l => 4 * H i j k l) U i j =
      (∑ i, ∑ j, (Fᵀ * U + (Fᵀ * U)ᵀ) i j * contract42 H (Fᵀ * U + (Fᵀ * U)ᵀ) i j) + 2 * ∑ i, ∑ j, U i j * (U * Gᵀ) i j := by
  have hM : ∀ M : Ten2 ℝ, contract42 H (M + Mᵀ) = (2 : ℝ) • contract42 H M := fun M => by
    ext i j
    have e : ∑ k, ∑ l, H i j k l * M l k = ∑ k, ∑ l, H i j k l * M k l := by
      rw [Finset.sum_comm]
      exact Finset.sum_congr rfl fun l _ => Finset.sum_congr rfl fun k _ => by rw [h2 i j l k]
    simp only [contract42, Matrix.add_apply, Matrix.transpose_apply, mul_add, Finset.sum_add_distrib, e, Matrix.smul_apply, smul_eq_mul]
    ring
  have hs : ∀ M i j, contract42 H M i j = contract42 H M j i := fun M i j =>
    Finset.sum_congr rfl fun k _ => Finset.sum_congr rfl fun l _ => by rw [h1 i j k l]
  simp only [contract_piolaT, hM]
  have e2 : ∑ i, ∑ j, U i j * (F * contract42 H (Fᵀ * U)) i j = ∑ i, ∑ j, (Fᵀ * U) i j * contract42 H (Fᵀ * U) i j := by
    generalize contract42 H (Fᵀ * U) = T
    simp only [Matrix.mul_apply, Matrix.transpose_apply, Fin.sum_univ_three]
    ring
  generalize Fᵀ * U = M at *
  have e3 : ∑ i, ∑ j, (M + Mᵀ) i j * ((2 : ℝ) • contract42 H M) i j = 4 * ∑ i, ∑ j, M i j * contract42 H M i j := by
    have e : ∑ i, ∑ j, M j i * contract42 H M i j = ∑ i, ∑ j, M i j * contract42 H M i j := by
      rw [Finset.sum_comm]
      exact Finset.sum_congr rfl fun i _ => Finset.sum_congr rfl fun j _ => by rw [hs M j i]
    simp only [Matrix.add_apply, Matrix.transpose_apply, Matrix.smul_apply, smul_eq_mul, add_mul, Finset.sum_add_distrib]
    simp only [mul_left_comm _ (2 : ℝ), ← Finset.mul_sum, e]
    ring
  rw [e3, ← e2]
  simp only [mul_add, Finset.sum_add_distrib]
  simp only [mul_left_comm _ (2 : ℝ), mul_left_comm _ (4 : ℝ), ← Finset.mul_sum]

theorem frob_inner_le (A B : Ten2 ℝ) : ∑ i, ∑ j, A i j * B i j ≤ frob A * frob B := by
  have := Finset.sum_mul_sq_le_sq_mul_sq (Finset.univ : Finset (Fin 3 × Fin 3)) (fun p => A p.1 p.2) fun p => B p.1 p.2
  simp only [Fintype.sum_prod_type] at this
  rw [← frob_sq, ← frob_sq, ← mul_pow] at this
  exact (le_abs_self _).trans (abs_le_of_sq_le_sq this (mul_nonneg (frob_nonneg _) (frob_nonneg _)))

/-- positive parameters and exponents not below two: the tangent is bounded below by the smallest slope -/
theorem ogden_bounded_below (lapack : Eigh) (hl : EighValid lapack) (h : ∀ p ∈ mu.zip alpha, 0 ≤ p.1 ∧ 2 ≤ p.2) {F : Ten2 ℝ} {A : Ten4 ℝ}
    {r : ℝ} (hF : F.det ≠ 0) (hr0 : 0 < r) (hr : ∀ w v, Spectral (cauchyGreen F) w v → ∀ a, r ≤ ogdenRate mu alpha (w a))
    (hA : SpaceObj.Hess (Deformation.obj {} (Stretches.material lapack (Ogden.mat ⟨mu, alpha⟩))) z F A) :
    BoundedBelow (3 / (2 * r)) A := by
  intro U c hc
  have hpd := posDef_cauchyGreen hF
  have hS : Spectral (cauchyGreen F) (Stretches.vals lapack (cauchyGreen F)) (Stretches.vecs lapack (cauchyGreen F)) := hl _ hpd.1
  obtain ⟨G, H, hG, hH, rfl⟩ := Deformation.hess_elim hA
  obtain ⟨m1, m2⟩ := Material.hess_minor hH
  have hq := piola_form (F := F) (G := G) m1 m2 U
  have hE : (Fᵀ * U + (Fᵀ * U)ᵀ).IsSymm := by
    rw [Matrix.IsSymm, Matrix.transpose_add, Matrix.transpose_transpose, add_comm]
  rw [ogden_hess_form lapack hl hpd hH hE, spectral_form] at hq
  have hq1 : 0 ≤ ∑ a, ∑ b, ogdenCoef mu alpha (Stretches.vals lapack (cauchyGreen F)) a b *
      ((Stretches.vecs lapack (cauchyGreen F))ᵀ * (Fᵀ * U + (Fᵀ * U)ᵀ) * Stretches.vecs lapack (cauchyGreen F)) a b ^ 2 :=
    Finset.sum_nonneg fun a _ => Finset.sum_nonneg fun b _ => mul_nonneg (ogdenCoef_nonneg h (hS.pos hpd) a b) (sq_nonneg _)
  have hq2 : r * frob U ^ 2 ≤ ∑ i, ∑ j, U i j * (U * Gᵀ) i j := by
    rw [ogden_grad_form lapack hl hpd hG]
    set V := Stretches.vecs lapack (cauchyGreen F)
    set w := Stretches.vals lapack (cauchyGreen F)
    have e : ∑ i, ∑ j, U i j * (U * (V * diagonal (fun a => ogdenRate mu alpha (w a)) * Vᵀ)ᵀ) i j =
        ∑ i, ∑ a, ogdenRate mu alpha (w a) * (U * V) i a ^ 2 := by
      simp only [Matrix.mul_apply, Matrix.transpose_apply, Matrix.diagonal_apply, Fin.sum_univ_three]
      simp
      ring
    have e2 : frob U ^ 2 = ∑ i, ∑ a, (U * V) i a ^ 2 := by
      have h1 : frob (Uᵀ)ᵀ = frob Uᵀ := frob_transpose _
      have := frob_rotate (V := 1) (U := V) (by simp [Orthogonal]) hS.1 U
      rw [Matrix.transpose_one, Matrix.one_mul] at this
      rw [← this, frob_sq]
    rw [e, e2, Finset.mul_sum]
    refine Finset.sum_le_sum fun i _ => ?_
    rw [Finset.mul_sum]
    exact Finset.sum_le_sum fun a _ => mul_le_mul_of_nonneg_right (hr _ _ hS a) (sq_nonneg _)
  have h3 : ∑ i, ∑ j, U i j * contract42 (piolaT F ((2 : ℝ) • G) fun i j k l => 4 * H i j k l) U i j ≤ frob U * (3 * c) := by
    have c0 : 0 ≤ c := (abs_nonneg _).trans (hc 0 0)
    have h4 := frob_entries hc
    have h5 := frob_inner_le U (contract42 (piolaT F ((2 : ℝ) • G) fun i j k l => 4 * H i j k l) U)
    exact h5.trans (mul_le_mul_of_nonneg_left h4 (frob_nonneg _))
  have h6 : 2 * r * frob U ^ 2 ≤ frob U * (3 * c) := by rw [hq] at h3; linarith
  have h7 : frob U ≤ 3 / (2 * r) * c := by
    rcases (frob_nonneg U).eq_or_lt with h0 | h0
    · rw [← h0]
      have c0 : 0 ≤ c := (abs_nonneg _).trans (hc 0 0)
      positivity
    · have h8 : 2 * r * frob U ≤ 3 * c := by
        refine le_of_mul_le_mul_left ?_ h0
        linarith
      rw [div_mul_eq_mul_div, le_div_iff₀ (by positivity)]
      linarith
  exact fun i j => (abs_le_frob U i j).trans h7

end Hel
