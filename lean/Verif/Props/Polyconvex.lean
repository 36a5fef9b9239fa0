import Verif.Spec.Stability
import Verif.Proofs.Polyconvex
import Verif.Props.Principal
import Verif.Props.Stability
import Verif.Props.Order
import Verif.Props.Initial

/-! # Property C78: convexity and ellipticity of Ogden's and of first-invariant materials -/

namespace Props
open Spec Hel Matrix Filter Topology

variable {Z μ : Type}

theorem contract_dyad (P : Ten2 ℝ) (a b : Fin 3 → ℝ) : contract22 P (vecMulVec a b) = a ⬝ᵥ (P *ᵥ b) := by
  simp only [contract22, vecMulVec_apply, dotProduct, mulVec, Fin.sum_univ_three]
  ring

theorem contract22_neg_right (P U : Ten2 ℝ) : contract22 P (-U) = -contract22 P U := by
  simp only [contract22, Matrix.neg_apply, Fin.sum_univ_three]; ring

theorem acoustic_eq (A : Ten4 ℝ) (a b : Fin 3 → ℝ) :
    acoustic A a b = ∑ i, ∑ J, ∑ k, ∑ L, A i J k L * a i * b J * a k * b L := by
  simp only [acoustic, contract22, contract42, vecMulVec_apply, Fin.sum_univ_three]
  ring

theorem RankOneConvexEnergy.monotone {ψ : Ten2 ℝ → ℝ} {ret : Ten2 ℝ → Ten2 ℝ → Prop} (h : RankOneConvexEnergy ψ ret) :
    RankOneMonotoneStress ret := by
  intro F a b P P' hd hP hP'
  have h1 := h F a b P hd hP
  have e : F + vecMulVec a b + vecMulVec (-a) b = F := by rw [neg_vecMulVec]; abel
  have h2 := h (F + vecMulVec a b) (-a) b P' (by rw [e, mul_comm]; exact hd) hP'
  rw [e, contract_dyad, neg_dotProduct] at h2
  rw [contract_dyad] at h1
  linarith

theorem ConvexEnergy.monotone {ψ : Ten2 ℝ → ℝ} {ret : Ten2 ℝ → Ten2 ℝ → Prop} (h : ConvexEnergy ψ ret) : MonotoneStress ret := by
  intro F G P P' hF hG hP hP'
  have h1 := h F G P hF hG hP
  have h2 := h G F P' hG hF hP'
  have e : F - G = -(G - F) := by abel
  rw [e, contract22_neg_right] at h2
  rw [contract22_sub_left]
  linarith

theorem MonotoneStress.rankOne {ret : Ten2 ℝ → Ten2 ℝ → Prop} (h : MonotoneStress ret) : RankOneMonotoneStress ret := by
  intro F a b P P' hd hP hP'
  have h1 := h F _ P P' (left_ne_zero_of_mul hd.ne') (right_ne_zero_of_mul hd.ne') hP hP'
  rw [add_sub_cancel_left, contract22_sub_left, contract_dyad, contract_dyad] at h1
  linarith

theorem contract42_smul_right' (A : Ten4 ℝ) (t : ℝ) (U : Ten2 ℝ) (i j : Fin 3) :
    contract42 A (t • U) i j = t * contract42 A U i j := by
  simp only [contract42, Matrix.smul_apply, smul_eq_mul, Fin.sum_univ_three]; ring

/-- Stresses which do not decrease along dyads have elliptic derivatives. -/
theorem RankOneMonotoneStress.elliptic {ret : Ten2 ℝ → Ten2 ℝ → Prop} {retH : Ten2 ℝ → Ten4 ℝ → Prop}
    (h : RankOneMonotoneStress ret) (hh : IsHessian (fun F => F.det ≠ 0) ret retH) (hr : ∀ F, F.det ≠ 0 → ∃ P, ret F P)
    {F : Ten2 ℝ} (hF : F.det ≠ 0) {A : Ten4 ℝ} (hA : retH F A) : LegendreHadamard A := by
  classical
  intro a b
  rw [← acoustic_eq]
  let X : ℝ → Ten2 ℝ := fun t => F + t • vecMulVec a b
  let G : ℝ → Ten2 ℝ := fun t => if ht : (X t).det ≠ 0 then (hr _ ht).choose else 0
  have hne := det_line_ne hF (vecMulVec a b)
  have hG : ∀ᶠ t in 𝓝 (0 : ℝ), ret (X t) (G t) := hne.mono fun t ht => by
    simp only [G]
    rw [dif_pos ht]
    exact (hr _ ht).choose_spec
  have hX : Moves X (vecMulVec a b) 0 := by
    intro i j
    have : HasDerivAt (fun t : ℝ => F i j + t * vecMulVec a b i j) (0 + 1 * vecMulVec a b i j) 0 :=
      ((hasDerivAt_const _ _).add ((hasDerivAt_id' _).mul_const _))
    simpa [X] using this
  have h0 : X 0 = F := by simp [X]
  have hd := hh X (vecMulVec a b) 0 G A hne hX hG (by rw [h0]; exact hA)
  have hD : HasDerivAt (fun t => a ⬝ᵥ (G t *ᵥ b)) (acoustic A a b) 0 := by
    have : HasDerivAt (fun t => ∑ i, ∑ j, G t i j * (a i * b j)) (∑ i, ∑ j, contract42 A (vecMulVec a b) i j * (a i * b j)) 0 :=
      HasDerivAt.fun_sum fun i _ => HasDerivAt.fun_sum fun j _ => (hd i j).mul_const _
    refine (this.congr_deriv ?_).congr_of_eventuallyEq (Eventually.of_forall fun t => ?_)
    · simp [acoustic, contract22, vecMulVec_apply]
    · change a ⬝ᵥ (G t *ᵥ b) = _
      rw [← contract_dyad]; simp [contract22, vecMulVec_apply]
  -- the difference quotients from the right are nonnegative
  have hpos : ∀ᶠ t in 𝓝 (0 : ℝ), 0 < F.det * (X t).det := by
    have hc : ContinuousAt (fun t => F.det * (X t).det) 0 := by
      obtain ⟨d, hd⟩ := det_rank_one F a b
      have : (fun t => F.det * (X t).det) = fun t => F.det * (F.det + t * d) := funext fun t => by rw [← hd]
      rw [this]; fun_prop
    refine hc.eventually_const_lt ?_
    change 0 < F.det * (X 0).det
    rw [h0]; exact mul_self_pos.2 hF
  have hs := (hasDerivAt_iff_tendsto_slope.1 hD).mono_left (nhdsWithin_mono 0 (fun x (hx : x ∈ Set.Ioi (0 : ℝ)) => ne_of_gt hx))
  refine ge_of_tendsto hs ?_
  filter_upwards [nhdsWithin_le_nhds hpos, nhdsWithin_le_nhds hG, self_mem_nhdsWithin] with t ht hGt (ht0 : 0 < t)
  have e : t • vecMulVec a b = vecMulVec (t • a) b := by rw [smul_vecMulVec]
  have h1 := h F (t • a) b (G 0) (G t) (by rw [← e]; exact ht) (by
    have := hG.self_of_nhds; rwa [h0] at this) (by rw [← e]; exact hGt)
  rw [smul_dotProduct, smul_dotProduct, smul_eq_mul, smul_eq_mul] at h1
  have h2 := le_of_mul_le_mul_left h1 ht0
  rw [slope_def_field]
  exact div_nonneg (by linarith) (by linarith)

/-! ### Ogden's model -/

/-- The energy of `C = FᵀF` for known principal stretches. -/
theorem energy_svd {ψ : (Fin 3 → ℝ) → ℝ} {Ψ : Ten2 ℝ → ℝ} (hΨ : EnergyOfStretches ψ Ψ) {R Q : Ten2 ℝ} (hR : Orthogonal R)
    (hQ : Orthogonal Q) {l : Fin 3 → ℝ} (hl : Positive l) : Ψ (cauchyGreen (R * diagonal l * Qᵀ)) = ψ l := by
  have hF : (R * diagonal l * Qᵀ).det ≠ 0 := by
    rw [det_mul, det_mul, det_transpose, det_diagonal, Fin.prod_univ_three]
    exact mul_ne_zero (mul_ne_zero hR.det_ne_zero (mul_pos (mul_pos (hl 0) (hl 1)) (hl 2)).ne') hQ.det_ne_zero
  rw [hΨ _ _ Q (posDef_cauchyGreen hF) (Spectral.of_eq hQ (cauchyGreen_svd hR Q l))]
  congr 1
  exact roots_sq_eq hl

/-- The distortional part of `C = FᵀF` for known principal stretches. -/
theorem unimodular_svd {R Q : Ten2 ℝ} (hR : Orthogonal R) (hQ : Orthogonal Q) {l : Fin 3 → ℝ} (hl : Positive l) :
    unimodular (cauchyGreen (R * diagonal l * Qᵀ)) =
      Q * diagonal (fun a => (l a / (l 0 * l 1 * l 2) ^ (1 / 3 : ℝ)) ^ 2) * Qᵀ := by
  have hJ : 0 < l 0 * l 1 * l 2 := mul_pos (mul_pos (hl 0) (hl 1)) (hl 2)
  set C := cauchyGreen (R * diagonal l * Qᵀ) with hC
  have eC : C = rotate Q (diagonal fun a => l a ^ 2) := cauchyGreen_svd hR Q l
  have edet : C.det = (l 0 * l 1 * l 2) ^ 2 := by
    rw [eC, det_rotate _ hQ, det_diagonal, Fin.prod_univ_three]; ring
  have ep : C.det ^ (-1 / 3 : ℝ) = ((l 0 * l 1 * l 2) ^ (1 / 3 : ℝ))⁻¹ ^ 2 := by
    rw [edet, inv_pow, ← Real.rpow_natCast, ← Real.rpow_natCast, ← Real.rpow_mul hJ.le, ← Real.rpow_mul hJ.le,
      ← Real.rpow_neg hJ.le]
    norm_num
  change _ = rotate Q _
  rw [unimodular, ep, eC, ← rotate_smul, ← diagonal_smul]
  congr 2; funext a
  simp only [Pi.smul_apply, smul_eq_mul, div_eq_mul_inv, mul_pow]; ring

theorem energy_unimodular_svd {ψ : (Fin 3 → ℝ) → ℝ} {Ψ : Ten2 ℝ → ℝ} (hΨ : EnergyOfStretches ψ Ψ) {R Q : Ten2 ℝ}
    (hR : Orthogonal R) (hQ : Orthogonal Q) {l : Fin 3 → ℝ} (hl : Positive l) :
    Ψ (unimodular (cauchyGreen (R * diagonal l * Qᵀ))) = ψ fun a => l a / (l 0 * l 1 * l 2) ^ (1 / 3 : ℝ) := by
  have hJ : 0 < l 0 * l 1 * l 2 := mul_pos (mul_pos (hl 0) (hl 1)) (hl 2)
  have hm : Positive fun a => l a / (l 0 * l 1 * l 2) ^ (1 / 3 : ℝ) := fun a => div_pos (hl a) (Real.rpow_pos_of_pos hJ _)
  rw [unimodular_svd hR hQ hl, ← cauchyGreen_svd hQ Q, energy_svd hΨ hQ hQ hm]

theorem list_sum_le {α : Type*} (L : List α) (f g : α → ℝ) (h : ∀ x ∈ L, f x ≤ g x) : (L.map f).sum ≤ (L.map g).sum :=
  List.sum_le_sum h

theorem contract_svd_list {α : Type*} (L : List α) (R Q U : Ten2 ℝ) (g : α → Fin 3 → ℝ) :
    contract22 (R * diagonal (fun a => (L.map fun q => g q a).sum) * Qᵀ) U =
      (L.map fun q => contract22 (R * diagonal (g q) * Qᵀ) U).sum := by
  simp only [contract_svd]
  induction L with
  | nil => simp
  | cons q L ih => simp only [List.map_cons, List.sum_cons, add_mul, Finset.sum_add_distrib, ih]

/-- On the deformation space, the energy of Ogden's model with nonnegative moduli and exponents of at least one is convex. -/
theorem C78_ogden_energy (lapack : Eigh) (hl : EighValid lapack) (mu alpha : List ℝ) (hmu : ∀ m ∈ mu, 0 ≤ m) (ha : ∀ a ∈ alpha, 1 ≤ a)
    (z : Z) (Ψ : Ten2 ℝ → ℝ) (hΨ : EnergyOfStretches (ogdenEnergy mu alpha) Ψ) :
    ConvexEnergy (fun F => Ψ (cauchyGreen F))
      (SpaceObj.Grad (Deformation.obj {} (Stretches.material lapack (Ogden.mat ⟨mu, alpha⟩))) z) := by
  rintro F G P hF hG ⟨s, z', hP⟩
  obtain ⟨R, Q, l, hR, hQ, hl0, rfl⟩ := exists_svd hF
  obtain ⟨R', Q', m, hR', hQ', hm0, rfl⟩ := exists_svd hG
  have h := C52_ogden lapack hl mu alpha (fun a h => by have := ha a h; linarith) z s hl0 hR hQ
  have e := hP.symm.trans h
  simp only [Except.ok.injEq, Prod.mk.injEq] at e
  obtain ⟨e, -⟩ := e
  injection e with e
  have eP : P = R * diagonal (fun a => ((mu.zip alpha).map fun p => 2 * p.1 / p.2 * l a ^ (p.2 - 1)).sum) * Qᵀ := e
  rw [eP]
  simp only [energy_svd hΨ hR hQ hl0, energy_svd hΨ hR' hQ' hm0, ogdenEnergy, contract_svd_list]
  rw [← List.sum_map_add]
  refine list_sum_le _ _ _ fun q hq => ?_
  obtain ⟨h1, h2⟩ := List.of_mem_zip hq
  have hq1 := hmu _ h1
  have hq2 := ha _ h2
  have hc := singular_convex hR hQ hR' hQ' hl0 hm0 hq2
  have hk : 0 ≤ 2 * q.1 / q.2 ^ 2 := by positivity
  have h3 := mul_le_mul_of_nonneg_left hc hk
  have e : contract22 (R * diagonal (fun a => 2 * q.1 / q.2 * l a ^ (q.2 - 1)) * Qᵀ) (R' * diagonal m * Q'ᵀ - R * diagonal l * Qᵀ) =
      2 * q.1 / q.2 ^ 2 * contract22 (R * diagonal (fun a => q.2 * l a ^ (q.2 - 1)) * Qᵀ) (R' * diagonal m * Q'ᵀ - R * diagonal l * Qᵀ) := by
    rw [contract_svd, contract_svd, Finset.mul_sum]
    refine Finset.sum_congr rfl fun a _ => ?_
    have : q.2 ≠ 0 := by linarith
    field_simp
  rw [e]
  simp only [Finset.sum_sub_distrib, mul_sub]
  linarith

theorem iso_pow {n : Fin 3 → ℝ} (hn : Positive n) (k : Fin 3) (p : ℝ) : (n k / (n 0 * n 1 * n 2) ^ (1 / 3 : ℝ)) ^ p =
    n k ^ p * (n 0 * n 1 * n 2) ^ (-p / 3) := by
  have hN : 0 < n 0 * n 1 * n 2 := mul_pos (mul_pos (hn 0) (hn 1)) (hn 2)
  rw [Real.div_rpow (hn k).le (by positivity), ← Real.rpow_mul hN.le, div_eq_mul_inv, ← Real.rpow_neg hN.le]
  congr 2; ring

/-- On the distortional space, the energy of Ogden's model with nonnegative moduli and exponents of at least `3/2` or at most `-3`
is convex along dyads. -/
theorem C78_ogden_distortional_energy (lapack : Eigh) (hl : EighValid lapack) (mu alpha : List ℝ) (hmu : ∀ m ∈ mu, 0 ≤ m)
    (ha : ∀ a ∈ alpha, 3 / 2 ≤ a ∨ a ≤ -3) (z : Z) (Ψ : Ten2 ℝ → ℝ) (hΨ : EnergyOfStretches (ogdenEnergy mu alpha) Ψ) :
    RankOneConvexEnergy (fun F => Ψ (unimodular (cauchyGreen F)))
      (SpaceObj.Grad (Distortional.obj {} (Stretches.material lapack (Ogden.mat ⟨mu, alpha⟩))) z) := by
  rintro F a b P hd ⟨s, z', hP⟩
  obtain ⟨R, Q, l, hR, hQ, hl0, hF⟩ := exists_svd (left_ne_zero_of_mul hd.ne')
  obtain ⟨R', Q', m, hR', hQ', hm0, hG⟩ := exists_svd (right_ne_zero_of_mul hd.ne')
  have ha0 : ∀ a ∈ alpha, a ≠ 0 := fun a h => by rcases ha a h with h | h <;> intro h0 <;> linarith
  have hJ : 0 < l 0 * l 1 * l 2 := mul_pos (mul_pos (hl0 0) (hl0 1)) (hl0 2)
  have hK : 0 < m 0 * m 1 * m 2 := mul_pos (mul_pos (hm0 0) (hm0 1)) (hm0 2)
  have h := C52_distortional lapack hl (Ogden.mat ⟨mu, alpha⟩) (Ogden.symmetric _) (z' := z) (s := s) hl0 hR hQ _ (fun _ => rfl)
    (ogden_returns mu alpha ha0 _ z)
  rw [← hF] at h
  have e := hP.symm.trans h
  simp only [Except.ok.injEq, Prod.mk.injEq] at e
  obtain ⟨e, -⟩ := e
  injection e with e
  have hpow := @iso_pow
  have e1 : Ψ (unimodular (cauchyGreen F)) = ogdenEnergy mu alpha fun a => l a / (l 0 * l 1 * l 2) ^ (1 / 3 : ℝ) := by
    rw [hF]; exact energy_unimodular_svd hΨ hR hQ hl0
  have e2 : Ψ (unimodular (cauchyGreen (F + vecMulVec a b))) = ogdenEnergy mu alpha fun a => m a / (m 0 * m 1 * m 2) ^ (1 / 3 : ℝ) := by
    rw [hG]; exact energy_unimodular_svd hΨ hR' hQ' hm0
  simp only [e1, e2]
  have hslope : ∀ k, l k / (l 0 * l 1 * l 2) ^ (1 / 3 : ℝ) * ogdenSlope mu alpha (l k / (l 0 * l 1 * l 2) ^ (1 / 3 : ℝ)) =
      ((mu.zip alpha).map fun q => 2 * q.1 / q.2 * (l k ^ q.2 * (l 0 * l 1 * l 2) ^ (-q.2 / 3))).sum := by
    intro k
    have hx : 0 < l k / (l 0 * l 1 * l 2) ^ (1 / 3 : ℝ) := div_pos (hl0 k) (Real.rpow_pos_of_pos hJ _)
    rw [ogdenSlope, ← List.sum_map_mul_left]
    congr 1
    refine List.map_congr_left fun q _ => ?_
    rw [← hpow hl0 k, Real.rpow_sub_one hx.ne']
    generalize l k / (l 0 * l 1 * l 2) ^ (1 / 3 : ℝ) = x at hx
    have := hx.ne'
    calc x * (2 * q.1 / q.2 * (x ^ q.2 / x)) = x / x * (2 * q.1 / q.2 * x ^ q.2) := by ring
      _ = _ := by rw [div_self this, one_mul]
  have hP2 : (fun k => (l k / (l 0 * l 1 * l 2) ^ (1 / 3 : ℝ) * ogdenSlope mu alpha (l k / (l 0 * l 1 * l 2) ^ (1 / 3 : ℝ)) -
      (l 0 / (l 0 * l 1 * l 2) ^ (1 / 3 : ℝ) * ogdenSlope mu alpha (l 0 / (l 0 * l 1 * l 2) ^ (1 / 3 : ℝ)) +
        l 1 / (l 0 * l 1 * l 2) ^ (1 / 3 : ℝ) * ogdenSlope mu alpha (l 1 / (l 0 * l 1 * l 2) ^ (1 / 3 : ℝ)) +
        l 2 / (l 0 * l 1 * l 2) ^ (1 / 3 : ℝ) * ogdenSlope mu alpha (l 2 / (l 0 * l 1 * l 2) ^ (1 / 3 : ℝ))) / 3) / l k) =
      fun k => ((mu.zip alpha).map fun q => 2 * q.1 / q.2 * ((l k ^ q.2 * (l 0 * l 1 * l 2) ^ (-q.2 / 3)) -
        (∑ j, l j ^ q.2 * (l 0 * l 1 * l 2) ^ (-q.2 / 3)) / 3) / l k).sum := by
    funext k
    simp only [hslope, Fin.sum_univ_three]
    induction mu.zip alpha with
    | nil => simp
    | cons q L ih =>
      simp only [List.map_cons, List.sum_cons]
      rw [← ih]; ring
  have eP : P = R * diagonal (fun k => ((mu.zip alpha).map fun q => 2 * q.1 / q.2 * ((l k ^ q.2 * (l 0 * l 1 * l 2) ^ (-q.2 / 3)) -
        (∑ j, l j ^ q.2 * (l 0 * l 1 * l 2) ^ (-q.2 / 3)) / 3) / l k).sum) * Qᵀ := by
    rw [← hP2]; exact e
  simp only [eP, contract_svd_list, ogdenEnergy]
  rw [← List.sum_map_add]
  refine list_sum_le _ _ _ fun q hq => ?_
  obtain ⟨h1, h2⟩ := List.of_mem_zip hq
  have hq1 := hmu _ h1
  have hq0 := ha0 _ h2
  have hc := isochoric_rank_one hR hQ hR' hQ' hl0 hm0 a b (by rw [← hF, ← hG]) (by rw [← hF, ← hG]; exact hd) (ha _ h2)
  have hk : 0 ≤ 2 * q.1 / q.2 ^ 2 := by positivity
  have h3 := mul_le_mul_of_nonneg_left hc hk
  simp only [hpow hl0, hpow hm0, contract_svd]
  have e : 2 * q.1 / q.2 ^ 2 * ∑ k, (l k ^ q.2 * (l 0 * l 1 * l 2) ^ (-q.2 / 3) - 1) +
      ∑ k, 2 * q.1 / q.2 * (l k ^ q.2 * (l 0 * l 1 * l 2) ^ (-q.2 / 3) -
        (∑ j, l j ^ q.2 * (l 0 * l 1 * l 2) ^ (-q.2 / 3)) / 3) / l k * (Rᵀ * vecMulVec a b * Q) k k =
      2 * q.1 / q.2 ^ 2 * ∑ k, l k ^ q.2 * (l 0 * l 1 * l 2) ^ (-q.2 / 3) * (1 + q.2 * ((Rᵀ * vecMulVec a b * Q) k k / l k -
        (∑ j, (Rᵀ * vecMulVec a b * Q) j j / l j) / 3)) - 2 * q.1 / q.2 ^ 2 * 3 := by
    have h0 := (hl0 0).ne'
    have h1 := (hl0 1).ne'
    have h2 := (hl0 2).ne'
    simp only [Fin.sum_univ_three]
    generalize (l 0 * l 1 * l 2) ^ (-q.2 / 3) = j
    generalize (Rᵀ * vecMulVec a b * Q) 0 0 = x0
    generalize (Rᵀ * vecMulVec a b * Q) 1 1 = x1
    generalize (Rᵀ * vecMulVec a b * Q) 2 2 = x2
    generalize l 0 ^ q.2 = p0
    generalize l 1 ^ q.2 = p1
    generalize l 2 ^ q.2 = p2
    field_simp
    ring
  rw [e]
  have e' : 2 * q.1 / q.2 ^ 2 * ∑ k, (m k ^ q.2 * (m 0 * m 1 * m 2) ^ (-q.2 / 3) - 1) =
      2 * q.1 / q.2 ^ 2 * ∑ k, m k ^ q.2 * (m 0 * m 1 * m 2) ^ (-q.2 / 3) - 2 * q.1 / q.2 ^ 2 * 3 := by
    rw [Finset.sum_sub_distrib]; simp; ring
  rw [e']
  exact sub_le_sub_right h3 _

/-- On the deformation space, the stress of Ogden's model with nonnegative moduli and exponents of at least one is monotone. -/
theorem C78_ogden (lapack : Eigh) (hl : EighValid lapack) (mu alpha : List ℝ) (hmu : ∀ m ∈ mu, 0 ≤ m) (ha : ∀ a ∈ alpha, 1 ≤ a) (z : Z) :
    MonotoneStress (SpaceObj.Grad (Deformation.obj {} (Stretches.material lapack (Ogden.mat ⟨mu, alpha⟩))) z) := by
  obtain ⟨Ψ, hΨ⟩ := ogden_energy mu alpha
  exact ConvexEnergy.monotone (C78_ogden_energy lapack hl mu alpha hmu ha z Ψ hΨ)

/-- On the distortional space, the traction of Ogden's model does not decrease along dyads if every exponent is at least `3/2` or
at most `-3`. -/
theorem C78_ogden_distortional (lapack : Eigh) (hl : EighValid lapack) (mu alpha : List ℝ) (hmu : ∀ m ∈ mu, 0 ≤ m)
    (ha : ∀ a ∈ alpha, 3 / 2 ≤ a ∨ a ≤ -3) (z : Z) :
    RankOneMonotoneStress (SpaceObj.Grad (Distortional.obj {} (Stretches.material lapack (Ogden.mat ⟨mu, alpha⟩))) z) := by
  obtain ⟨Ψ, hΨ⟩ := ogden_energy mu alpha
  exact RankOneConvexEnergy.monotone (C78_ogden_distortional_energy lapack hl mu alpha hmu ha z Ψ hΨ)

theorem ogden_def_returns (lapack : Eigh) (hl : EighValid lapack) (mu alpha : List ℝ) (ha : ∀ a ∈ alpha, a ≠ 0) (z : Z) (F : Ten2 ℝ)
    (hF : F.det ≠ 0) : ∃ P, SpaceObj.Grad (Deformation.obj {} (Stretches.material lapack (Ogden.mat ⟨mu, alpha⟩))) z F P := by
  obtain ⟨R, Q, l, hR, hQ, hl0, rfl⟩ := exists_svd hF
  exact ⟨_, _, _, C52_ogden lapack hl mu alpha ha z { material := { material := () } } hl0 hR hQ⟩

theorem ogden_dist_returns (lapack : Eigh) (hl : EighValid lapack) (mu alpha : List ℝ) (ha : ∀ a ∈ alpha, a ≠ 0) (z : Z) (F : Ten2 ℝ)
    (hF : F.det ≠ 0) : ∃ P, SpaceObj.Grad (Distortional.obj {} (Stretches.material lapack (Ogden.mat ⟨mu, alpha⟩))) z F P := by
  obtain ⟨R, Q, l, hR, hQ, hl0, rfl⟩ := exists_svd hF
  exact ⟨_, _, _, C52_distortional lapack hl (Ogden.mat ⟨mu, alpha⟩) (Ogden.symmetric _) (z' := z)
    (s := { material := { material := () } }) hl0 hR hQ _ (fun _ => rfl) (ogden_returns mu alpha ha _ z)⟩

/-- The elasticity tensors of these materials are elliptic: on the deformation space at every deformation gradient with equal or
clearly different stretches ... -/
theorem C78_ogden_elliptic (lapack : Eigh) (hl : EighValid lapack) (mu alpha : List ℝ) (hmu : ∀ m ∈ mu, 0 ≤ m)
    (ha : ∀ a ∈ alpha, 1 ≤ a) (z : Z) {F : Ten2 ℝ} (hF : F.det ≠ 0) (hs : Separated (cauchyGreen F)) {A : Ten4 ℝ}
    (hA : SpaceObj.Hess (Deformation.obj {} (Stretches.material lapack (Ogden.mat ⟨mu, alpha⟩))) z F A) : LegendreHadamard A := by
  have ha0 : ∀ a ∈ alpha, a ≠ 0 := fun a h => by have := ha a h; linarith
  exact RankOneMonotoneStress.elliptic (MonotoneStress.rankOne (C78_ogden lapack hl mu alpha hmu ha z))
    (C26_ogden lapack hl mu alpha z fun p hp => ha0 _ (List.of_mem_zip hp).2) (ogden_def_returns lapack hl mu alpha ha0 z) hF ⟨hs, hA⟩

/-- ... and on the distortional space also above the tolerance of `np.allclose`. -/
theorem C78_ogden_distortional_elliptic (lapack : Eigh) (hl : EighValid lapack) (mu alpha : List ℝ) (hmu : ∀ m ∈ mu, 0 ≤ m)
    (ha : ∀ a ∈ alpha, 3 / 2 ≤ a ∨ a ≤ -3) (z : Z) {F : Ten2 ℝ} (hF : F.det ≠ 0) (hs : Separated (unimodular (cauchyGreen F)))
    (ht : ∀ H, Material.Hess (Stretches.material lapack (Ogden.mat ⟨mu, alpha⟩)) z (unimodular (cauchyGreen F)) H → H = 0 ∨
      ∃ i j k l, 1 / 10 ^ 8 < |4 * (cauchyGreen F).det ^ (-2 / 3 : ℝ) * H i j k l|) {A : Ten4 ℝ}
    (hA : SpaceObj.Hess (Distortional.obj {} (Stretches.material lapack (Ogden.mat ⟨mu, alpha⟩))) z F A) : LegendreHadamard A := by
  have ha0 : ∀ a ∈ alpha, a ≠ 0 := fun a h => by rcases ha a h with h | h <;> intro h0 <;> linarith
  exact RankOneMonotoneStress.elliptic (C78_ogden_distortional lapack hl mu alpha hmu ha z)
    (C28_ogden_partial lapack hl mu alpha z fun p hp => ha0 _ (List.of_mem_zip hp).2) (ogden_dist_returns lapack hl mu alpha ha0 z) hF
    ⟨⟨hs, ht⟩, hA⟩

/-! ### one term: the conditions on the exponents are necessary -/

/-- For one term with a positive modulus, an exponent of at least one is necessary, too. -/
theorem C78_ogden_iff (lapack : Eigh) (hl : EighValid lapack) {mu alpha : ℝ} (hmu : 0 < mu) (ha : alpha ≠ 0) (z : Z) :
    MonotoneStress (SpaceObj.Grad (Deformation.obj {} (Stretches.material lapack (Ogden.mat ⟨[mu], [alpha]⟩))) z) ↔ 1 ≤ alpha := by
  constructor
  · intro h
    by_contra hlt
    push Not at hlt
    have ret : ∀ (R : Ten2 ℝ) (_ : Orthogonal R) (l : Fin 3 → ℝ) (_ : Positive l),
        SpaceObj.Grad (Deformation.obj {} (Stretches.material lapack (Ogden.mat ⟨[mu], [alpha]⟩))) z (R * diagonal l)
          (R * diagonal fun a => 2 * mu / alpha * l a ^ (alpha - 1)) := by
      intro R hR l hp
      have := C52_ogden lapack hl [mu] [alpha] (by simpa using ha) z { material := { material := () } } hp hR orthogonal_one
      simp only [transpose_one, Matrix.mul_one, List.zip_cons_cons, List.zip_nil_right, List.map_cons, List.map_nil, List.sum_cons,
        List.sum_nil, add_zero] at this
      refine ⟨_, z, this.trans ?_⟩
      simp only [Except.ok.injEq, Prod.mk.injEq, and_true]
      exact congrArg Stress.full (Matrix.mul_one (R * diagonal fun a => 2 * mu / alpha * l a ^ (alpha - 1) : Ten2 ℝ))
    have h1 := ret 1 orthogonal_one (fun _ => 1) fun _ => one_pos
    rcases lt_or_gt_of_ne ha with hn | hp
    · -- a rotation
      have hR : Orthogonal (diagonal ![-1, -1, 1] : Ten2 ℝ) := by
        rw [Orthogonal, diagonal_transpose, diagonal_mul_diagonal, ← diagonal_one]
        congr 1; funext a; fin_cases a <;> simp
      have h2 := ret _ hR (fun _ => 1) fun _ => one_pos
      have := h _ _ _ _ (by simp [det_diagonal]) (by simp [det_diagonal, Fin.prod_univ_three]) h1 h2
      simp only [Real.one_rpow, mul_one, diagonal_mul_diagonal, Matrix.one_mul, diagonal_sub, contract22, diagonal_apply,
        Fin.sum_univ_three] at this
      simp at this
      have h3 : mu / alpha < 0 := div_neg_of_pos_of_neg hmu hn
      have h4 : 2 * mu / alpha = 2 * (mu / alpha) := by ring
      rw [h4] at this
      linarith
    · -- a stretch in one direction
      have h2 := ret 1 orthogonal_one ![2, 1, 1] (fun a => by fin_cases a <;> simp)
      have := h _ _ _ _ (by simp [det_diagonal]) (by simp [det_diagonal, Fin.prod_univ_three]) h1 h2
      simp only [Real.one_rpow, mul_one, Matrix.one_mul, diagonal_sub, contract22, diagonal_apply,
        Fin.sum_univ_three] at this
      simp at this
      have h3 : (2 : ℝ) ^ (alpha - 1) < 1 := Real.rpow_lt_one_of_one_lt_of_neg (by norm_num) (by linarith)
      have h4 : 0 < 2 * mu / alpha := by positivity
      nlinarith
  · intro h
    exact C78_ogden lapack hl [mu] [alpha] (by simpa using hmu.le) (by simpa using h) z

/-- For one term with a positive modulus on the distortional space, the conditions on the exponent are necessary, too. -/
theorem C78_ogden_distortional_iff (lapack : Eigh) (hl : EighValid lapack) {mu alpha : ℝ} (hmu : 0 < mu) (ha : alpha ≠ 0) (z : Z) :
    RankOneMonotoneStress (SpaceObj.Grad (Distortional.obj {} (Stretches.material lapack (Ogden.mat ⟨[mu], [alpha]⟩))) z) ↔
      3 / 2 ≤ alpha ∨ alpha ≤ -3 := by
  constructor
  · intro h
    by_contra hlt
    push Not at hlt
    have ret : ∀ x : ℝ, 0 < x → ∃ P : Ten2 ℝ,
        SpaceObj.Grad (Distortional.obj {} (Stretches.material lapack (Ogden.mat ⟨[mu], [alpha]⟩))) z (diagonal ![x, 1, 1]) P ∧
          P 0 0 = 4 / 3 * (mu / alpha) * (x ^ (2 * alpha / 3 - 1) - x ^ (-alpha / 3 - 1)) := by
      intro x hx
      have hpos : Positive ![x, 1, 1] := fun a => by fin_cases a <;> simp [hx]
      let m : Fin 3 → ℝ := fun a => ![x, 1, 1] a / ((![x, 1, 1] : Fin 3 → ℝ) 0 * (![x, 1, 1] : Fin 3 → ℝ) 1 * (![x, 1, 1] : Fin 3 → ℝ) 2) ^ (1 / 3 : ℝ)
      have hm : Positive m := fun a => div_pos (hpos a) (Real.rpow_pos_of_pos (by simpa using hx) _)
      have h := C52_distortional lapack hl (Ogden.mat ⟨[mu], [alpha]⟩) (Ogden.symmetric _) (z' := z)
        (s := { material := { material := () } }) hpos orthogonal_one orthogonal_one m
        (fun _ => rfl) (ogden_returns [mu] [alpha] (by simpa using ha) _ z)
      rw [transpose_one, Matrix.one_mul, Matrix.mul_one] at h
      refine ⟨_, ⟨_, _, h⟩, ?_⟩
      have hg : ∀ a, m a * ogdenSlope [mu] [alpha] (m a) = 2 * (mu / alpha) * m a ^ alpha := by
        intro a
        simp only [ogdenSlope, List.zip_cons_cons, List.zip_nil_right, List.map_cons, List.map_nil, List.sum_cons, List.sum_nil, add_zero]
        rw [Real.rpow_sub_one (hm a).ne']
        have := (hm a).ne'
        field_simp
      have e0 : m 0 ^ alpha = x ^ (2 * alpha / 3 - 1) * x := by
        have := iso_pow hpos 0 alpha
        refine this.trans ?_
        simp only [cons_val_zero, cons_val_one, cons_val, mul_one]
        rw [← Real.rpow_add hx, ← Real.rpow_add_one hx.ne']
        congr 1; ring
      have e1 : ∀ k, k ≠ 0 → m k ^ alpha = x ^ (-alpha / 3 - 1) * x := by
        intro k hk
        have := iso_pow hpos k alpha
        refine this.trans ?_
        have h1 : (![x, 1, 1] : Fin 3 → ℝ) k = 1 := by fin_cases k <;> simp at hk ⊢
        rw [h1, Real.one_rpow, one_mul, ← Real.rpow_add_one hx.ne']
        simp
      change ((1 : Ten2 ℝ) * diagonal (fun a => (m a * ogdenSlope [mu] [alpha] (m a) - (m 0 * ogdenSlope [mu] [alpha] (m 0) +
        m 1 * ogdenSlope [mu] [alpha] (m 1) + m 2 * ogdenSlope [mu] [alpha] (m 2)) / 3) / ![x, 1, 1] a) * (1 : Ten2 ℝ)) 0 0 = _
      rw [Matrix.one_mul, Matrix.mul_one, diagonal_apply_eq]
      simp only [hg, e0, e1 1 (by simp), e1 2 (by simp), cons_val_zero]
      field_simp
      ring
    have hf : ∀ x y : ℝ, 0 < x → x < y → 4 / 3 * (mu / alpha) * (x ^ (2 * alpha / 3 - 1) - x ^ (-alpha / 3 - 1)) ≤
        4 / 3 * (mu / alpha) * (y ^ (2 * alpha / 3 - 1) - y ^ (-alpha / 3 - 1)) := by
      intro x y hx hxy
      have hy := hx.trans hxy
      have e1 : (diagonal ![x, 1, 1] : Ten2 ℝ) + vecMulVec ![y - x, 0, 0] ![1, 0, 0] = diagonal ![y, 1, 1] := by
        ext i j
        fin_cases i <;> fin_cases j <;> simp [vecMulVec_apply]
      obtain ⟨P, hP, eP⟩ := ret x hx
      obtain ⟨P', hP', eP'⟩ := ret y hy
      have := h _ ![y - x, 0, 0] ![1, 0, 0] _ _ (by
        rw [e1]; simp [det_diagonal, Fin.prod_univ_three]; positivity) hP (by rw [e1]; exact hP')
      rw [← eP, ← eP']
      simp [dotProduct, mulVec, Fin.sum_univ_three] at this
      nlinarith
    have h1 : 2 * alpha / 3 - 1 < 0 := by linarith [hlt.1]
    have h2 : -alpha / 3 - 1 < 0 := by linarith [hlt.2]
    have lim : ∀ p : ℝ, p < 0 → Tendsto (fun x : ℝ => x ^ p) atTop (𝓝 0) := fun p hp => by
      have := tendsto_rpow_neg_atTop (y := -p) (by linarith)
      simpa using this
    have hlim : Tendsto (fun y : ℝ => 4 / 3 * (mu / alpha) * (y ^ (2 * alpha / 3 - 1) - y ^ (-alpha / 3 - 1))) atTop (𝓝 0) := by
      have := ((lim _ h1).sub (lim _ h2)).const_mul (4 / 3 * (mu / alpha))
      simpa using this
    have hle := ge_of_tendsto hlim ((eventually_gt_atTop (2 : ℝ)).mono fun y hy => hf 2 y two_pos hy)
    rcases lt_or_gt_of_ne ha with hn | hp
    · have h3 : (2 : ℝ) ^ (2 * alpha / 3 - 1) < 2 ^ (-alpha / 3 - 1) := Real.rpow_lt_rpow_of_exponent_lt (by norm_num) (by linarith)
      have h4 : mu / alpha < 0 := div_neg_of_pos_of_neg hmu hn
      nlinarith
    · have h3 : (2 : ℝ) ^ (-alpha / 3 - 1) < 2 ^ (2 * alpha / 3 - 1) := Real.rpow_lt_rpow_of_exponent_lt (by norm_num) (by linarith)
      have h4 : 0 < mu / alpha := div_pos hmu hp
      nlinarith
  · intro h
    exact C78_ogden_distortional lapack hl [mu] [alpha] (by simpa using hmu.le) (by simpa using h) z

/-! ### Materials which depend on the first invariant -/

theorem trace_unimodular_svd {R Q : Ten2 ℝ} (hR : Orthogonal R) (hQ : Orthogonal Q) {l : Fin 3 → ℝ} (hl : Positive l) :
    (unimodular (cauchyGreen (R * diagonal l * Qᵀ))).trace = ∑ k, l k ^ (2 : ℝ) * (l 0 * l 1 * l 2) ^ (-(2 : ℝ) / 3) := by
  rw [unimodular_svd hR hQ hl]
  change (rotate Q _).trace = _
  rw [trace_rotate _ hQ, trace_diagonal]
  refine Finset.sum_congr rfl fun k _ => ?_
  rw [← iso_pow hl k 2, Real.rpow_two]

/-- The first invariant of the distortional part of the deformation lies above its tangents along dyads. -/
theorem first_invariant_rank_one {F : Ten2 ℝ} {a b : Fin 3 → ℝ} (hd : 0 < F.det * (F + vecMulVec a b).det) :
    (unimodular (cauchyGreen F)).trace + contract22 (F * distS (cauchyGreen F) 1) (vecMulVec a b) ≤
      (unimodular (cauchyGreen (F + vecMulVec a b))).trace := by
  obtain ⟨R, Q, l, hR, hQ, hl, hF⟩ := exists_svd (left_ne_zero_of_mul hd.ne')
  obtain ⟨R', Q', m, hR', hQ', hm, hG⟩ := exists_svd (right_ne_zero_of_mul hd.ne')
  have hJ : 0 < l 0 * l 1 * l 2 := mul_pos (mul_pos (hl 0) (hl 1)) (hl 2)
  have hc := isochoric_rank_one hR hQ hR' hQ' hl hm a b (by rw [← hF, ← hG]) (by rw [← hF, ← hG]; exact hd) (p := 2)
    (Or.inl (by norm_num))
  rw [← trace_unimodular_svd hR' hQ' hm, ← hG] at hc
  refine le_trans (le_of_eq ?_) hc
  have eC : cauchyGreen F = rotate Q (diagonal fun a => l a ^ 2) := by rw [hF]; exact cauchyGreen_svd hR Q l
  have hl2 : ∀ a, 0 < l a ^ 2 := fun a => pow_pos (hl a) 2
  have edet : (cauchyGreen F).det = (l 0 * l 1 * l 2) ^ 2 := by
    rw [eC, det_rotate _ hQ, det_diagonal, Fin.prod_univ_three]; ring
  have ep : (cauchyGreen F).det ^ (-1 / 3 : ℝ) = (l 0 * l 1 * l 2) ^ (-(2 : ℝ) / 3) := by
    rw [edet, ← Real.rpow_natCast, ← Real.rpow_mul hJ.le]
    norm_num
  have einv : (diagonal fun a => l a ^ 2 : Ten2 ℝ)⁻¹ = diagonal fun a => (l a ^ 2)⁻¹ := by
    refine Matrix.inv_eq_left_inv ?_
    rw [Matrix.diagonal_mul_diagonal, ← Matrix.diagonal_one]
    congr 1; funext a; exact inv_mul_cancel₀ (hl2 a).ne'
  have hdd : (diagonal fun a => l a ^ 2 : Ten2 ℝ).det ≠ 0 := by
    rw [det_diagonal, Fin.prod_univ_three]; exact (mul_pos (mul_pos (hl2 0) (hl2 1)) (hl2 2)).ne'
  have etr : (cauchyGreen F).trace = l 0 ^ 2 + l 1 ^ 2 + l 2 ^ 2 := by
    rw [eC, trace_rotate _ hQ, trace_diagonal, Fin.sum_univ_three]
  set j := (l 0 * l 1 * l 2) ^ (-(2 : ℝ) / 3) with hj
  have eS : distS (cauchyGreen F) 1 = rotate Q (diagonal fun k => 2 * j * (1 - (l 0 ^ 2 + l 1 ^ 2 + l 2 ^ 2) / 3 * (l k ^ 2)⁻¹)) := by
    rw [distS, contract22_smul_left, contract22_one_left, ep, etr, eC, inv_rotate _ hQ hdd, einv]
    conv_lhs => rw [← rotate_one hQ]
    rw [← rotate_smul, ← rotate_smul, ← rotate_sub]
    congr 1
    ext i k
    by_cases h : i = k
    · subst h; simp; ring
    · simp [h]
  have eP : F * distS (cauchyGreen F) 1 =
      R * diagonal (fun k => l k * (2 * j * (1 - (l 0 ^ 2 + l 1 ^ 2 + l 2 ^ 2) / 3 * (l k ^ 2)⁻¹))) * Qᵀ := by
    have hq : Qᵀ * Q = 1 := hQ
    rw [eS]
    nth_rewrite 1 [hF]
    rw [rotate, ← diagonal_mul_diagonal l]
    simp only [Matrix.mul_assoc]
    rw [← Matrix.mul_assoc Qᵀ Q, hq, Matrix.one_mul]
  rw [eP, contract_svd]
  nth_rewrite 1 [hF]
  rw [trace_unimodular_svd hR hQ hl]
  have h0 := (hl 0).ne'
  have h1 := (hl 1).ne'
  have h2 := (hl 2).ne'
  simp only [Fin.sum_univ_three, Real.rpow_two]
  rw [← hj]
  generalize (Rᵀ * vecMulVec a b * Q) 0 0 = x0
  generalize (Rᵀ * vecMulVec a b * Q) 1 1 = x1
  generalize (Rᵀ * vecMulVec a b * Q) 2 2 = x2
  field_simp
  ring

theorem posDef_unimodular_one {F : Ten2 ℝ} (hF : F.det ≠ 0) : PosDef (unimodular (cauchyGreen F)) ∧ (unimodular (cauchyGreen F)).det = 1 := by
  have h := admissible_arg .distortional hF
  have e : T2 (arg .distortional F) = unimodular (cauchyGreen F) := Distortional.T2_cu F
  rw [e] at h
  exact ⟨h.1, h.2 rfl⟩

/-- On the distortional space, the energy of a material which only depends on the first invariant, not decreasing and convex, is
convex along dyads. -/
theorem C78_first_invariant (mat : InvMat ℝ Z μ) (z : Z) (f f' : ℝ → ℝ) (hg : ∀ x g, InvMat.Grad mat z x g → g = ![f' (x 0), 0, 0])
    (h0 : ∀ x, 3 ≤ x → 0 ≤ f' x) (hc : ∀ x y, 3 ≤ x → 3 ≤ y → f x + f' x * (y - x) ≤ f y) :
    RankOneConvexEnergy (fun F => f (invariants (unimodular (cauchyGreen F)) 0))
      (SpaceObj.Grad (Distortional.obj {} (Invariants.material mat)) z) := by
  intro F a b P hd hP
  have hF := left_ne_zero_of_mul hd.ne'
  have hG := right_ne_zero_of_mul hd.ne'
  obtain ⟨G, hGr, rfl⟩ := (Distortional.grad_iff _ z hF).1 hP
  obtain ⟨g, hgr, rfl⟩ := (Invariants.grad_iff _ z (symInv_unimodular hF)).1 hGr
  have x3 := (invariants_ge_three (posDef_unimodular_one hF).1 (posDef_unimodular_one hF).2).1
  have y3 := (invariants_ge_three (posDef_unimodular_one hG).1 (posDef_unimodular_one hG).2).1
  have h := first_invariant_rank_one hd
  have e : F * distS (cauchyGreen F) (invGradT (unimodular (cauchyGreen F)) g) =
      f' (invariants (unimodular (cauchyGreen F)) 0) • (F * distS (cauchyGreen F) 1) := by
    rw [hg _ _ hgr, invGradT]
    simp only [cons_val_zero, cons_val_one, cons_val, zero_smul, add_zero, distS, contract22_smul_left]
    rw [← Matrix.mul_smul]
    congr 1
    ext i j
    simp only [Matrix.sub_apply, Matrix.smul_apply, smul_eq_mul]
    ring
  have e2 : contract22 (F * distS (cauchyGreen F) (invGradT (unimodular (cauchyGreen F)) g)) (vecMulVec a b) =
      f' (invariants (unimodular (cauchyGreen F)) 0) * contract22 (F * distS (cauchyGreen F) 1) (vecMulVec a b) := by
    rw [e, contract22_smul_left]
  refine le_trans (add_le_add le_rfl (le_of_eq e2)) ?_
  refine le_trans ?_ (hc _ _ x3 y3)
  have h1 := mul_le_mul_of_nonneg_left (le_sub_iff_add_le'.2 h) (h0 _ x3)
  exact add_le_add le_rfl h1

theorem isHessian_restrict {dom dom' : Ten2 ℝ → Prop} {ret : Ten2 ℝ → Ten2 ℝ → Prop} {retH : Ten2 ℝ → Ten4 ℝ → Prop}
    (h : IsHessian dom ret retH) (hd : ∀ F, dom' F → dom F) : IsHessian dom' ret retH :=
  fun X X' t₀ G H h1 h2 h3 h4 => h X X' t₀ G H (h1.mono fun _ ht => hd _ ht) h2 h3 h4

theorem yeoh_slope (C10 C20 C30 : ℝ) (strain : Bool) (z : Z) (x g : Fin 3 → ℝ) (h : InvMat.Grad (TOD.init C10 0 0 C20 C30 strain).mat z x g) :
    g = ![C10 + C20 * 2 * (x 0 - if strain then 0 else 3) + C30 * 3 * (x 0 - if strain then 0 else 3) ^ 2, 0, 0] := by
  rw [(TOD.grad_iff ..).1 h]
  simp only [TOD.init, zero_mul, add_zero]

/-- On the distortional space, the energy of the Yeoh model with nonnegative coefficients is convex along dyads. -/
theorem C78_yeoh_energy (C10 C20 C30 : ℝ) (h1 : 0 ≤ C10) (h2 : 0 ≤ C20) (h3 : 0 ≤ C30) (strain : Bool) (z : Z) :
    RankOneConvexEnergy (fun F => todEnergy C10 0 0 C20 C30 (if strain then 0 else 3) (invariants (unimodular (cauchyGreen F))))
      (SpaceObj.Grad (Distortional.obj {} (Invariants.material (TOD.init C10 0 0 C20 C30 strain).mat)) z) := by
  have hr : ∀ x : ℝ, 3 ≤ x → 0 ≤ x - if strain then 0 else 3 := fun x hx => by cases strain <;> simp <;> linarith
  set r : ℝ := if strain then 0 else 3 with hr0
  have h := C78_first_invariant (TOD.init C10 0 0 C20 C30 strain).mat z
    (fun x => C10 * (x - r) + C20 * (x - r) ^ 2 + C30 * (x - r) ^ 3)
    (fun x => C10 + C20 * 2 * (x - r) + C30 * 3 * (x - r) ^ 2) (fun x g hg => yeoh_slope C10 C20 C30 strain z x g hg)
    (fun x hx => by have := hr x hx; positivity)
    (fun x y hx hy => by
      have hx' := hr x hx
      have hy' := hr y hy
      have e : y - x = (y - r) - (x - r) := by ring
      rw [e]
      generalize x - r = u at hx'
      generalize y - r = v at hy'
      have q2 : 0 ≤ C20 * (v - u) ^ 2 := by positivity
      have q3 : 0 ≤ C30 * ((v - u) ^ 2 * (v + 2 * u)) := by positivity
      nlinarith)
  intro F a b P hd hP
  refine le_trans (le_of_eq ?_) ((h F a b P hd hP).trans (le_of_eq ?_)) <;> simp only [todEnergy] <;> ring

/-- The traction of the Yeoh model on the distortional space does not decrease along dyads. -/
theorem C78_yeoh (C10 C20 C30 : ℝ) (h1 : 0 ≤ C10) (h2 : 0 ≤ C20) (h3 : 0 ≤ C30) (strain : Bool) (z : Z) :
    RankOneMonotoneStress (SpaceObj.Grad (Distortional.obj {} (Invariants.material (TOD.init C10 0 0 C20 C30 strain).mat)) z) :=
  RankOneConvexEnergy.monotone (C78_yeoh_energy C10 C20 C30 h1 h2 h3 strain z)

/-- The elasticity tensor of the Yeoh model on the distortional space is elliptic at every deformation gradient, whether or not its
second derivatives are below the tolerance of `np.allclose`. -/
theorem C78_yeoh_elliptic (C10 C20 C30 : ℝ) (h1 : 0 ≤ C10) (h2 : 0 ≤ C20) (h3 : 0 ≤ C30) (strain : Bool) (z : Z) {F : Ten2 ℝ}
    (hF : F.det ≠ 0) {A : Ten4 ℝ}
    (hA : SpaceObj.Hess (Distortional.obj {} (Invariants.material (TOD.init C10 0 0 C20 C30 strain).mat)) z F A) : LegendreHadamard A := by
  classical
  obtain ⟨G, H, hG, hH, eA⟩ := Distortional.hess_elim hF hA
  have hS := symInv_unimodular hF
  by_cases hdr : Distortional.Dropped F H
  · -- the elasticity of a Neo-Hookean material with the same first derivative
    set k := C10 + C20 * 2 * (invariants (unimodular (cauchyGreen F)) 0 - if strain then 0 else 3) +
      C30 * 3 * (invariants (unimodular (cauchyGreen F)) 0 - if strain then 0 else 3) ^ 2 with hk
    have x3 := (invariants_ge_three (posDef_unimodular_one hF).1 (posDef_unimodular_one hF).2).1
    have hx : 0 ≤ invariants (unimodular (cauchyGreen F)) 0 - if strain then 0 else 3 := by cases strain <;> simp <;> linarith
    have hk0 : 0 ≤ k := by rw [hk]; positivity
    obtain ⟨A', hA'⟩ : ∃ A', SpaceObj.Hess (Distortional.obj {} (Invariants.material (TOD.init k 0 0 0 0 strain).mat)) z F A' := by
      obtain ⟨X, hX⟩ := tod_dist_hess_total (TOD.init k 0 0 0 0 strain) F z { material := { material := () } }
      exact ⟨X, _, hX⟩
    obtain ⟨G', H', hG', hH', eA'⟩ := Distortional.hess_elim hF hA'
    have eH' : H' = 0 := by
      rw [(tod_hess _ _ hS).1 hH']
      funext i j k l
      simp [todHessT, TOD.init]
    have eG : G = G' := by
      rw [(tod_grad _ _ hS).1 hG, (tod_grad _ _ hS).1 hG']
      simp only [todGradT, TOD.init, zero_mul, add_zero, hk]
    have hdr' : Distortional.Dropped F H' := by
      rw [eH']; intro i j k l; simp
    have e : A = A' := by
      rw [eA, eA', eG]
      simp only [hdr, hdr', not_true_eq_false, if_false]
    intro a b
    rw [e, ← acoustic_eq]
    refine le_trans ?_ (C60_neo_hooke k hk0 strain z hF hA' a b)
    have := det_cauchyGreen_pos hF
    have h1 : 0 ≤ a ⬝ᵥ a := by simp only [dotProduct, Fin.sum_univ_three]; nlinarith [mul_self_nonneg (a 0), mul_self_nonneg (a 1), mul_self_nonneg (a 2)]
    have h2 : 0 ≤ b ⬝ᵥ b := by simp only [dotProduct, Fin.sum_univ_three]; nlinarith [mul_self_nonneg (b 0), mul_self_nonneg (b 1), mul_self_nonneg (b 2)]
    positivity
  · have h := C28_hessian_partial _ z _ (C17_hessian_partial _ z (fun _ => True)
      (C10_hessian C10 0 0 C20 C30 strain z) (C10_statevars C10 0 0 C20 C30 strain z)
      (by
        intro I1 I2 I3 s r hr
        simp only [Returns, TOD.mat, PyM.lift_run, TOD.hessian_eq, Except.ok.injEq] at hr
        rw [← hr]; rfl))
    refine RankOneMonotoneStress.elliptic (C78_yeoh C10 C20 C30 h1 h2 h3 strain z)
      (isHessian_restrict h fun F ht => ⟨ht, symInv_unimodular ht, trivial⟩)
      (fun F hF => tod_distortional_returns _ z hF) hF ⟨fun H' hH' => ?_, hA⟩
    right
    have e : H' = H := by rw [(tod_hess _ _ hS).1 hH', (tod_hess _ _ hS).1 hH]
    rw [e]
    by_contra hno
    push Not at hno
    exact hdr hno

/-! The hypotheses are met. -/

/-- two different invertible deformation gradients, and a stress which the three-term Ogden model returns at the first one -/
example (lapack : Eigh) (hl : EighValid lapack) : ∃ P, (diagonal ![2, 1, 1] : Ten2 ℝ).det ≠ 0 ∧ (diagonal ![3, 1, 2] : Ten2 ℝ).det ≠ 0 ∧
    SpaceObj.Grad (Deformation.obj {} (Stretches.material lapack (Ogden.mat ⟨[1, 2, 3], [1, 2, 4]⟩))) () (diagonal ![2, 1, 1]) P := by
  obtain ⟨P, hP⟩ := ogden_def_returns lapack hl [1, 2, 3] [1, 2, 4] (by simp) () (diagonal ![2, 1, 1])
    (by simp [det_diagonal, Fin.prod_univ_three])
  exact ⟨P, by simp [det_diagonal, Fin.prod_univ_three], by simp [det_diagonal, Fin.prod_univ_three], hP⟩

/-- a simple shear of a stretched body keeps its orientation -/
example : 0 < (diagonal ![2, 1, 1] : Ten2 ℝ).det * (diagonal ![2, 1, 1] + vecMulVec ![1, 0, 0] ![0, 1, 0] : Ten2 ℝ).det := by
  rw [det_fin_three, det_fin_three]
  simp [vecMulVec_apply, diagonal_apply]

/-- a first-invariant material other than the Yeoh model meets the conditions on `f` -/
example : (∀ x : ℝ, 3 ≤ x → 0 ≤ Real.exp x) ∧ ∀ x y : ℝ, 3 ≤ x → 3 ≤ y → Real.exp x + Real.exp x * (y - x) ≤ Real.exp y := by
  refine ⟨fun x _ => (Real.exp_pos x).le, fun x y _ _ => ?_⟩
  have h := Real.add_one_le_exp (y - x)
  have e : Real.exp y = Real.exp x * Real.exp (y - x) := by rw [← Real.exp_add]; congr 1; ring
  rw [e]
  nlinarith [Real.exp_pos x]

end Props
