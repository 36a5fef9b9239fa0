import Verif.Proofs.RoundingTangentSum
import Verif.Props.Tolerance

/-! The exact tangent of Ogden's model, and the computed one, against each other. -/

namespace Hel.Rnd
open Spec Matrix

/-! ### the sum over the eigenbases as a derivative of a matrix function -/

/-- The coefficients in both orders of the indices. -/
def pairCoef (d2 f : Vec6 ℝ) (a b : Fin 3) : ℝ := if a = b then d2 (![0, 1, 2] a) else f (tab a b)

theorem spectralDeriv_apply (V : Ten2 ℝ) (k : Fin 3 → Fin 3 → ℝ) (X : Ten2 ℝ) (i j : Fin 3) :
    spectralDeriv V k X i j = ∑ a, ∑ b, k a b * ((Vᵀ * X * V) a b * (V i a * V j b)) := by
  simp only [spectralDeriv, Matrix.mul_apply (M := V * _), Matrix.mul_apply (M := V), Matrix.transpose_apply, Matrix.of_apply,
    Finset.sum_mul]
  rw [Finset.sum_comm]
  exact Finset.sum_congr rfl fun a _ => Finset.sum_congr rfl fun b _ => by ring

theorem contract_stretchesHess (d2 f : Vec6 ℝ) (h3 : d2 3 = 0) (h4 : d2 4 = 0) (h5 : d2 5 = 0) (V : Ten2 ℝ) {X : Ten2 ℝ}
    (hX : X.IsSymm) : contract42 (astensor4 (stretchesHess d2 f V)) X = spectralDeriv V (pairCoef d2 f) X := by
  ext i j
  rw [spectralDeriv_apply]
  have hd : ∀ a, contract42 (astensor4 (Hel.dya (Stretches.bases V a) (Stretches.bases V a))) X i j =
      (Vᵀ * X * V) a a * (V i a * V j a) := fun a => by
    rw [T4_dya, contract42_dyad, Stretches.T2_bases, Matrix.smul_apply, smul_eq_mul, Stretches.contract_base]
    rfl
  have hc : ∀ a b, contract42 (astensor4 (Hel.cdya (Stretches.bases V a) (Stretches.bases V b))) X i j =
      1 / 2 * ((Vᵀ * X * V) a b * (V i a * V j b) + (Vᵀ * X * V) b a * (V i b * V j a)) := fun a b => by
    rw [T4_cdya, Stretches.T2_bases, Stretches.T2_bases, contract42_dyadSym (Stretches.base_symm V a) (Stretches.base_symm V b) hX,
      Matrix.smul_apply, smul_eq_mul, Matrix.add_apply, Stretches.base_mul_base, Stretches.base_mul_base]
  have e : contract42 (astensor4 (stretchesHess d2 f V)) X i j =
      d2 0 * contract42 (astensor4 (Hel.dya (Stretches.bases V 0) (Stretches.bases V 0))) X i j +
      d2 1 * contract42 (astensor4 (Hel.dya (Stretches.bases V 1) (Stretches.bases V 1))) X i j +
      d2 2 * contract42 (astensor4 (Hel.dya (Stretches.bases V 2) (Stretches.bases V 2))) X i j +
      f 3 * 2 * contract42 (astensor4 (Hel.cdya (Stretches.bases V 0) (Stretches.bases V 1))) X i j +
      f 4 * 2 * contract42 (astensor4 (Hel.cdya (Stretches.bases V 1) (Stretches.bases V 2))) X i j +
      f 5 * 2 * contract42 (astensor4 (Hel.cdya (Stretches.bases V 0) (Stretches.bases V 2))) X i j := by
    have hs : stretchesHess d2 f V = fun i j =>
        d2 0 * Hel.dya (Stretches.bases V 0) (Stretches.bases V 0) i j +
        d2 1 * Hel.dya (Stretches.bases V 1) (Stretches.bases V 1) i j +
        d2 2 * Hel.dya (Stretches.bases V 2) (Stretches.bases V 2) i j +
        f 3 * 2 * Hel.cdya (Stretches.bases V 0) (Stretches.bases V 1) i j +
        f 4 * 2 * Hel.cdya (Stretches.bases V 1) (Stretches.bases V 2) i j +
        f 5 * 2 * Hel.cdya (Stretches.bases V 0) (Stretches.bases V 2) i j := by
      funext i j
      refine (stretchesHess_eq (K := ℝ) d2 f (show Full2 ℝ from V) i j).trans ?_
      rw [h3, h4, h5]
      have he := fun a => eigenbases_exact V a
      rw [he 0, he 1, he 2]
      simp only [dya_exact, cdya_exact]
      change (0 + _ + _ + _ + 0 * _ + (0 * _ + _ * 2 * _) + 0 * _ + (0 * _ + _ * 2 * _) + 0 * _ + (0 * _ + _ * 2 * _) : ℝ) = _
      ring
    rw [hs]
    simp only [contract42, astensor4, add_mul, Finset.sum_add_distrib, mul_assoc, ← Finset.mul_sum]
  rw [e]
  simp only [hd, hc, Fin.sum_univ_three]
  simp only [pairCoef, tab]
  simp
  ring

theorem frob_spectralDeriv {V : Ten2 ℝ} (hV : Orthogonal V) {k : Fin 3 → Fin 3 → ℝ} {c : ℝ} (hk : ∀ a b, |k a b| ≤ c) (X : Ten2 ℝ) :
    frob (spectralDeriv V k X) ≤ c * frob X := by
  have hc : 0 ≤ c := (abs_nonneg _).trans (hk 0 0)
  have hV' : Orthogonal (Vᵀ : Ten2 ℝ) := by
    change (Vᵀ)ᵀ * Vᵀ = 1
    rw [Matrix.transpose_transpose]
    exact mul_eq_one_comm.1 hV
  have e : frob (spectralDeriv V k X) = frob (Matrix.of fun a b => k a b * (Vᵀ * X * V) a b : Ten2 ℝ) := by
    have := frob_rotate hV' hV' (Matrix.of fun a b => k a b * (Vᵀ * X * V) a b : Ten2 ℝ)
    rw [Matrix.transpose_transpose] at this
    exact this
  rw [e, ← frob_rotate hV hV X, ← abs_of_nonneg hc, ← frob_smul]
  refine frob_mono fun a b => ?_
  rw [Matrix.smul_apply, smul_eq_mul, Matrix.of_apply, abs_mul, abs_mul]
  exact mul_le_mul_of_nonneg_right ((hk a b).trans (le_abs_self c)) (abs_nonneg _)

theorem spectralDeriv_sub (V : Ten2 ℝ) (k k' : Fin 3 → Fin 3 → ℝ) (X : Ten2 ℝ) :
    spectralDeriv V k X - spectralDeriv V k' X = spectralDeriv V (fun a b => k a b - k' a b) X := by
  ext i j
  simp only [Matrix.sub_apply, spectralDeriv_apply, ← Finset.sum_sub_distrib]
  exact Finset.sum_congr rfl fun a _ => Finset.sum_congr rfl fun b _ => by ring

/-- The components of a tangent from its products with symmetric matrices. -/
theorem component_le {H H' : Ten4 ℝ} (hH : ∀ i j k l, H i j k l = H i j l k) (hH' : ∀ i j k l, H' i j k l = H' i j l k) {c : ℝ}
    (h : ∀ X : Ten2 ℝ, X.IsSymm → frob X ≤ 1 → frob (contract42 H X - contract42 H' X) ≤ c) (i j k l : Fin 3) :
    |H i j k l - H' i j k l| ≤ c := by
  let X : Ten2 ℝ := (1 / 2 : ℝ) • (Matrix.single k l 1 + Matrix.single l k 1)
  have hX : X.IsSymm := by
    change Xᵀ = X
    simp only [X, Matrix.transpose_smul, Matrix.transpose_add, Matrix.transpose_single]
    rw [add_comm]
  have hf : ∀ k l, frob (Matrix.single k l (1 : ℝ) : Ten2 ℝ) = 1 := fun k l => by
    unfold frob
    rw [Real.sqrt_eq_one]
    simp only [Matrix.single_apply, ite_pow, one_pow]
    simp [Finset.sum_ite, ite_and]
  have hX1 : frob X ≤ 1 := by
    simp only [X]
    rw [frob_smul]
    have := frob_add_le (Matrix.single k l (1 : ℝ) : Ten2 ℝ) (Matrix.single l k 1)
    rw [hf, hf] at this
    rw [abs_of_pos (by norm_num)]
    linarith
  have e : ∀ H : Ten4 ℝ, (∀ i j k l, H i j k l = H i j l k) → contract42 H X i j = H i j k l := fun H hs => by
    have h1 : ∀ k l, ∑ m, ∑ n, H i j m n * (Matrix.single k l (1 : ℝ) : Ten2 ℝ) m n = H i j k l := fun k l => by
      simp only [Matrix.single_apply]
      simp [ite_and]
    have : contract42 H X i j = 1 / 2 * (H i j k l + H i j l k) := by
      rw [← h1 k l, ← h1 l k, ← Finset.sum_add_distrib, Finset.mul_sum]
      simp only [contract42]
      refine Finset.sum_congr rfl fun m _ => ?_
      rw [← Finset.sum_add_distrib, Finset.mul_sum]
      refine Finset.sum_congr rfl fun n _ => ?_
      simp only [X, Matrix.smul_apply, Matrix.add_apply, smul_eq_mul]
      ring
    rw [this, ← hs i j k l]
    ring
  have h1 := (abs_le_frob (contract42 H X - contract42 H' X) i j).trans (h X hX hX1)
  rwa [Matrix.sub_apply, e H hH, e H' hH'] at h1

/-! ### the exact tangent -/

theorem rate2_eq (mu alpha : List ℝ) (x : ℝ) :
    ((mu.zip alpha).map fun p => p.1 / p.2 * (p.2 / 2 - 1) * x ^ (p.2 / 2 - 2)).sum = ogdenRate2 mu alpha x := by
  unfold ogdenRate2
  congr 1
  refine List.map_congr_left fun p _ => ?_
  rw [show p.2 / 2 - 1 = (p.2 - 2) / 2 by ring, show p.2 / 2 - 2 = (p.2 - 4) / 2 by ring]

theorem rate_eq (mu alpha : List ℝ) (x : ℝ) :
    ((mu.zip alpha).map fun p => p.1 / p.2 * x ^ (p.2 / 2 - 1)).sum = ogdenRate mu alpha x := by
  unfold ogdenRate
  congr 1
  refine List.map_congr_left fun p _ => ?_
  rw [show p.2 / 2 - 1 = (p.2 - 2) / 2 by ring]

/-- The hessian of `Stretches(Ogden)` without rounding: the divided differences up to the tolerance. -/
theorem ogden_exact_hess {Z : Type} (lapack : Eigh) (hl : EighValid lapack) {mu alpha : List ℝ} (z : Z) {C : Ten2 ℝ} {H : Ten4 ℝ}
    {R : RoundingSqrt} {ε a b L G q D L₂ a' b' : ℝ} (hB : OgdenTangentBounds R.u ε mu alpha a b L G q D L₂) (haa : a ≤ a') (hbb : b' ≤ b)
    (hC : SpectrumIn C a' b')
    (hH : Material.Hess (Stretches.material lapack (Ogden.mat ⟨mu, alpha⟩)) z C H) :
    ∃ s U k, Spectral C s U ∧ (∀ c, s c ∈ Set.Icc a b) ∧ (∀ X : Ten2 ℝ, X.IsSymm → contract42 H X = spectralDeriv U k X) ∧
      ∀ c d, |k c d - ogdenDD mu alpha (s c) (s d)| ≤ L₂ * (1 / 10 ^ 8) := by
  obtain ⟨s, c, M, hc, hM, hr⟩ := hH
  have hS : Spectral C (Stretches.vals lapack C) (Stretches.vecs lapack C) := hl C hc.symm
  have hm : ∀ c, Stretches.vals lapack C c ∈ Set.Icc a b := fun c => by
    have := Spectral.mem hS hC c
    exact ⟨haa.trans this.1, this.2.trans hbb⟩
  have hpos : ∀ c, 0 < Stretches.vals lapack C c := fun c => hB.pos.trans_le (hm c).1
  obtain ⟨g, z', m, k, hg, hk, rfl⟩ := (Stretches.returns_hessian ..).1 hr
  rw [Stretches.eighSqrt_eq lapack hc] at hg hk hM
  obtain rfl : z' = z := Props.C11_statevars mu alpha z _ _ _ _ (by rw [Returns, hg])
  have hg' : StrMat.Grad (Ogden.mat ⟨mu, alpha⟩) z' (Stretches.roots (Stretches.vals lapack C)) g :=
    ⟨s.material, z', by rw [Returns]; exact congrArg Prod.fst hg⟩
  have hh : StrMat.Hess (Ogden.mat ⟨mu, alpha⟩) z' (Stretches.roots (Stretches.vals lapack C)) (StrHess.mat k) := ⟨m, k, hk, rfl⟩
  set w := Stretches.vals lapack C with hw
  set V := Stretches.vecs lapack C
  have hD : ∀ c d, Stretches.Dmat (Stretches.roots w) g (StrHess.mat k) c d =
      if c = d then ogdenRate2 mu alpha (w c) else 0 := fun c d => by
    rw [Stretches.Dmat_eq, Props.ogden_squaredHess (Stretches.roots_pos hpos) hg' hh, rate2_eq, Stretches.roots_sq hpos c]
  have hq : ∀ c, Stretches.dlC (Stretches.roots w) g c = ogdenRate mu alpha (w c) := fun c => by
    rw [Props.ogden_dlC hpos hg', rate_eq]
  set cr := Stretches.cross' (Stretches.roots w) (Stretches.dlC (Stretches.roots w) g)
    (Stretches.Dmat (Stretches.roots w) g (StrHess.mat k)) with hcr
  refine ⟨w, V, fun c d => if c = d then ogdenRate2 mu alpha (w c) else cr c d, hS, hm, fun X hX => ?_, fun c d => ?_⟩
  · have h1 := Stretches.contract_hessPure V (Stretches.roots w) g k hX
    rw [T4_eq hM] at h1
    rw [h1]
    unfold spectralDeriv
    congr 2
    ext c d
    simp only [kmap, Matrix.of_apply, hD]
    split_ifs with h
    · subst h; simp
    · rfl
  · have hL := hB.nonneg2
    have key : ∀ c d, c ≠ d → |Stretches.cross (Stretches.roots w) (Stretches.dlC (Stretches.roots w) g)
        (Stretches.Dmat (Stretches.roots w) g (StrHess.mat k)) c d - ogdenDD mu alpha (w c) (w d)| ≤ L₂ * (1 / 10 ^ 8) := fun c d h => by
      unfold Stretches.cross
      rw [Stretches.roots_sq hpos, Stretches.roots_sq hpos, hq, hq, hD, hD, if_pos rfl, if_neg h, sub_zero]
      by_cases hcl : Stretches.isclose0 (w c - w d)
      · rw [if_pos hcl]
        have e : ogdenRate2 mu alpha (w d) = ogdenDD mu alpha (w d) (w d) := (divDiff_self _ _ _).symm
        rw [e, show ogdenDD mu alpha (w c) (w d) = ogdenDD mu alpha (w d) (w c) from divDiff_symm _ _ _ _]
        refine (ogdenDD_lipschitz hB (hm d) (hm d) (hm c)).trans ?_
        rw [abs_sub_comm]
        exact mul_le_mul_of_nonneg_left hcl hL
      · rw [if_neg hcl]
        have hne : w c ≠ w d := fun h => hcl (by unfold Stretches.isclose0; rw [h, sub_self, abs_zero]; positivity)
        have e : ogdenDD mu alpha (w c) (w d) = (ogdenRate mu alpha (w c) - ogdenRate mu alpha (w d)) / (w c - w d) := if_neg hne
        rw [e, sub_self, abs_zero]
        positivity
    dsimp only
    split_ifs with h
    · subst h
      have e : ogdenDD mu alpha (w c) (w c) = ogdenRate2 mu alpha (w c) := divDiff_self _ _ _
      rw [e, sub_self, abs_zero]
      positivity
    · rw [hcr]
      unfold Stretches.cross'
      split_ifs with h1
      · exact key c d h
      · rw [show ogdenDD mu alpha (w c) (w d) = ogdenDD mu alpha (w d) (w c) from divDiff_symm _ _ _ _]
        exact key d c (Ne.symm h)

end Hel.Rnd
