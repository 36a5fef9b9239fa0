import Verif.Proofs.NewtonOgden

/-! # The elasticity tensor of Ogden materials on the deformation space near a deformation gradient -/

namespace Hel
open Spec Matrix Filter Topology
open Rnd hiding cauchyGreen

variable {Z : Type} {mu alpha : List ℝ} {z : Z}

theorem ogden_grad_form (lapack : Eigh) (hl : EighValid lapack) {C G : Ten2 ℝ} (hC : PosDef C)
    (hG : Material.Grad (Stretches.material lapack (Ogden.mat ⟨mu, alpha⟩)) z C G) :
    G = Stretches.vecs lapack C * diagonal (fun a => ogdenRate mu alpha (Stretches.vals lapack C a)) * (Stretches.vecs lapack C)ᵀ := by
  obtain ⟨hs, g, hg, rfl⟩ := (Stretches.grad_iff ..).1 hG
  have hw : ∀ a, 0 < Stretches.vals lapack C a := Spectral.pos hC (hl C hC.1)
  have e : Stretches.dlC (Stretches.roots (Stretches.vals lapack C)) g =
      fun a => ogdenRate mu alpha (Stretches.vals lapack C a) := by
    funext a
    rw [Props.ogden_dlC hw hg, rate_eq]
  rw [e]

theorem ogdenRate_lip {m M : ℝ} (hm : 0 < m) : ∃ D, 0 ≤ D ∧ ∀ x ∈ Set.Icc m M, ∀ y ∈ Set.Icc m M,
    |ogdenRate mu alpha x - ogdenRate mu alpha y| ≤ D * |x - y| := by
  by_cases hmM : m ≤ M
  · have hL := Props.ogdenLipschitz_nonneg mu alpha hm (hm.trans_le hmM)
    have hmm : m ∈ Set.Icc m M := ⟨le_rfl, hmM⟩
    refine ⟨|ogdenRate2 mu alpha m| + ogdenLipschitz mu alpha m M * (M - m),
      add_nonneg (abs_nonneg _) (mul_nonneg hL (sub_nonneg.2 hmM)), fun x hx y hy => ?_⟩
    have hb : ∀ t ∈ Set.Icc m M, |ogdenRate2 mu alpha t| ≤ |ogdenRate2 mu alpha m| + ogdenLipschitz mu alpha m M * (M - m) := fun t ht => by
      have h1 := ogdenRate2_lipschitz (mu := mu) (alpha := alpha) hm ht hmm
      have h2 : |t - m| ≤ M - m := by rw [abs_of_nonneg (sub_nonneg.2 ht.1)]; linarith [ht.2]
      have h3 := abs_add_le (ogdenRate2 mu alpha t - ogdenRate2 mu alpha m) (ogdenRate2 mu alpha m)
      rw [sub_add_cancel] at h3
      linarith [mul_le_mul_of_nonneg_left h2 hL]
    rcases eq_or_ne x y with rfl | hne
    · simp
    · have h1 := abs_divDiff_le (fun t ht => ogdenRate_deriv mu alpha (hm.trans_le ht.1)) hb hx hy
      have e : divDiff (ogdenRate mu alpha) (ogdenRate2 mu alpha) x y = (ogdenRate mu alpha x - ogdenRate mu alpha y) / (x - y) := if_neg hne
      rw [e, abs_div, div_le_iff₀ (abs_pos.2 (sub_ne_zero.2 hne))] at h1
      exact h1
  · exact ⟨0, le_rfl, fun x hx => absurd (hx.1.trans hx.2) hmM⟩

theorem frob_entries {A : Ten2 ℝ} {c : ℝ} (hc : ∀ i j, |A i j| ≤ c) : frob A ≤ 3 * c := by
  have c0 : 0 ≤ c := (abs_nonneg _).trans (hc 0 0)
  refine frob_le (by positivity) ?_
  have h : ∀ i j, A i j ^ 2 ≤ c ^ 2 := fun i j => by
    rw [sq_le_sq, abs_of_nonneg c0]; exact hc i j
  simp only [Fin.sum_univ_three]
  linarith [h 0 0, h 0 1, h 0 2, h 1 0, h 1 1, h 1 2, h 2 0, h 2 1, h 2 2]

theorem product_diff {x y a b f d : ℝ} (ha : |a| ≤ f) (hb : |b| ≤ f) (hx : |x - a| ≤ d) (hy : |y - b| ≤ d) (h1 : d ≤ 1) :
    |x * y - a * b| ≤ (2 * f + 1) * d := by
  have d0 : 0 ≤ d := (abs_nonneg _).trans hx
  have f0 : 0 ≤ f := (abs_nonneg _).trans ha
  have e : x * y - a * b = (x - a) * b + a * (y - b) + (x - a) * (y - b) := by ring
  rw [e]
  refine (abs_add_le _ _).trans ?_
  have t1 := abs_add_le ((x - a) * b) (a * (y - b))
  rw [abs_mul, abs_mul] at t1
  rw [abs_mul (x - a) (y - b)]
  have t2 : |x - a| * |b| ≤ d * f := mul_le_mul hx hb (abs_nonneg _) d0
  have t3 : |a| * |y - b| ≤ f * d := mul_le_mul ha hy (abs_nonneg _) f0
  have t4 : |x - a| * |y - b| ≤ d * d := mul_le_mul hx hy (abs_nonneg _) d0
  nlinarith

theorem cauchyGreen_diff {F X : Ten2 ℝ} {f d : ℝ} (hf : ∀ i j, |F i j| ≤ f) (hX : Near F X d) (h1 : d ≤ 1) :
    frob (cauchyGreen X - cauchyGreen F) ≤ 9 * (2 * f + 1) * d := by
  refine (frob_entries (c := 3 * ((2 * f + 1) * d)) fun i j => ?_).trans_eq (by ring)
  simp only [Matrix.sub_apply, cauchyGreen, Matrix.mul_apply, Matrix.transpose_apply, ← Finset.sum_sub_distrib]
  refine (Finset.abs_sum_le_sum_abs _ _).trans ((Finset.sum_le_card_nsmul _ _ _ fun k _ =>
    product_diff (hf k i) (hf k j) (hX k i) (hX k j) h1).trans_eq ?_)
  simp

/-- eigenvalues of neighbours stay inside an open interval -/
theorem eigenvalues_inside {C : Ten2 ℝ} (hC : C.IsSymm) {m M : ℝ} (h : ∀ w v, Spectral C w v → ∀ a, m < w a ∧ w a < M) :
    ∃ η > 0, ∀ B, frob (B - C) ≤ η → ∀ w v, Spectral B w v → ∀ a, w a ∈ Set.Icc m M := by
  obtain ⟨s, U, hS⟩ := exists_spectral hC
  have hs := h s U hS
  let f : Fin 3 → ℝ := fun a => min (s a - m) (M - s a) / 2
  have hf : ∀ a, 0 < f a := fun a => by
    have : 0 < min (s a - m) (M - s a) := lt_min (sub_pos.2 (hs a).1) (sub_pos.2 (hs a).2)
    simp only [f]; linarith
  refine ⟨Finset.univ.inf' Finset.univ_nonempty f, (Finset.lt_inf'_iff _).2 fun p _ => hf p, fun B hB w v hw a => ?_⟩
  obtain ⟨b, hb⟩ := eigenvalue_near hw hS a
  have h1 : Finset.univ.inf' Finset.univ_nonempty f ≤ f b := Finset.inf'_le f (Finset.mem_univ _)
  have h2 : f b = min (s b - m) (M - s b) / 2 := rfl
  have h3 : min (s b - m) (M - s b) ≤ s b - m := min_le_left _ _
  have h4 : min (s b - m) (M - s b) ≤ M - s b := min_le_right _ _
  have h5 : 2 * frob (B - C) ≤ min (s b - m) (M - s b) := by linarith [hB.trans h1]
  rw [abs_le] at hb
  exact ⟨by linarith, by linarith⟩

/-- the hessians of the material at neighbours -/
theorem ogden_hess_near (lapack : Eigh) (hl : EighValid lapack) {C B : Ten2 ℝ} {H H₀ : Ten4 ℝ} {m M τ τ' : ℝ} (hm : 0 < m)
    (hC : PosDef C) (hB : PosDef B) (hwC : ∀ a, Stretches.vals lapack C a ∈ Set.Icc m M)
    (hwB : ∀ a, Stretches.vals lapack B a ∈ Set.Icc m M) (hτ0 : 0 ≤ τ) (hτ0' : 0 ≤ τ')
    (hτ : ∀ a b, |Stretches.vals lapack C a - Stretches.vals lapack C b| ≤ 1 / 10 ^ 8 →
      |Stretches.vals lapack C a - Stretches.vals lapack C b| ≤ τ)
    (hτ' : ∀ a b, |Stretches.vals lapack B a - Stretches.vals lapack B b| ≤ 1 / 10 ^ 8 →
      |Stretches.vals lapack B a - Stretches.vals lapack B b| ≤ τ')
    (hH₀ : Material.Hess (Stretches.material lapack (Ogden.mat ⟨mu, alpha⟩)) z C H₀)
    (hH : Material.Hess (Stretches.material lapack (Ogden.mat ⟨mu, alpha⟩)) z B H) (i j k l : Fin 3) :
    |H i j k l - H₀ i j k l| ≤ ogdenLipschitz mu alpha m M * τ' + 4 * ogdenLipschitz mu alpha m M * frob (B - C) +
      ogdenLipschitz mu alpha m M * τ := by
  have hSC : Spectral C (Stretches.vals lapack C) (Stretches.vecs lapack C) := hl _ hC.1
  have hSB : Spectral B (Stretches.vals lapack B) (Stretches.vecs lapack B) := hl _ hB.1
  have hΛ := Props.ogdenLipschitz_nonneg mu alpha hm (hm.trans_le ((hwC 0).1.trans (hwC 0).2))
  set Λ := ogdenLipschitz mu alpha m M
  refine component_le (Material.hess_minor hH).2 (Material.hess_minor hH₀).2 (fun Y hY hY1 => ?_) i j k l
  rw [ogden_hess_form lapack hl hB hH hY, ogden_hess_form lapack hl hC hH₀ hY]
  generalize Stretches.vals lapack C = wC at *
  generalize Stretches.vals lapack B = wB at *
  generalize Stretches.vecs lapack C = VC at *
  generalize Stretches.vecs lapack B = VB at *
  have t1 : frob (spectralDeriv VB (ogdenCoef mu alpha wB) Y - spectralDeriv VB (fun a b => ogdenDD mu alpha (wB a) (wB b)) Y) ≤
      Λ * τ' := by
    rw [spectralDeriv_sub]
    refine (frob_spectralDeriv hSB.orthogonal (fun a b => ogdenCoef_close hm hwB hτ0' hτ' a b) Y).trans ?_
    exact mul_le_of_le_one_right (by positivity) hY1
  have t2 : frob (spectralDeriv VB (fun a b => ogdenDD mu alpha (wB a) (wB b)) Y -
      spectralDeriv VC (fun a b => ogdenDD mu alpha (wC a) (wC b)) Y) ≤ 4 * Λ * frob (B - C) := by
    refine (spectralDeriv_perturb hSB hSC (ogdenDD mu alpha) hΛ (fun a c b => ogdenDD_lip hm (hwB a) (hwB c) (hwC b))
      (fun a d b => ?_) Y).trans ?_
    · rw [show ogdenDD mu alpha (wC d) (wC b) = ogdenDD mu alpha (wC b) (wC d) from divDiff_symm ..,
        show ogdenDD mu alpha (wB a) (wC b) = ogdenDD mu alpha (wC b) (wB a) from divDiff_symm ..]
      exact ogdenDD_lip hm (hwC b) (hwC d) (hwB a)
    · exact mul_le_mul_of_nonneg_right (mul_le_of_le_one_right (by positivity) hY1) (frob_nonneg _)
  have t3 : frob (spectralDeriv VC (fun a b => ogdenDD mu alpha (wC a) (wC b)) Y - spectralDeriv VC (ogdenCoef mu alpha wC) Y) ≤ Λ * τ := by
    rw [spectralDeriv_sub]
    refine (frob_spectralDeriv hSC.orthogonal (fun a b => ?_) Y).trans (mul_le_of_le_one_right (by positivity) hY1)
    rw [abs_sub_comm]
    exact ogdenCoef_close hm hwC hτ0 hτ a b
  have t4 := frob_add_le (spectralDeriv VB (ogdenCoef mu alpha wB) Y - spectralDeriv VB (fun a b => ogdenDD mu alpha (wB a) (wB b)) Y)
    (spectralDeriv VB (fun a b => ogdenDD mu alpha (wB a) (wB b)) Y - spectralDeriv VC (fun a b => ogdenDD mu alpha (wC a) (wC b)) Y)
  rw [sub_add_sub_cancel] at t4
  have t5 := frob_add_le (spectralDeriv VB (ogdenCoef mu alpha wB) Y - spectralDeriv VC (fun a b => ogdenDD mu alpha (wC a) (wC b)) Y)
    (spectralDeriv VC (fun a b => ogdenDD mu alpha (wC a) (wC b)) Y - spectralDeriv VC (ogdenCoef mu alpha wC) Y)
  rw [sub_add_sub_cancel] at t5
  linarith

/-- the stresses of the material at neighbours -/
theorem ogden_grad_near (lapack : Eigh) (hl : EighValid lapack) {C B G G₀ : Ten2 ℝ} {m M D : ℝ} (hC : PosDef C) (hB : PosDef B)
    (hwC : ∀ a, Stretches.vals lapack C a ∈ Set.Icc m M) (hwB : ∀ a, Stretches.vals lapack B a ∈ Set.Icc m M) (hD0 : 0 ≤ D)
    (hD : ∀ x ∈ Set.Icc m M, ∀ y ∈ Set.Icc m M, |ogdenRate mu alpha x - ogdenRate mu alpha y| ≤ D * |x - y|)
    (hG₀ : Material.Grad (Stretches.material lapack (Ogden.mat ⟨mu, alpha⟩)) z C G₀)
    (hG : Material.Grad (Stretches.material lapack (Ogden.mat ⟨mu, alpha⟩)) z B G) (i j : Fin 3) :
    |G i j - G₀ i j| ≤ D * frob (B - C) := by
  rw [ogden_grad_form lapack hl hB hG, ogden_grad_form lapack hl hC hG₀, ← Matrix.sub_apply]
  refine (abs_le_frob _ i j).trans ((lipschitz_spectral (hl _ hB.1) (hl _ hC.1) (ogdenRate mu alpha)
    fun a b => hD _ (hwB a) _ (hwC b)).trans_eq ?_)
  rw [abs_of_nonneg hD0]

/-- the elasticity tensors at neighbours -/
theorem piola_near {F X G G₀ : Ten2 ℝ} {H H₀ : Ten4 ℝ} {f d hmax hd g : ℝ} (hf : ∀ i j, |F i j| ≤ f) (hX : Near F X d) (h1 : d ≤ 1)
    (hHb : ∀ i j k l, |H i j k l| ≤ hmax) (hH : ∀ i j k l, |H i j k l - H₀ i j k l| ≤ hd) (hG : ∀ i j, |G i j - G₀ i j| ≤ g)
    (i j k l : Fin 3) :
    |piolaT X ((2 : ℝ) • G) (fun i j k l => 4 * H i j k l) i j k l - piolaT F ((2 : ℝ) • G₀) (fun i j k l => 4 * H₀ i j k l) i j k l| ≤
      9 * ((2 * f + 1) * d * (4 * hmax) + f ^ 2 * (4 * hd)) + 2 * g := by
  have f0 : 0 ≤ f := (abs_nonneg _).trans (hf 0 0)
  have d0 := near_pos hX
  have g0 : 0 ≤ g := (abs_nonneg _).trans (hG 0 0)
  have e : piolaT X ((2 : ℝ) • G) (fun i j k l => 4 * H i j k l) i j k l - piolaT F ((2 : ℝ) • G₀) (fun i j k l => 4 * H₀ i j k l) i j k l =
      (∑ I, ∑ K, ((X i I * X k K - F i I * F k K) * (4 * H I j K l) + F i I * F k K * (4 * (H I j K l - H₀ I j K l)))) +
        (1 : Ten2 ℝ) i k * (2 * (G j l - G₀ j l)) := by
    simp only [piolaT, dyadIK, Matrix.smul_apply, smul_eq_mul]
    rw [show ∀ a b c d : ℝ, a + b - (c + d) = (a - c) + (b - d) from fun a b c d => by ring, ← Finset.sum_sub_distrib]
    congr 1
    · refine Finset.sum_congr rfl fun I _ => ?_
      rw [← Finset.sum_sub_distrib]
      exact Finset.sum_congr rfl fun K _ => by ring
    · ring
  rw [e]
  have hterm : ∀ I K, |(X i I * X k K - F i I * F k K) * (4 * H I j K l) + F i I * F k K * (4 * (H I j K l - H₀ I j K l))| ≤
      (2 * f + 1) * d * (4 * hmax) + f ^ 2 * (4 * hd) := fun I K => by
    refine (abs_add_le _ _).trans (add_le_add ?_ ?_)
    · rw [abs_mul, abs_mul, abs_of_pos (by norm_num : (0 : ℝ) < 4)]
      exact mul_le_mul (product_diff (hf i I) (hf k K) (hX i I) (hX k K) h1) (mul_le_mul_of_nonneg_left (hHb ..) (by norm_num))
        (by positivity) (by positivity)
    · rw [abs_mul, abs_mul, abs_mul, abs_of_pos (by norm_num : (0 : ℝ) < 4), pow_two]
      exact mul_le_mul (mul_le_mul (hf ..) (hf ..) (abs_nonneg _) f0)
        (mul_le_mul_of_nonneg_left (hH ..) (by norm_num)) (by positivity) (by positivity)
  have hg : |(1 : Ten2 ℝ) i k * (2 * (G j l - G₀ j l))| ≤ 2 * g := by
    rw [abs_mul, abs_mul, abs_two]
    have t1 : |(1 : Ten2 ℝ) i k| ≤ 1 := by
      rw [Matrix.one_apply]; split_ifs <;> norm_num
    calc |(1 : Ten2 ℝ) i k| * (2 * |G j l - G₀ j l|) ≤ 1 * (2 * g) :=
          mul_le_mul t1 (mul_le_mul_of_nonneg_left (hG j l) (by norm_num)) (by positivity) zero_le_one
      _ = _ := one_mul _
  refine (abs_add_le _ _).trans (add_le_add ?_ hg)
  refine (Finset.abs_sum_le_sum_abs _ _).trans ((Finset.sum_le_card_nsmul _ _
    (3 * ((2 * f + 1) * d * (4 * hmax) + f ^ 2 * (4 * hd))) fun I _ => ?_).trans_eq ?_)
  · refine (Finset.abs_sum_le_sum_abs _ _).trans ((Finset.sum_le_card_nsmul _ _ _ fun K _ => hterm I K).trans_eq ?_)
    simp; ring
  · simp; ring

/-- the derivative of the stress, against the contraction with the elasticity tensor -/
theorem ogden_deriv_near (lapack : Eigh) (hl : EighValid lapack) (hα : ∀ p ∈ mu.zip alpha, p.2 ≠ 0) {m M τ φ v : ℝ} (hm : 0 < m)
    {Y Q : ℝ → Ten2 ℝ} {V : Ten2 ℝ} {s : ℝ} {B : Ten4 ℝ} (hY : ∀ i j, |Y s i j| ≤ φ)
    (hw : ∀ a, Stretches.vals lapack (cauchyGreen (Y s)) a ∈ Set.Icc m M) (hτ0 : 0 ≤ τ)
    (hτ : ∀ a b, |Stretches.vals lapack (cauchyGreen (Y s)) a - Stretches.vals lapack (cauchyGreen (Y s)) b| ≤ 1 / 10 ^ 8 →
      |Stretches.vals lapack (cauchyGreen (Y s)) a - Stretches.vals lapack (cauchyGreen (Y s)) b| ≤ τ)
    (hdom : ∀ᶠ t in 𝓝 s, (Y t).det ≠ 0) (hmov : Moves Y V s)
    (hQ : ∀ᶠ t in 𝓝 s, SpaceObj.Grad (Deformation.obj {} (Stretches.material lapack (Ogden.mat ⟨mu, alpha⟩))) z (Y t) (Q t))
    (hB : SpaceObj.Hess (Deformation.obj {} (Stretches.material lapack (Ogden.mat ⟨mu, alpha⟩))) z (Y s) B)
    (hv : ∀ i j, |V i j| ≤ v) (i j : Fin 3) :
    ∃ c, HasDerivAt (fun t => Q t i j) c s ∧ |c - contract42 B V i j| ≤ 108 * φ ^ 2 * ogdenLipschitz mu alpha m M * τ * v := by
  have v0 : 0 ≤ v := (abs_nonneg _).trans (hv 0 0)
  have φ0 : 0 ≤ φ := (abs_nonneg _).trans (hY 0 0)
  have hΛ := Props.ogdenLipschitz_nonneg mu alpha hm (hm.trans_le ((hw 0).1.trans (hw 0).2))
  set Λ := ogdenLipschitz mu alpha m M
  obtain ⟨G₁, H, hG₁, hH, rfl⟩ := Deformation.hess_elim hB
  obtain ⟨G, hG⟩ := (hQ.mono fun t ht => (Deformation.grad_iff _ _ _ _).1 ht).choice
  have hpdY : ∀ᶠ t in 𝓝 s, PosDef (cauchyGreen (Y t)) := hdom.mono fun t ht => posDef_cauchyGreen ht
  have hu : G s = G₁ := by
    rw [ogden_grad_form lapack hl hpdY.self_of_nhds hG.self_of_nhds.1, ogden_grad_form lapack hl hpdY.self_of_nhds hG₁]
  have hC' := moves_cauchyGreen hmov
  have hmG := ogden_moves lapack hl hα hpdY hC' (hG.mono fun t ht => ht.1) hH
  have hCs' : (Vᵀ * Y s + (Y s)ᵀ * V).IsSymm := hC'.symm (hpdY.mono fun t ht => ht.1)
  have hHf := ogden_hess_form lapack hl hpdY.self_of_nhds hH hCs'
  set G' := spectralDeriv (Stretches.vecs lapack (cauchyGreen (Y s)))
    (fun a b => ogdenDD mu alpha (Stretches.vals lapack (cauchyGreen (Y s)) a) (Stretches.vals lapack (cauchyGreen (Y s)) b))
    (Vᵀ * Y s + (Y s)ᵀ * V) with hG'
  have h2 : Moves (fun t => (2 : ℝ) • G t) ((2 : ℝ) • G') s := fun i j => (hmG i j).const_mul 2
  have h3 := (moves_piola hmov h2).congr (hG.mono fun t ht => ht.2)
  refine ⟨_, h3 i j, ?_⟩
  have hmin := Material.hess_minor hH
  have e : contract42 (piolaT (Y s) ((2 : ℝ) • G₁) fun i j k l => 4 * H i j k l) V = _ :=
    contract42_piola (Y s) V ((2 : ℝ) • G₁) ((Material.grad_symm hG₁).smul _) (smul_minor 4 hmin)
  rw [e, contract42_smul, hu, smul_smul]
  have hvel : frob (Vᵀ * Y s + (Y s)ᵀ * V) ≤ 3 * (6 * (φ * v)) := frob_entries fun k l => by
    simp only [Matrix.add_apply, Matrix.mul_apply, Matrix.transpose_apply]
    have h5 : ∀ r, |V r k * Y s r l| ≤ φ * v := fun r => by
      rw [abs_mul, mul_comm]; exact mul_le_mul (hY ..) (hv ..) (abs_nonneg _) φ0
    have h6 : ∀ r, |Y s r k * V r l| ≤ φ * v := fun r => by
      rw [abs_mul]; exact mul_le_mul (hY ..) (hv ..) (abs_nonneg _) φ0
    refine (abs_add_le _ _).trans ?_
    refine (add_le_add ((Finset.abs_sum_le_sum_abs ..).trans (Finset.sum_le_sum fun r _ => h5 r))
      ((Finset.abs_sum_le_sum_abs ..).trans (Finset.sum_le_sum fun r _ => h6 r))).trans (le_of_eq ?_)
    simp only [Finset.sum_const, Finset.card_univ, Fintype.card_fin, nsmul_eq_mul]
    push_cast
    ring
  have hb' : ∀ r j, |G' r j - contract42 H (Vᵀ * Y s + (Y s)ᵀ * V) r j| ≤ Λ * τ * (3 * (6 * (φ * v))) := fun r j => by
    rw [hHf, ← Matrix.sub_apply, hG', spectralDeriv_sub]
    refine (abs_le_frob _ r j).trans ((frob_spectralDeriv (hl _ (cauchyGreen_symm (Y s))).orthogonal (fun a b => ?_) _).trans
      (mul_le_mul_of_nonneg_left hvel (by positivity)))
    rw [abs_sub_comm]
    exact ogdenCoef_close hm hw hτ0 hτ a b
  have e3 : (V * (2 : ℝ) • G₁ + Y s * (2 : ℝ) • G') i j - (V * (2 : ℝ) • G₁ +
      Y s * (1 / 2 * 4 : ℝ) • contract42 H (Vᵀ * Y s + (Y s)ᵀ * V)) i j =
      ∑ r, Y s i r * (2 * (G' r j - contract42 H (Vᵀ * Y s + (Y s)ᵀ * V) r j)) := by
    simp only [Matrix.add_apply, Matrix.mul_apply, Matrix.smul_apply, smul_eq_mul, Fin.sum_univ_three]
    ring
  rw [e3]
  have hsum : |∑ r, Y s i r * (2 * (G' r j - contract42 H (Vᵀ * Y s + (Y s)ᵀ * V) r j))| ≤
      3 * (φ * (2 * (Λ * τ * (3 * (6 * (φ * v)))))) := by
    refine (Finset.abs_sum_le_sum_abs _ _).trans ((Finset.sum_le_card_nsmul _ _ (φ * (2 * (Λ * τ * (3 * (6 * (φ * v)))))) fun r _ => ?_).trans_eq (by simp))
    rw [abs_mul, abs_mul, abs_two]
    exact mul_le_mul (hY ..) (mul_le_mul_of_nonneg_left (hb' r j) (by norm_num)) (by positivity) φ0
  refine hsum.trans_eq ?_
  ring

theorem ten4_bounded (H : Ten4 ℝ) : ∃ h : ℝ, 0 ≤ h ∧ ∀ i j k l, |H i j k l| ≤ h := by
  refine ⟨∑ i, ∑ j, ∑ k, ∑ l, |H i j k l|, by positivity, fun i j k l => ?_⟩
  refine (Finset.single_le_sum (f := fun l => |H i j k l|) (fun _ _ => abs_nonneg _) (Finset.mem_univ l)).trans ?_
  refine (Finset.single_le_sum (f := fun k => ∑ l, |H i j k l|) (fun _ _ => by positivity) (Finset.mem_univ k)).trans ?_
  refine (Finset.single_le_sum (f := fun j => ∑ k, ∑ l, |H i j k l|) (fun _ _ => by positivity) (Finset.mem_univ j)).trans ?_
  exact Finset.single_le_sum (f := fun i => ∑ j, ∑ k, ∑ l, |H i j k l|) (fun _ _ => by positivity) (Finset.mem_univ i)

/-- the neighbourhood of a deformation gradient -/
theorem neighbourhood {F : Ten2 ℝ} {f m M τ : ℝ} (hF : F.det ≠ 0) (hf : ∀ i j, |F i j| ≤ f)
    (hE : ∀ w v, Spectral (cauchyGreen F) w v → ∀ a, m < w a ∧ w a < M)
    (hτ : ∀ w v, Spectral (cauchyGreen F) w v → ∀ a b, |w a - w b| ≤ 1 / 10 ^ 8 → |w a - w b| ≤ τ) :
    ∃ δ > 0, ∀ X d, d ≤ δ → Near F X d → d ≤ 1 ∧ X.det ≠ 0 ∧ frob (cauchyGreen X - cauchyGreen F) ≤ 9 * (2 * f + 1) * d ∧
      ∀ w v, Spectral (cauchyGreen X) w v → (∀ a, w a ∈ Set.Icc m M) ∧
        ∀ a b, |w a - w b| ≤ 1 / 10 ^ 8 → |w a - w b| ≤ τ + 4 * (9 * (2 * f + 1)) * d := by
  have f0 : 0 ≤ f := (abs_nonneg _).trans (hf 0 0)
  obtain ⟨η₁, hη₁, hgap⟩ := gap_near (cauchyGreen_symm F) hτ
  obtain ⟨η₂, hη₂, hins⟩ := eigenvalues_inside (cauchyGreen_symm F) hE
  obtain ⟨ρ, hρ, hdet⟩ := Props.inside_det hF
  have hκ0 : 0 < 9 * (2 * f + 1) := by positivity
  generalize hκ : 9 * (2 * f + 1) = κ at *
  refine ⟨min (min 1 ρ) (min (η₁ / κ) (η₂ / κ)), lt_min (lt_min one_pos hρ) (lt_min (div_pos hη₁ hκ0) (div_pos hη₂ hκ0)),
    fun X d hd hX => ?_⟩
  have h1 : d ≤ 1 := hd.trans ((min_le_left _ _).trans (min_le_left _ _))
  have hq := cauchyGreen_diff hf hX h1
  rw [hκ] at hq
  have e1 : κ * d ≤ η₁ := by
    have : d ≤ η₁ / κ := hd.trans ((min_le_right _ _).trans (min_le_left _ _))
    rwa [le_div_iff₀ hκ0, mul_comm] at this
  have e2 : κ * d ≤ η₂ := by
    have : d ≤ η₂ / κ := hd.trans ((min_le_right _ _).trans (min_le_right _ _))
    rwa [le_div_iff₀ hκ0, mul_comm] at this
  refine ⟨h1, hdet X fun i j => (hX i j).trans (hd.trans ((min_le_left _ _).trans (min_le_right _ _))), hq, fun w v hS =>
    ⟨hins _ (hq.trans e2) _ _ hS, fun a b hab => ?_⟩⟩
  refine (hgap _ (hq.trans e1) _ _ hS a b hab).trans ?_
  linarith

/-- **The elasticity tensor near a deformation gradient.** -/
theorem ogden_nearly (lapack : Eigh) (hl : EighValid lapack) (hα : ∀ p ∈ mu.zip alpha, p.2 ≠ 0) {F : Ten2 ℝ} {A : Ten4 ℝ}
    {f m M τ : ℝ} (hF : F.det ≠ 0) (hf : ∀ i j, |F i j| ≤ f) (hm : 0 < m)
    (hE : ∀ w v, Spectral (cauchyGreen F) w v → ∀ a, m < w a ∧ w a < M) (hτ0 : 0 ≤ τ)
    (hτ : ∀ w v, Spectral (cauchyGreen F) w v → ∀ a b, |w a - w b| ≤ 1 / 10 ^ 8 → |w a - w b| ≤ τ)
    (hA : SpaceObj.Hess (Deformation.obj {} (Stretches.material lapack (Ogden.mat ⟨mu, alpha⟩))) z F A) :
    ∃ δ > 0, ∃ L, 0 ≤ L ∧ NearlyConsistent (fun F => F.det ≠ 0)
      (SpaceObj.Grad (Deformation.obj {} (Stretches.material lapack (Ogden.mat ⟨mu, alpha⟩))) z)
      (SpaceObj.Hess (Deformation.obj {} (Stretches.material lapack (Ogden.mat ⟨mu, alpha⟩))) z) F A δ L
      (108 * f ^ 2 * ogdenLipschitz mu alpha m M * τ) := by
  have f0 : 0 ≤ f := (abs_nonneg _).trans (hf 0 0)
  have hpd := posDef_cauchyGreen hF
  have hSF : Spectral (cauchyGreen F) (Stretches.vals lapack (cauchyGreen F)) (Stretches.vecs lapack (cauchyGreen F)) := hl _ hpd.1
  have hwF : ∀ a, Stretches.vals lapack (cauchyGreen F) a ∈ Set.Icc m M := fun a => ⟨(hE _ _ hSF a).1.le, (hE _ _ hSF a).2.le⟩
  have hΛ := Props.ogdenLipschitz_nonneg mu alpha hm (hm.trans_le ((hwF 0).1.trans (hwF 0).2))
  obtain ⟨δ, hδ, near⟩ := neighbourhood hF hf hE hτ
  obtain ⟨D, hD0, hD⟩ := ogdenRate_lip (mu := mu) (alpha := alpha) (M := M) hm
  obtain ⟨G₀, H₀, hG₀, hH₀, rfl⟩ := Deformation.hess_elim hA
  obtain ⟨h₀, hh₀, hH₀b⟩ := ten4_bounded H₀
  have hκ0 : 0 < 9 * (2 * f + 1) := by positivity
  generalize hκ : 9 * (2 * f + 1) = κ at *
  obtain ⟨hmax, hhm⟩ : ∃ x, x = h₀ + (2 * ogdenLipschitz mu alpha m M * τ + 8 * ogdenLipschitz mu alpha m M * κ) := ⟨_, rfl⟩
  obtain ⟨La, hLa⟩ : ∃ x, x = 36 * (2 * f + 1) * hmax + 288 * f ^ 2 * ogdenLipschitz mu alpha m M * κ + 2 * (D * κ) := ⟨_, rfl⟩
  obtain ⟨Lb, hLb⟩ : ∃ x, x = 108 * ogdenLipschitz mu alpha m M * ((2 * f + 1) * (τ + 4 * κ) + f ^ 2 * (4 * κ)) := ⟨_, rfl⟩
  have hmax0 : 0 ≤ hmax := by rw [hhm]; positivity
  have hLa0 : 0 ≤ La := by rw [hLa]; positivity
  have hLb0 : 0 ≤ Lb := by rw [hLb]; positivity
  refine ⟨δ, hδ, La + Lb, by positivity, ⟨fun X d B hd hX hB i j k l => ?_, fun Y V s Q B d v hd hY hdom hmov hQ hB hv i j => ?_⟩⟩
  · obtain ⟨h1, hX0, hq, hsp⟩ := near X d hd hX
    have d0 := near_pos hX
    obtain ⟨hwX, hgX⟩ := hsp _ _ (hl _ (cauchyGreen_symm X))
    obtain ⟨G, H, hG, hH, rfl⟩ := Deformation.hess_elim hB
    have hHd : ∀ i j k l, |H i j k l - H₀ i j k l| ≤ 2 * ogdenLipschitz mu alpha m M * τ + 8 * ogdenLipschitz mu alpha m M * κ * d :=
      fun i j k l => by
        refine (ogden_hess_near lapack hl hm hpd (posDef_cauchyGreen hX0) hwF hwX hτ0 (by positivity) (hτ _ _ hSF) hgX hH₀ hH i j k l).trans ?_
        have := mul_le_mul_of_nonneg_left hq (by positivity : 0 ≤ 4 * ogdenLipschitz mu alpha m M)
        linarith
    have hHb : ∀ i j k l, |H i j k l| ≤ hmax := fun i j k l => by
      have t2 := abs_add_le (H i j k l - H₀ i j k l) (H₀ i j k l)
      rw [sub_add_cancel] at t2
      have t3 : 8 * ogdenLipschitz mu alpha m M * κ * d ≤ 8 * ogdenLipschitz mu alpha m M * κ := mul_le_of_le_one_right (by positivity) h1
      have := hH₀b i j k l
      rw [hhm]
      linarith [hHd i j k l]
    have hGd : ∀ i j, |G i j - G₀ i j| ≤ D * (κ * d) := fun i j =>
      (ogden_grad_near lapack hl hpd (posDef_cauchyGreen hX0) hwF hwX hD0 hD hG₀ hG i j).trans (mul_le_mul_of_nonneg_left hq hD0)
    refine (piola_near hf hX h1 hHb hHd hGd i j k l).trans ?_
    have t1 : 0 ≤ Lb * d := by positivity
    have t2 : 0 ≤ f ^ 2 * ogdenLipschitz mu alpha m M * τ := by positivity
    have hfin : 9 * ((2 * f + 1) * d * (4 * hmax) + f ^ 2 * (4 * (2 * ogdenLipschitz mu alpha m M * τ +
        8 * ogdenLipschitz mu alpha m M * κ * d))) + 2 * (D * (κ * d)) =
        La * d + 72 * (f ^ 2 * ogdenLipschitz mu alpha m M * τ) := by rw [hLa]; ring
    rw [hfin]
    have t3 : (La + Lb) * d + 108 * f ^ 2 * ogdenLipschitz mu alpha m M * τ = La * d + 72 * (f ^ 2 * ogdenLipschitz mu alpha m M * τ) +
      (Lb * d + 36 * (f ^ 2 * ogdenLipschitz mu alpha m M * τ)) := by ring
    rw [t3]
    linarith
  · obtain ⟨h1, hX0, -, hsp⟩ := near (Y s) d hd hY
    have d0 := near_pos hY
    have v0 : 0 ≤ v := (abs_nonneg _).trans (hv 0 0)
    obtain ⟨hwX, hgX⟩ := hsp _ _ (hl _ (cauchyGreen_symm (Y s)))
    have hYb : ∀ i j, |Y s i j| ≤ f + d := fun i j => by
      have := abs_add_le (Y s i j - F i j) (F i j)
      rw [sub_add_cancel] at this
      linarith [hY i j, hf i j]
    obtain ⟨c, hc, hb⟩ := ogden_deriv_near lapack hl hα hm hYb hwX (by positivity) hgX hdom hmov hQ hB hv i j
    refine ⟨c, hc, hb.trans ?_⟩
    generalize ogdenLipschitz mu alpha m M = Λ at *
    have hsq : (f + d) ^ 2 * (τ + 4 * κ * d) ≤ f ^ 2 * τ + ((2 * f + 1) * (τ + 4 * κ) + f ^ 2 * (4 * κ)) * d := by
      have t1 : (f + d) ^ 2 ≤ f ^ 2 + (2 * f + 1) * d := by nlinarith
      have t2 : τ + 4 * κ * d ≤ τ + 4 * κ := by
        have := mul_le_of_le_one_right (by positivity : 0 ≤ 4 * κ) h1
        linarith
      calc (f + d) ^ 2 * (τ + 4 * κ * d) ≤ (f ^ 2 + (2 * f + 1) * d) * (τ + 4 * κ * d) :=
            mul_le_mul_of_nonneg_right t1 (by positivity)
        _ = f ^ 2 * τ + f ^ 2 * (4 * κ) * d + (2 * f + 1) * d * (τ + 4 * κ * d) := by ring
        _ ≤ f ^ 2 * τ + f ^ 2 * (4 * κ) * d + (2 * f + 1) * d * (τ + 4 * κ) := by
            have := mul_le_mul_of_nonneg_left t2 (by positivity : 0 ≤ (2 * f + 1) * d)
            linarith
        _ = _ := by ring
    calc 108 * (f + d) ^ 2 * Λ * (τ + 4 * κ * d) * v =
          108 * Λ * v * ((f + d) ^ 2 * (τ + 4 * κ * d)) := by ring
      _ ≤ 108 * Λ * v * (f ^ 2 * τ + ((2 * f + 1) * (τ + 4 * κ) + f ^ 2 * (4 * κ)) * d) :=
          mul_le_mul_of_nonneg_left hsq (by positivity)
      _ = (Lb * d + 108 * f ^ 2 * Λ * τ) * v := by rw [hLb]; ring
      _ ≤ ((La + Lb) * d + 108 * f ^ 2 * Λ * τ) * v := by
          refine mul_le_mul_of_nonneg_right ?_ v0
          have : 0 ≤ La * d := by positivity
          have e : (La + Lb) * d = La * d + Lb * d := by ring
          linarith

end Hel
