import Verif.Proofs.NewtonApprox
import Verif.Proofs.RoundingTangentExact
import Verif.Props.Prediction

/-! # The tangent of Ogden's model near a deformation gradient -/

namespace Hel
open Spec Matrix Filter Topology Rnd

open Classical in
/-- the divided difference as computed: inside the tolerance a derivative -/
noncomputable def ogdenCross (mu alpha : List ℝ) (x y : ℝ) : ℝ :=
  if |x - y| ≤ 1 / 10 ^ 8 then ogdenRate2 mu alpha y else (ogdenRate mu alpha x - ogdenRate mu alpha y) / (x - y)

/-- the coefficients of the returned tangent -/
noncomputable def ogdenCoef (mu alpha : List ℝ) (w : Fin 3 → ℝ) (a b : Fin 3) : ℝ :=
  if a = b then ogdenRate2 mu alpha (w a) else if a < b then ogdenCross mu alpha (w a) (w b) else ogdenCross mu alpha (w b) (w a)

variable {Z : Type} {mu alpha : List ℝ} {z : Z}

theorem ogden_coefs {w g : Fin 3 → ℝ} {h : Fin 3 → Fin 3 → ℝ} (hw : ∀ a, 0 < w a)
    (hg : StrMat.Grad (Ogden.mat ⟨mu, alpha⟩) z (Stretches.roots w) g)
    (hh : StrMat.Hess (Ogden.mat ⟨mu, alpha⟩) z (Stretches.roots w) h) :
    (∀ c d, Stretches.Dmat (Stretches.roots w) g h c d = if c = d then ogdenRate2 mu alpha (w c) else 0) ∧
    (∀ c, Stretches.dlC (Stretches.roots w) g c = ogdenRate mu alpha (w c)) ∧
    ∀ c d, c ≠ d → Stretches.cross' (Stretches.roots w) (Stretches.dlC (Stretches.roots w) g)
      (Stretches.Dmat (Stretches.roots w) g h) c d = ogdenCoef mu alpha w c d := by
  have hD : ∀ c d, Stretches.Dmat (Stretches.roots w) g h c d = if c = d then ogdenRate2 mu alpha (w c) else 0 := fun c d => by
    rw [Stretches.Dmat_eq, Props.ogden_squaredHess (Stretches.roots_pos hw) hg hh, rate2_eq, Stretches.roots_sq hw c]
  have hq : ∀ c, Stretches.dlC (Stretches.roots w) g c = ogdenRate mu alpha (w c) := fun c => by
    rw [Props.ogden_dlC hw hg, rate_eq]
  have hc : ∀ c d, c ≠ d → Stretches.cross (Stretches.roots w) (Stretches.dlC (Stretches.roots w) g)
      (Stretches.Dmat (Stretches.roots w) g h) c d = ogdenCross mu alpha (w c) (w d) := fun c d hne => by
    unfold Stretches.cross ogdenCross
    rw [Stretches.roots_sq hw, Stretches.roots_sq hw, hq, hq, hD, hD, if_pos rfl, if_neg hne, sub_zero]
    rfl
  refine ⟨hD, hq, fun c d hne => ?_⟩
  unfold ogdenCoef Stretches.cross'
  rw [if_neg hne]
  split_ifs with h1
  · exact hc c d hne
  · exact hc d c (Ne.symm hne)

theorem kmap_ogden {w : Fin 3 → ℝ} (f : Fin 3 → Fin 3 → ℝ) (D : Fin 3 → Fin 3 → ℝ)
    (hD : ∀ c d, D c d = if c = d then ogdenRate2 mu alpha (w c) else 0) (V X : Ten2 ℝ) {k : Fin 3 → Fin 3 → ℝ}
    (hk : ∀ c d, k c d = if c = d then ogdenRate2 mu alpha (w c) else f c d) :
    V * kmap D f (Vᵀ * X * V) * Vᵀ = spectralDeriv V k X := by
  unfold spectralDeriv
  congr 2
  ext c d
  simp only [kmap, Matrix.of_apply, hD, hk]
  split_ifs with h
  · subst h; simp
  · rfl

/-- the tangent of the framework, in terms of the eigenvalues -/
theorem ogden_hess_form (lapack : Eigh) (hl : EighValid lapack) {C : Ten2 ℝ} {H : Ten4 ℝ} (hC : PosDef C)
    (hH : Material.Hess (Stretches.material lapack (Ogden.mat ⟨mu, alpha⟩)) z C H) {X : Ten2 ℝ} (hX : X.IsSymm) :
    contract42 H X = spectralDeriv (Stretches.vecs lapack C) (ogdenCoef mu alpha (Stretches.vals lapack C)) X := by
  obtain ⟨s, c, M, hc, hM, hr⟩ := hH
  have hS : Spectral C (Stretches.vals lapack C) (Stretches.vecs lapack C) := hl C hc.symm
  have hpos : ∀ c, 0 < Stretches.vals lapack C c := hS.pos hC
  obtain ⟨g, z', m, k, hg, hk, rfl⟩ := (Stretches.returns_hessian ..).1 hr
  rw [Stretches.eighSqrt_eq lapack hc] at hg hk hM
  obtain rfl : z' = z := Props.C11_statevars mu alpha z _ _ _ _ (by rw [Returns, hg])
  have hg' : StrMat.Grad (Ogden.mat ⟨mu, alpha⟩) z' (Stretches.roots (Stretches.vals lapack C)) g :=
    ⟨s.material, z', by rw [Returns]; exact congrArg Prod.fst hg⟩
  obtain ⟨hD, -, hcr⟩ := ogden_coefs hpos hg' ⟨m, k, hk, rfl⟩
  rw [← T4_eq hM, Stretches.contract_hessPure _ _ _ _ hX]
  refine kmap_ogden _ _ hD _ _ fun c d => ?_
  split_ifs with h
  · subst h; simp [ogdenCoef]
  · exact (hcr c d h).symm

theorem ogden_hess_unique (lapack : Eigh) (hl : EighValid lapack) {C : Ten2 ℝ} {H H' : Ten4 ℝ} (hC : PosDef C)
    (hH : Material.Hess (Stretches.material lapack (Ogden.mat ⟨mu, alpha⟩)) z C H)
    (hH' : Material.Hess (Stretches.material lapack (Ogden.mat ⟨mu, alpha⟩)) z C H') : H = H' := by
  funext i j k l
  rw [← sub_eq_zero, ← abs_nonpos_iff]
  refine component_le (Material.hess_minor hH).2 (Material.hess_minor hH').2 (fun X hX _ => ?_) i j k l
  rw [ogden_hess_form lapack hl hC hH hX, ogden_hess_form lapack hl hC hH' hX, sub_self]
  simp [frob]

/-- the derivative of the gradient of the framework, in terms of the eigenvalues -/
theorem ogden_moves (lapack : Eigh) (hl : EighValid lapack) (hα : ∀ p ∈ mu.zip alpha, p.2 ≠ 0) {X : ℝ → Ten2 ℝ} {X' : Ten2 ℝ} {t₀ : ℝ}
    {G : ℝ → Ten2 ℝ} {H : Ten4 ℝ} (hX : ∀ᶠ t in 𝓝 t₀, PosDef (X t)) (hm : Moves X X' t₀)
    (hG : ∀ᶠ t in 𝓝 t₀, Material.Grad (Stretches.material lapack (Ogden.mat ⟨mu, alpha⟩)) z (X t) (G t))
    (hH : Material.Hess (Stretches.material lapack (Ogden.mat ⟨mu, alpha⟩)) z (X t₀) H) :
    Moves G (spectralDeriv (Stretches.vecs lapack (X t₀))
      (fun a b => ogdenDD mu alpha (Stretches.vals lapack (X t₀) a) (Stretches.vals lapack (X t₀) b)) X') t₀ := by
  obtain ⟨g, k, hS, hg, hh, hf, -, hmov⟩ := Props.moves_exact lapack hl _ z (Ogden.symmetric _)
    (fun x _ => (Props.C11_returns mu alpha z x).1.2 hα) (Props.C11_statevars mu alpha z) (Props.C11_hessian mu alpha z) hX hm hG hH
  obtain ⟨hD, hq, -⟩ := ogden_coefs (hS.pos hX.self_of_nhds) hg hh
  have e := kmap_ogden (mu := mu) (alpha := alpha) (Stretches.exact (Stretches.vals lapack (X t₀))
    (Stretches.dlC (Stretches.roots (Stretches.vals lapack (X t₀))) g)
    (Stretches.Dmat (Stretches.roots (Stretches.vals lapack (X t₀))) g (StrHess.mat k))) _ hD (Stretches.vecs lapack (X t₀)) X'
    (k := fun a b => ogdenDD mu alpha (Stretches.vals lapack (X t₀) a) (Stretches.vals lapack (X t₀) b)) (fun c d => by
      split_ifs with h
      · subst h; exact divDiff_self ..
      · unfold Stretches.exact ogdenDD divDiff
        rw [hD, hD, hq, hq, if_pos rfl, if_neg h, sub_zero]
        split_ifs with h1
        · rw [h1]
        · rfl)
  rw [← e]
  exact hmov

/-! ### the error of the coefficients -/

theorem ogdenRate2_lipschitz {m M : ℝ} (hm : 0 < m) {x y : ℝ} (hx : x ∈ Set.Icc m M) (hy : y ∈ Set.Icc m M) :
    |ogdenRate2 mu alpha x - ogdenRate2 mu alpha y| ≤ ogdenLipschitz mu alpha m M * |x - y| := by
  rw [← rate2_eq, ← rate2_eq]
  have hM : 0 < M := hm.trans_le (hx.1.trans hx.2)
  unfold ogdenLipschitz
  induction mu.zip alpha with
  | nil => simp
  | cons p L ih =>
    simp only [List.map_cons, List.sum_cons, add_mul]
    rw [add_sub_add_comm]
    refine (abs_add_le _ _).trans (add_le_add ?_ ih)
    rw [← mul_sub, abs_mul]
    have h5 := Props.rpow_lipschitz hm hx hy (p.2 / 2 - 2)
    rw [show p.2 / 2 - 2 - 1 = p.2 / 2 - 3 by ring] at h5
    calc |p.1 / p.2 * (p.2 / 2 - 1)| * |x ^ (p.2 / 2 - 2) - y ^ (p.2 / 2 - 2)|
        ≤ |p.1 / p.2 * (p.2 / 2 - 1)| * (|p.2 / 2 - 2| * (m ^ (p.2 / 2 - 3) + M ^ (p.2 / 2 - 3)) * |x - y|) :=
          mul_le_mul_of_nonneg_left h5 (abs_nonneg _)
      _ = |p.1 / p.2 * (p.2 / 2 - 1) * (p.2 / 2 - 2)| * (m ^ (p.2 / 2 - 3) + M ^ (p.2 / 2 - 3)) * |x - y| := by
          rw [abs_mul (p.1 / p.2 * (p.2 / 2 - 1))]; ring

theorem ogdenDD_lip {m M : ℝ} (hm : 0 < m) {x y v : ℝ} (hx : x ∈ Set.Icc m M) (hy : y ∈ Set.Icc m M) (hv : v ∈ Set.Icc m M) :
    |ogdenDD mu alpha x y - ogdenDD mu alpha x v| ≤ ogdenLipschitz mu alpha m M * |y - v| :=
  divDiff_lipschitz (fun _ ht => ogdenRate_deriv mu alpha (hm.trans_le ht.1))
    (Props.ogdenLipschitz_nonneg mu alpha hm (hm.trans_le (hx.1.trans hx.2)))
    (fun _ hx _ hy => ogdenRate2_lipschitz hm hx hy) hx hy hv

theorem ogdenCross_close {m M : ℝ} (hm : 0 < m) {x y τ : ℝ} (hx : x ∈ Set.Icc m M) (hy : y ∈ Set.Icc m M) (hτ0 : 0 ≤ τ)
    (hτ : |x - y| ≤ 1 / 10 ^ 8 → |x - y| ≤ τ) :
    |ogdenCross mu alpha x y - ogdenDD mu alpha x y| ≤ ogdenLipschitz mu alpha m M * τ := by
  have hL := Props.ogdenLipschitz_nonneg mu alpha hm (hm.trans_le (hx.1.trans hx.2))
  unfold ogdenCross
  split_ifs with h
  · rw [show ogdenRate2 mu alpha y = ogdenDD mu alpha y y from (divDiff_self _ _ _).symm,
      show ogdenDD mu alpha x y = ogdenDD mu alpha y x from divDiff_symm ..]
    refine (ogdenDD_lip hm hy hy hx).trans ?_
    rw [abs_sub_comm]
    exact mul_le_mul_of_nonneg_left (hτ h) hL
  · have hne : x ≠ y := fun h1 => h (by rw [h1, sub_self, abs_zero]; norm_num)
    have e : ogdenDD mu alpha x y = (ogdenRate mu alpha x - ogdenRate mu alpha y) / (x - y) := if_neg hne
    rw [e, sub_self, abs_zero]
    positivity

theorem ogdenCoef_close {m M : ℝ} (hm : 0 < m) {w : Fin 3 → ℝ} {τ : ℝ} (hw : ∀ a, w a ∈ Set.Icc m M) (hτ0 : 0 ≤ τ)
    (hτ : ∀ a b, |w a - w b| ≤ 1 / 10 ^ 8 → |w a - w b| ≤ τ) (a b : Fin 3) :
    |ogdenCoef mu alpha w a b - ogdenDD mu alpha (w a) (w b)| ≤ ogdenLipschitz mu alpha m M * τ := by
  have hL := Props.ogdenLipschitz_nonneg mu alpha hm (hm.trans_le ((hw a).1.trans (hw a).2))
  unfold ogdenCoef
  split_ifs with h h1
  · subst h
    rw [show ogdenRate2 mu alpha (w a) = ogdenDD mu alpha (w a) (w a) from (divDiff_self _ _ _).symm, sub_self, abs_zero]
    positivity
  · exact ogdenCross_close hm (hw a) (hw b) hτ0 (hτ a b)
  · rw [show ogdenDD mu alpha (w a) (w b) = ogdenDD mu alpha (w b) (w a) from divDiff_symm ..]
    exact ogdenCross_close hm (hw b) (hw a) hτ0 (hτ b a)

/-! ### eigenvalues of neighbouring matrices -/

theorem eigenvalue_near {B C V U : Ten2 ℝ} {w s : Fin 3 → ℝ} (hB : Spectral B w V) (hC : Spectral C s U) (a : Fin 3) :
    ∃ b, |w a - s b| ≤ 2 * frob (B - C) := by
  have hO : ∑ b, (Vᵀ * U) a b ^ 2 = 1 := by
    have h1 : (Vᵀ * U) * (Vᵀ * U)ᵀ = 1 := by
      rw [Matrix.transpose_mul, Matrix.transpose_transpose]
      have hU : U * Uᵀ = 1 := mul_eq_one_comm.1 hC.orthogonal
      calc Vᵀ * U * (Uᵀ * V) = Vᵀ * (U * Uᵀ) * V := by simp only [Matrix.mul_assoc]
        _ = 1 := by rw [hU, Matrix.mul_one]; exact hB.orthogonal
    have := congrFun (congrFun h1 a) a
    rw [Matrix.mul_apply, Matrix.one_apply_eq] at this
    rw [← this]
    exact Finset.sum_congr rfl fun b _ => by rw [Matrix.transpose_apply, pow_two]
  obtain ⟨b, hb⟩ : ∃ b, 1 / 4 ≤ (Vᵀ * U) a b ^ 2 := by
    by_contra hcon
    push Not at hcon
    rw [Fin.sum_univ_three] at hO
    linarith [hcon 0, hcon 1, hcon 2]
  refine ⟨b, ?_⟩
  have h1 : 1 / 2 ≤ |(Vᵀ * U) a b| := by
    rw [← abs_of_nonneg (by norm_num : (0 : ℝ) ≤ 1 / 2)]
    exact sq_le_sq.1 (by linarith)
  have h2 := abs_le_frob (Vᵀ * (B - C) * U) a b
  rw [frob_rotate hB.orthogonal hC.orthogonal] at h2
  have h3 : (Vᵀ * (B - C) * U) a b = (w a - s b) * (Vᵀ * U) a b := by
    rw [Spec.Spectral.eq hB, Spec.Spectral.eq hC, diff_components hB.orthogonal hC.orthogonal]
  rw [h3, abs_mul] at h2
  have h4 := mul_le_mul_of_nonneg_left h1 (abs_nonneg (w a - s b))
  linarith

/-- eigenvalues close to each other belong to eigenvalues close to each other of a neighbour -/
theorem gap_near {C : Ten2 ℝ} (hC : C.IsSymm) {τ : ℝ}
    (hτ : ∀ w v, Spectral C w v → ∀ a b, |w a - w b| ≤ 1 / 10 ^ 8 → |w a - w b| ≤ τ) :
    ∃ η > 0, ∀ B, frob (B - C) ≤ η → ∀ w v, Spectral B w v → ∀ a b, |w a - w b| ≤ 1 / 10 ^ 8 →
      |w a - w b| ≤ τ + 4 * frob (B - C) := by
  obtain ⟨s, U, hS⟩ := exists_spectral hC
  -- the distance of the other differences to the tolerance
  obtain ⟨η, hη, hgap⟩ : ∃ η > 0, ∀ a b, 1 / 10 ^ 8 < |s a - s b| → 1 / 10 ^ 8 + 4 * η < |s a - s b| := by
    let f : Fin 3 × Fin 3 → ℝ := fun p => if 1 / 10 ^ 8 < |s p.1 - s p.2| then (|s p.1 - s p.2| - 1 / 10 ^ 8) / 8 else 1
    have hf : ∀ p, 0 < f p := fun p => by
      simp only [f]
      split_ifs with h
      · linarith
      · exact one_pos
    refine ⟨Finset.univ.inf' Finset.univ_nonempty f, (Finset.lt_inf'_iff _).2 fun p _ => hf p, fun a b h => ?_⟩
    have h1 : Finset.univ.inf' Finset.univ_nonempty f ≤ f (a, b) := Finset.inf'_le f (Finset.mem_univ _)
    have h2 : f (a, b) = (|s a - s b| - 1 / 10 ^ 8) / 8 := if_pos h
    rw [h2] at h1
    generalize Finset.univ.inf' Finset.univ_nonempty f = η at h1 ⊢
    linarith
  refine ⟨η, hη, fun B hB w v hw a b hab => ?_⟩
  obtain ⟨a', ha'⟩ := eigenvalue_near hw hS a
  obtain ⟨b', hb'⟩ := eigenvalue_near hw hS b
  rw [abs_le] at ha' hb' hab
  have h1 : |s a' - s b'| ≤ 1 / 10 ^ 8 := by
    by_contra hcon
    have := hgap a' b' (not_le.1 hcon)
    have h3 : |s a' - s b'| ≤ 1 / 10 ^ 8 + 4 * frob (B - C) := by
      rw [abs_le]
      constructor <;> linarith
    linarith
  have h2 := hτ _ _ hS a' b' h1
  rw [abs_le] at h2 ⊢
  constructor <;> linarith

end Hel
