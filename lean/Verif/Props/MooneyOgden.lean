import Verif.Props.Logarithmic
import Verif.Proofs.Polyconvex
import Verif.Props.Prediction
import Verif.Props.Initial
import Verif.Props.Superposition

/-! # Property C100: the same material in three formulations -/

namespace Props
open Spec Hel Matrix Filter Topology

variable {Z : Type}

/-- The principal Kirchhoff stresses of the two-term model in generalized invariants. -/
theorem kirchhoff_two (C10 C01 : ℝ) {k : ℝ} (hk : k ≠ 0) {y : Fin 3 → ℝ} (hy : y 0 + y 1 + y 2 = 0) (a : Fin 3) :
    kirchhoff ![C10, C01, 0, 0, 0] false a (expVec y k) =
      (4 * C10 / k * Real.exp (k * y a) - 4 * C01 / k * Real.exp (-k * y a)) -
      ((4 * C10 / k * Real.exp (k * y 0) - 4 * C01 / k * Real.exp (-k * y 0)) +
       (4 * C10 / k * Real.exp (k * y 1) - 4 * C01 / k * Real.exp (-k * y 1)) +
       (4 * C10 / k * Real.exp (k * y 2) - 4 * C01 / k * Real.exp (-k * y 2))) / 3 := by
  have e01 : k * (y 0 + y 1) = -k * y 2 := by linear_combination k * hy
  have e12 : k * (y 1 + y 2) = -k * y 0 := by linear_combination k * hy
  have e02 : k * (y 0 + y 2) = -k * y 1 := by linear_combination k * hy
  simp only [kirchhoff, Bool.false_eq_true, if_false, tod1, tod2, expVec, cons_val, expA, e01, e12, e02]
  obtain ⟨N, hN⟩ : ∃ N : Fin 3 → ℝ, ∀ a, Real.exp (-k * y a) = N a := ⟨_, fun _ => rfl⟩
  simp only [hN]
  fin_cases a <;> simp <;> field_simp <;> ring

/-- The derivative of the energy of the two-term Ogden model, times the stretch. -/
theorem ogden_two (C10 C01 : ℝ) {k : ℝ} (hk : k ≠ 0) (y : ℝ) :
    Real.exp y * ogdenSlope [2 * C10, 2 * C01] [k, -k] (Real.exp y) =
      4 * C10 / k * Real.exp (k * y) - 4 * C01 / k * Real.exp (-k * y) := by
  have h : ∀ a : ℝ, Real.exp y * Real.exp y ^ (a - 1) = Real.exp (a * y) := fun a => by
    rw [Real.rpow_sub_one (Real.exp_pos _).ne', mul_div_cancel₀ _ (Real.exp_pos _).ne', ← Real.exp_mul, mul_comm]
  simp only [ogdenSlope, List.zip_cons_cons, List.zip_nil_right, List.map_cons, List.map_nil, List.sum_cons, List.sum_nil]
  rw [← h, ← h]
  field_simp
  ring

/-- **C100.**  The two-term material in generalized invariants (deformation measure with any exponent `k`) and Ogden's model with
the exponents `k` and `-k` return the same stress on the distortional space, whatever the objects were used for before. -/
theorem C100_stress (lapack : Eigh) (hl : EighValid lapack) {k : ℝ} (hk : k ≠ 0) (g : GenInv)
    (hg : GenInv.init (deformationFun k) = .ok g) (C10 C01 : ℝ) (z : Z) (F : Ten2 ℝ) (hF : F.det ≠ 0) :
    ∃ P : Ten2 ℝ,
      (∀ s, Returns ((Distortional.obj {} (generalizedFramework lapack g (TOD.init C10 C01 0 0 0 false).mat)).gradient F z) s
        (.full P, z)) ∧
      ∀ s, Returns ((Distortional.obj {} (Stretches.material lapack (Ogden.mat ⟨[2 * C10, 2 * C01], [k, -k]⟩))).gradient F z) s
        (.full P, z) := by
  obtain ⟨R, Q, l, hR, hQ, hpos, rfl⟩ := exists_svd hF
  refine ⟨_, fun s => gen_distortional lapack hl false hk g hg ![C10, C01, 0, 0, 0] z s hpos hR hQ, fun s => ?_⟩
  have h := C52_distortional lapack hl (Ogden.mat ⟨[2 * C10, 2 * C01], [k, -k]⟩) (Ogden.symmetric _) (s := s)
    hpos hR hQ (fun a => Real.exp (logStrain l a)) (fun a => (iso_exp hpos a).symm)
    (ogden_returns [2 * C10, 2 * C01] [k, -k] (by simp [hk]) _ z)
  refine Eq.trans h ?_
  refine congrArg (fun d => (Except.ok (Stress.full (R * diagonal d * Qᵀ), z) : Res _)) (funext fun a => ?_)
  refine congrArg (· / l a) ?_
  simp only [ogden_two C10 C01 hk]
  exact (kirchhoff_two C10 C01 hk (logStrain_sum l) a).symm

/-- The same for the strain energy of Mooney and Rivlin in the invariants of the right Cauchy-Green deformation tensor -/
theorem C100_invariants (lapack : Eigh) (hl : EighValid lapack) (C10 C01 : ℝ) (z : Z) (F : Ten2 ℝ) (hF : F.det ≠ 0) :
    ∃ P : Ten2 ℝ,
      (∀ s, Returns ((Distortional.obj {} (Invariants.material (TOD.init C10 C01 0 0 0 false).mat)).gradient F z) s
        (.full P, z)) ∧
      ∀ s, Returns ((Distortional.obj {} (Stretches.material lapack (Ogden.mat ⟨[2 * C10, 2 * C01], [2, -2]⟩))).gradient F z) s
        (.full P, z) := by
  obtain ⟨⟨g, hg⟩, -, -⟩ := C13_init_deformation (k := 2) two_ne_zero
  obtain ⟨P, h1, h2⟩ := C100_stress lapack hl two_ne_zero g hg C10 C01 z F hF
  refine ⟨P, fun s => ?_, h2⟩
  obtain ⟨G, h3, h4⟩ := (Distortional.returns_gradient ..).1 (h1 { material := { material := { material := s.material.material } } })
  refine (Distortional.returns_gradient ..).2 ⟨G, ?_, h4⟩
  have hc : PosDef (T2 (Distortional.cu F)) := posDef_arg .distortional hF
  exact (C22_gradient lapack hl hg _ z (T2_stores _) hc s.material { material := { material := s.material.material } } rfl _).2 h3

/-- For the neo-Hookean term the frameworks themselves agree. -/
theorem C100_framework (lapack : Eigh) (hl : EighValid lapack) {k : ℝ} (hk : k ≠ 0) (g : GenInv)
    (hg : GenInv.init (deformationFun k) = .ok g) (C10 : ℝ) (z : Z) {c : Vec6 ℝ} {C : Ten2 ℝ} (hc : Stores c C) (hC : PosDef C) :
    ∃ r : Vec6 ℝ,
      (∀ s, Returns ((generalizedFramework lapack g (TOD.init C10 0 0 0 0 false).mat).gradient c z) s (r, z)) ∧
      ∀ s, Returns ((Stretches.material lapack (Ogden.mat ⟨[2 * C10], [k]⟩)).gradient c z) s (r, z) := by
  obtain ⟨w, v, hS⟩ := exists_spectral hC.1
  have hw := hS.pos hC
  have hm : Positive fun a => √(w a) := fun a => Real.sqrt_pos.2 (hw a)
  have hc' : Stores c (v * diagonal (fun a => √(w a) ^ 2) * vᵀ) := by
    simp only [Real.sq_sqrt (hw _).le]
    rwa [← hS.eq]
  obtain ⟨-, hc1, hc2⟩ := C13_init_deformation hk
  have h1 := fun s : StrSt (GenSt Unit) => stretches_returns lapack hl _ (GenInv.symmetric g (TOD.init C10 0 0 0 0 false).mat) (s := s)
      hm hS.orthogonal hc' (gen_returns _ _ (measures_deformation k) g hg ![C10, 0, 0, 0, 0] false hm z s.material)
  have h2 := fun s : StrSt Unit => stretches_returns lapack hl (Ogden.mat ⟨[2 * C10], [k]⟩) (Ogden.symmetric _) (s := s)
      hm hS.orthogonal hc' (ogden_returns [2 * C10] [k] (by simp [hk]) _ z)
  have e : ∀ s, ∀ G : Vec6 ℝ, (∃ G', Returns ((generalizedFramework lapack g (TOD.init C10 0 0 0 0 false).mat).gradient c z) s (G', z) ∧
      T2 G' = T2 G) → Returns ((generalizedFramework lapack g (TOD.init C10 0 0 0 0 false).mat).gradient c z) s (G, z) := by
    rintro s G ⟨G', h, h'⟩
    rwa [← T2_injective h']
  obtain ⟨r, -, h4⟩ := h2 { material := () }
  refine ⟨r, fun s => e s r ?_, fun s => ?_⟩
  · obtain ⟨r', h5, h6⟩ := h1 s
    refine ⟨r', h5, h6.trans (Eq.trans ?_ h4.symm)⟩
    refine congrArg (fun d => v * diagonal d * vᵀ) (funext fun a => ?_)
    refine congrArg (· / (2 * √(w a))) ?_
    rw [hc1]
    simp only [tod1, tod2, cons_val, deformationFun, deformationEval, ogdenSlope, List.zip_cons_cons, List.zip_nil_right,
      List.map_cons, List.map_nil, List.sum_cons, List.sum_nil]
    generalize √(w a) ^ (k - 1) = p
    field_simp
    simp
    try ring
  · obtain ⟨r', h5, h6⟩ := h2 s
    rwa [← T2_injective (h6.trans h4.symm)]

/-- a motion through positive definite tensors in a given symmetric direction -/
theorem posDef_motion {C : Ten2 ℝ} (hC : PosDef C) {D : Ten2 ℝ} (hD : D.IsSymm) :
    ∃ X : ℝ → Ten2 ℝ, X 0 = C ∧ Moves X D 0 ∧ ∀ᶠ t in 𝓝 (0 : ℝ), PosDef (X t) := by
  obtain ⟨w, v, hS⟩ := exists_spectral hC.1
  have hw := hS.pos hC
  have ho := hS.orthogonal
  have hU : ∃ U : Ten2 ℝ, U.det ≠ 0 ∧ cauchyGreen U = C := by
    refine ⟨diagonal (fun a => √(w a)) * vᵀ, ?_, ?_⟩
    · rw [det_mul, det_diagonal, Fin.prod_univ_three, det_transpose]
      have := fun a => (Real.sqrt_pos.2 (hw a)).ne'
      exact mul_ne_zero (mul_ne_zero (mul_ne_zero (this 0) (this 1)) (this 2)) ho.det_ne_zero
    · have := cauchyGreen_svd orthogonal_one v fun a => √(w a)
      rw [Matrix.one_mul] at this
      rw [this]
      simp only [Real.sq_sqrt (hw _).le]
      exact hS.eq.symm
  obtain ⟨U, hU, rfl⟩ := hU
  have hu : IsUnit U.det := isUnit_iff_ne_zero.2 hU
  have hm : Moves (fun t => U + t • ((1 / 2 : ℝ) • ((U⁻¹)ᵀ * D))) ((1 / 2 : ℝ) • ((U⁻¹)ᵀ * D)) 0 := by
    have := (Moves.const (t₀ := (0 : ℝ)) U).add (Moves.smul (hasDerivAt_id (0 : ℝ)) (Moves.const ((1 / 2 : ℝ) • ((U⁻¹)ᵀ * D))))
    simpa using this
  refine ⟨fun t => cauchyGreen (U + t • ((1 / 2 : ℝ) • ((U⁻¹)ᵀ * D))), by simp, ?_, ?_⟩
  · have := hm.transpose.mul hm
    simp only [zero_smul, add_zero] at this
    refine (congrArg (fun V => Moves (fun t => cauchyGreen (U + t • ((1 / 2 : ℝ) • ((U⁻¹)ᵀ * D)))) V 0) ?_).mpr this
    rw [Matrix.transpose_smul, Matrix.transpose_mul, transpose_transpose, Matrix.smul_mul, Matrix.mul_smul, hD.eq, ← Matrix.mul_assoc,
      Matrix.mul_assoc D, Matrix.nonsing_inv_mul _ hu, Matrix.mul_one, ← Matrix.transpose_mul, Matrix.nonsing_inv_mul _ hu,
      transpose_one, Matrix.one_mul, ← add_smul]
    norm_num
  · exact (inside_eventually (inside_det hU) (by simp) hm).mono fun t ht => posDef_cauchyGreen ht

/-- … and their hessians. -/
theorem C100_framework_hessian (lapack : Eigh) (hl : EighValid lapack) {k : ℝ} (hk : k ≠ 0) (g : GenInv)
    (hg : GenInv.init (deformationFun k) = .ok g) (C10 : ℝ) (z : Z) {C : Ten2 ℝ} (hC : PosDef C) (hsep : Separated C)
    {H H' : Ten4 ℝ} (hH : Material.Hess (generalizedFramework lapack g (TOD.init C10 0 0 0 0 false).mat) z C H)
    (hH' : Material.Hess (Stretches.material lapack (Ogden.mat ⟨[2 * C10], [k]⟩)) z C H') : H = H' := by
  refine minor_ext (Material.hess_minor hH) (Material.hess_minor hH') fun D hD => ?_
  obtain ⟨X, rfl, hm, hX⟩ := posDef_motion hC hD
  have hr : ∀ t, PosDef (X t) → ∃ G, Material.Grad (generalizedFramework lapack g (TOD.init C10 0 0 0 0 false).mat) z (X t) G ∧
      Material.Grad (Stretches.material lapack (Ogden.mat ⟨[2 * C10], [k]⟩)) z (X t) G := by
    intro t ht
    have hc : Stores (asvoigt (X t)) (X t) := C01_asvoigt_stores ht.1
    obtain ⟨r, h1, h2⟩ := C100_framework lapack hl hk g hg C10 z hc ht
    exact ⟨T2 r, ⟨{ material := { material := () } }, _, r, z, hc, T2_stores r, h1 _⟩, ⟨{ material := () }, _, r, z, hc, T2_stores r, h2 _⟩⟩
  choose! G hG using hr
  have h1 := C20_generalized lapack hl z _ _ (measures_deformation k) g hg C10 0 0 0 0 false X D 0 G H hX hm
    (hX.mono fun t ht => (hG t ht).1) ⟨hsep, hH⟩
  have h2 := C20_ogden lapack hl [2 * C10] [k] z (by simp [hk]) X D 0 G H' hX hm
    (hX.mono fun t ht => (hG t ht).2) ⟨hsep, hH'⟩
  ext i j
  exact (h1 i j).unique (h2 i j)

theorem T2_arg (w : Space) (F : Ten2 ℝ) : T2 (arg w F) = argOf w F := by
  rcases w
  · exact T2_rcg F
  · exact Distortional.T2_cu F
  · exact Dilatational.T2_co F

/-- So on every space: stress and elasticity of the neo-Hookean term. -/
theorem C100_neoHooke (lapack : Eigh) (hl : EighValid lapack) {k : ℝ} (hk : k ≠ 0) (g : GenInv)
    (hg : GenInv.init (deformationFun k) = .ok g) (C10 : ℝ) (z : Z) (w : Space) (F : Ten2 ℝ) (hF : F.det ≠ 0) :
    (∃ P : Ten2 ℝ,
      (∀ s, Returns ((w.obj {} (generalizedFramework lapack g (TOD.init C10 0 0 0 0 false).mat)).gradient F z) s (.full P, z)) ∧
      ∀ s, Returns ((w.obj {} (Stretches.material lapack (Ogden.mat ⟨[2 * C10], [k]⟩))).gradient F z) s (.full P, z)) ∧
    (Separated (argOf w F) → ∃ A : Ten4 ℝ,
      (∀ s, Returns ((w.obj {} (generalizedFramework lapack g (TOD.init C10 0 0 0 0 false).mat)).hessian F z) s (.full A)) ∧
      ∀ s, Returns ((w.obj {} (Stretches.material lapack (Ogden.mat ⟨[2 * C10], [k]⟩))).hessian F z) s (.full A)) := by
  have hC := posDef_arg w hF
  obtain ⟨r, h1, h2⟩ := C100_framework lapack hl hk g hg C10 z (T2_stores (arg w F)) hC
  refine ⟨⟨_, fun s => (Space.returns_gradient ..).2 ⟨r, h1 _, (piolaStress_default ..).symm⟩,
    fun s => (Space.returns_gradient ..).2 ⟨r, h2 _, (piolaStress_default ..).symm⟩⟩, fun hs => ?_⟩
  obtain ⟨h, h3⟩ : ∃ h, Returns ((generalizedFramework lapack g (TOD.init C10 0 0 0 0 false).mat).hessian (arg w F) z)
      { material := { material := () } } h := by
    obtain ⟨d, h3, -⟩ := (Stretches.returns_gradient ..).1 (h1 { material := { material := () } })
    have h4 : ∀ (x : Vec3 ℝ) (t : GenSt Unit), ∃ K, Returns (GenInv.hessian g (TOD.init C10 0 0 0 0 false).mat x z) t K := fun x t =>
      ⟨_, (GenInv.returns_hessian ..).2 ⟨_, t.material, (TOD.init C10 0 0 0 0 false).hessVal (g.J1 (g.ev x)),
        Prod.ext (TOD.gradient_eq (I3 := GenInv.J3 (g.ev x)) (TOD.init C10 0 0 0 0 false) _ _ z) rfl, rfl, rfl⟩⟩
    obtain ⟨K, h4⟩ := h4 (eighSqrt lapack (arg w F)).1 (((g.mat (TOD.init C10 0 0 0 0 false).mat).gradient (eighSqrt lapack (arg w F)).1 z
      { material := () }).2)
    exact ⟨_, (Stretches.returns_hessian ..).2 ⟨d, z, _, K, Prod.ext h3 rfl, h4, rfl⟩⟩
  obtain ⟨s', h', h4, -⟩ := Material.hess_elim rfl (C20_ogden_returns lapack [2 * C10] [k] z (by simp [hk]) hC).2.choose_spec
  have h5 := C100_framework_hessian lapack hl hk g hg C10 z hC (by rwa [T2_arg]) (Material.hess_T4 _ _ _ _ _ h3)
    (Material.hess_T4 _ _ _ _ _ h4)
  refine ⟨_, fun s => (Space.returns_hessian ..).2 ⟨r, z, _, h, Prod.ext (h1 _) rfl, ?_, (piolaElasticity_default ..).symm⟩,
    fun s => (Space.returns_hessian ..).2 ⟨r, z, _, h', Prod.ext (h2 _) rfl, ?_, ?_⟩⟩
  · exact ((C35_stretches_free lapack _ (C35_generalized_free g _ (C35_third_order _))) _ _ _ _).2.trans h3
  · exact ((C35_stretches_free lapack _ (C35_ogden _)) _ _ _ _).2.trans h4
  · have e : h' = h := by
      funext a b
      rw [(stores4_astensor4 h').2 a b, (stores4_astensor4 h).2 a b, h5]
    rw [e, piolaElasticity_default]

/-- The elasticity of the two-term material on the distortional space (where neither formulation drops a term
which is within the tolerance of zero). -/
theorem C100_elasticity (lapack : Eigh) (hl : EighValid lapack) {k : ℝ} (hk : k ≠ 0) (g : GenInv)
    (hg : GenInv.init (deformationFun k) = .ok g) (C10 C01 : ℝ) (z : Z) (F : Ten2 ℝ) (hF : F.det ≠ 0)
    (hsep : Separated (unimodular (cauchyGreen F)))
    (htol : ∀ H, Material.Hess (generalizedFramework lapack g (TOD.init C10 C01 0 0 0 false).mat) z (unimodular (cauchyGreen F)) H →
      H = 0 ∨ ∃ i j k l, 1 / 10 ^ 8 < |4 * (cauchyGreen F).det ^ (-2 / 3 : ℝ) * H i j k l|)
    (htol' : ∀ H, Material.Hess (Stretches.material lapack (Ogden.mat ⟨[2 * C10, 2 * C01], [k, -k]⟩)) z (unimodular (cauchyGreen F)) H →
      H = 0 ∨ ∃ i j k l, 1 / 10 ^ 8 < |4 * (cauchyGreen F).det ^ (-2 / 3 : ℝ) * H i j k l|)
    {A A' : Ten4 ℝ}
    (hA : SpaceObj.Hess (Distortional.obj {} (generalizedFramework lapack g (TOD.init C10 C01 0 0 0 false).mat)) z F A)
    (hA' : SpaceObj.Hess (Distortional.obj {} (Stretches.material lapack (Ogden.mat ⟨[2 * C10, 2 * C01], [k, -k]⟩))) z F A') :
    A = A' := by
  have hr : ∀ F : Ten2 ℝ, F.det ≠ 0 → ∃ P,
      SpaceObj.Grad (Distortional.obj {} (generalizedFramework lapack g (TOD.init C10 C01 0 0 0 false).mat)) z F P ∧
      SpaceObj.Grad (Distortional.obj {} (Stretches.material lapack (Ogden.mat ⟨[2 * C10, 2 * C01], [k, -k]⟩))) z F P := by
    intro F hF
    obtain ⟨P, h1, h2⟩ := C100_stress lapack hl hk g hg C10 C01 z F hF
    exact ⟨P, ⟨{ material := { material := { material := () } } }, z, h1 _⟩, ⟨{ material := { material := () } }, z, h2 _⟩⟩
  choose! P hP using hr
  have key : ∀ D i j, contract42 A D i j = contract42 A' D i j := by
    intro D i j
    have hm : Moves (fun t => F + t • D) D 0 := by
      have := (Moves.const (t₀ := (0 : ℝ)) F).add (Moves.smul (hasDerivAt_id (0 : ℝ)) (Moves.const D))
      simpa using this
    have hd := inside_eventually (inside_det hF) (X := fun t => F + t • D) (by simp) hm
    have h1 := C28_hessian_at_partial _ z _ _ (C20_generalized lapack hl z _ _ (measures_deformation k) g hg C10 C01 0 0 0 false)
      (fun t => F + t • D) D 0 (fun t => P (F + t • D)) A (hd.mono fun t ht => ⟨ht, (posDef_cauchyGreen ht).smul
        (Real.rpow_pos_of_pos (det_cauchyGreen_pos ht) _)⟩) hm (hd.mono fun t ht => (hP _ ht).1)
      (by simp only [zero_smul, add_zero]; exact ⟨⟨hsep, htol⟩, hA⟩) i j
    have h2 := C28_ogden_partial lapack hl [2 * C10, 2 * C01] [k, -k] z (by simp [hk]) (fun t => F + t • D) D 0 (fun t => P (F + t • D)) A'
      hd hm (hd.mono fun t ht => (hP _ ht).2) (by simp only [zero_smul, add_zero]; exact ⟨⟨hsep, htol'⟩, hA'⟩) i j
    exact h1.unique h2
  ext i j a b
  have := key (Matrix.single a b 1) i j
  simpa [contract42, Matrix.single_apply, Finset.sum_ite_eq, ite_and] using this

/-- The curves of the lab, on both spaces, are the curves of the two-term Ogden model. -/
theorem C100_curve (lapack : Eigh) (hl : EighValid lapack) {e : ℝ} (he : e ≠ 0) (g : GenInv)
    (hg : GenInv.init (deformationFun e) = .ok g) (C10 C01 : ℝ) (sim : Simulation Z) (k : LoadKind)
    (lab : Option String) (hk : sim.loadcase = k.case lab) (p : List ℝ)
    (hm : sim.material (Kwargs.ofList (sim.labels.zip p)) = .ok (genDeformation lapack g ![C10, C01, 0, 0, 0] false) ∨
      sim.material (Kwargs.ofList (sim.labels.zip p)) = .ok (genDistortional lapack g ![C10, C01, 0, 0, 0] false))
    (x : List ℝ) (hne : x ≠ []) (hx : ∀ l ∈ x, 0 < l) :
    sim.stressCurveFit x p = .ok (x.map fun l => ogdenCurve k (2 * C10) e l + ogdenCurve k (2 * C01) (-e) l) := by
  have hpt : ∀ l, 0 < l → ∃ P, Returns ((Distortional.obj {} (generalizedFramework lapack g
      (TOD.init C10 C01 0 0 0 false).mat)).gradient (k.F l) (none : Option Z)) { material := { material := { material := () } } } (.full P, none) ∧
      ogdenCurve k (2 * C10) e l + ogdenCurve k (2 * C01) (-e) l = normalForce (k.F l) P := by
    intro l hl'
    obtain ⟨P, h1, h2⟩ := C100_stress lapack hl he g hg C10 C01 (none : Option Z) (k.F l) (by rw [loadF_det k hl']; exact one_ne_zero)
    obtain ⟨P', h3, h4⟩ := ogden_point lapack hl [2 * C10, 2 * C01] [e, -e] (by simp [he]) k hl' (none : Option Z) { material := { material := () } }
    obtain ⟨P'', h5, h6⟩ := (same_point k hl' _ none none ({ material := { material := () } } : DefSt (StrSt Unit))
      ({ material := { material := () } } : DistSt (StrSt Unit)) rfl _).1 ⟨P', h3, rfl⟩
    have h7 := (h2 { material := { material := () } }).symm.trans h5
    simp only [Except.ok.injEq, Prod.mk.injEq, Stress.full.injEq, and_true] at h7
    refine ⟨P, h1 _, ?_⟩
    rw [Stress.full.inj h7, ← h6, h4]
    simp
  rcases hm with hm | hm
  · refine curve_of_returns hk hm (genDeformation_acts lapack g ![C10, C01, 0, 0, 0] false { material := { material := { material := () } } }) hne ?_
    rw [List.forall₂_map_right_iff, List.forall₂_same]
    intro l hl'
    obtain ⟨P, h1, h2⟩ := hpt l (hx l hl')
    obtain ⟨P', h1', h2'⟩ := (same_point k (hx l hl') _ none none { material := { material := { material := () } } } _ rfl _).2
      ⟨P, h1, h2⟩
    exact ⟨P', none, h1', h2'⟩
  · refine curve_of_returns hk hm (genDistortional_acts lapack g ![C10, C01, 0, 0, 0] false { material := { material := { material := () } } }) hne ?_
    rw [List.forall₂_map_right_iff, List.forall₂_same]
    intro l hl'
    obtain ⟨P, h1, h2⟩ := hpt l (hx l hl')
    exact ⟨P, none, h1, h2⟩

/-- The hypotheses are met: the exponent of the tests of the package, and a deformation with three different stretches. -/
example : (∃ lapack, EighValid lapack) ∧ (∃ g, GenInv.init (deformationFun 2) = .ok g) ∧
    (diagonal ![2, 1, (1 / 2 : ℝ)]).det ≠ 0 ∧ Separated (argOf .deformation (diagonal ![2, 1, (1 : ℝ)])) := by
  refine ⟨exists_eigh, (C13_init_deformation two_ne_zero).1, ?_, ?_⟩
  · rw [det_diagonal, Fin.prod_univ_three]; simp
  · have : argOf .deformation (diagonal ![2, 1, (1 : ℝ)]) = diagonal ![4, 1, 1] := by
      rw [argOf, cauchyGreen, diagonal_transpose, diagonal_mul_diagonal]
      congr 1; funext a; fin_cases a <;> norm_num
    rw [this]
    refine separated_of (spectral_diagonal _) ?_
    intro a b; fin_cases a <;> fin_cases b <;> norm_num

/-- The conditions on the tolerance in `C100_elasticity` are met by a material of ordinary stiffness. -/
example (lapack : Eigh) (hl : EighValid lapack) (z : Z) : ∃ g, GenInv.init (deformationFun 2) = .ok g ∧
    Separated (unimodular (cauchyGreen 1)) ∧
    (∀ H, Material.Hess (generalizedFramework lapack g (TOD.init 1 1 0 0 0 false).mat) z (unimodular (cauchyGreen 1)) H →
      H = 0 ∨ ∃ i j k l, 1 / 10 ^ 8 < |4 * (cauchyGreen 1).det ^ (-2 / 3 : ℝ) * H i j k l|) ∧
    (∀ H, Material.Hess (Stretches.material lapack (Ogden.mat ⟨[2 * 1, 2 * 1], [2, -2]⟩)) z (unimodular (cauchyGreen 1)) H →
      H = 0 ∨ ∃ i j k l, 1 / 10 ^ 8 < |4 * (cauchyGreen 1).det ^ (-2 / 3 : ℝ) * H i j k l|) ∧
    (∃ A, SpaceObj.Hess (Distortional.obj {} (generalizedFramework lapack g (TOD.init 1 1 0 0 0 false).mat)) z 1 A) := by
  obtain ⟨⟨g, hg⟩, -, -⟩ := C13_init_deformation (k := 2) two_ne_zero
  refine ⟨g, hg, ?_, ?_, ?_, C54_generalized_returns lapack g ![1, 1, 0, 0, 0] z⟩
  all_goals rw [cauchyGreen_one]
  · rw [unimodular_one]; exact separated_one
  · obtain ⟨d, p, o, hd, hh, h20, hsym, htot, hkeep, eo, ep, em⟩ := generalized_initial two_ne_zero ![1, 1, 0, 0, 0] z hg
    rw [unimodular_one, det_one, Real.one_rpow]
    intro H hH
    rw [mul_one]
    refine stretches_tol d p o (.inr (.inr ?_)) (stretches_hess_one lapack hl _ z hsym htot hkeep h20 d p o hd hh H hH)
    rw [eo]
    norm_num [show (![1, 1, 0, 0, 0] : Fin 5 → ℝ) 2 = 0 from rfl, show (![1, 1, 0, 0, 0] : Fin 5 → ℝ) 3 = 0 from rfl]
  · have ha : ∀ a ∈ [(2 : ℝ), -2], a ≠ 0 := by simp
    obtain ⟨d, p, hd, hk, e1, e2⟩ := ogden_initial [2 * 1, 2 * 1] [2, -2] ha rfl z
    rw [unimodular_one, det_one, Real.one_rpow]
    intro H hH
    rw [mul_one]
    refine stretches_tol d p 0 (.inr (.inl ?_)) (stretches_hess_one lapack hl _ z (Ogden.symmetric _)
      (fun x _ => (C11_returns _ _ z x).1.2 fun p hp => ha _ (List.of_mem_zip hp).2) (C11_statevars _ _ z) (C11_hessian _ _ z)
      d p 0 hd hk H hH)
    rw [e2]
    norm_num

end Props
