import Verif.Props.Spaces

/-! # C29: the hessian of the dilatational space -/

namespace Props
open Spec Hel Filter Topology Matrix

variable {Z μ : Type}

/-- The exact error of the dilatational elasticity for every material: along every motion, the derivative of the stress is
`A : F'` plus the part of the material hessian `H` which is missing because the material is evaluated at `I3^(1/3) C`, but
the elasticity is that of an evaluation at `I3^(1/3) 1`. -/
theorem C29_error (mat : Material ℝ Z μ) (z : Z) (dom : Ten2 ℝ → Prop)
    (h : IsHessian dom (Material.Grad mat z) (Material.Hess mat z))
    (F : ℝ → Ten2 ℝ) (F' : Ten2 ℝ) (t₀ : ℝ) (P : ℝ → Ten2 ℝ) (A : Ten4 ℝ) (C C' : Ten2 ℝ)
    (hCdef : C = cauchyGreen (F t₀)) (hC'def : C' = F'ᵀ * F t₀ + (F t₀)ᵀ * F')
    (hF : ∀ᶠ t in 𝓝 t₀, (F t).det ≠ 0 ∧ dom ((cauchyGreen (F t)).det ^ (1 / 3 : ℝ) • cauchyGreen (F t)))
    (hm : Moves F F' t₀) (hP : ∀ᶠ t in 𝓝 t₀, SpaceObj.Grad (Dilatational.obj {} mat) z (F t) (P t))
    (hA : SpaceObj.Hess (Dilatational.obj {} mat) z (F t₀) A) :
    ∃ H, Material.Hess mat z (C.det ^ (1 / 3 : ℝ) • C) H ∧
      Moves P (contract42 A F' + (2 / 3 * C.det ^ (2 / 3 : ℝ) *
        contract22 1 (contract42 H (C' + (1 / 3 * contract22 C⁻¹ C') • (C - 1)))) • (F t₀ * C⁻¹)) t₀ := by
  subst hCdef hC'def
  have h0 := hF.self_of_nhds
  obtain ⟨G₀, H, hG₀, hH, rfl⟩ := Dilatational.hess_elim h0.1 hA
  refine ⟨H, hH, ?_⟩
  have hC := moves_cauchyGreen hm
  have hC0 := symInv_cauchyGreen h0.1
  have hd0 := det_cauchyGreen_pos h0.1
  obtain ⟨G, hG⟩ := ((hF.and hP).mono fun t ht => (Dilatational.grad_iff _ _ ht.1.1).1 ht.2).choice
  have hu : G t₀ = G₀ := h.unique h0.2 hG.self_of_nhds.1 hG₀ hH
  have hCo := Moves.smul (moves_det_rpow hC0 hd0 hC (1 / 3)) hC
  have h1 : Moves G _ t₀ := h _ _ t₀ G H (hF.mono fun t ht => ht.2) hCo (hG.mono fun t ht => ht.1) hH
  have h2 := moves_dilS hC0 hd0 hC h1
  have h3 := (moves_piola hm h2).congr (hG.mono fun t ht => ht.2)
  have hi : ((cauchyGreen (F t₀))⁻¹).IsSymm := by
    rw [Matrix.IsSymm, Matrix.transpose_nonsing_inv, hC0.1.eq]
  intro i j
  refine (h3 i j).congr_deriv ?_
  have e : contract42 (piolaT (F t₀) (dilS (cauchyGreen (F t₀)) G₀)
      (Dilatational.c4T (cauchyGreen (F t₀)) G₀ H)) F' = _ :=
    contract42_piola (F t₀) F' _ (dilS_symm hC0.1 G₀) (c4T_minor hC0.1 G₀ H)
  rw [e, hu]
  clear e h3 h2
  unfold Dilatational.c4T
  rw [contract42_sub, contract42_smul, contract42_smul, contract42_dyad,
    contract42_dyadSym_self hi (velocity_symm _ _)]
  generalize (F'ᵀ * F t₀ + (F t₀)ᵀ * F') = C'
  generalize hCC : cauchyGreen (F t₀) = C at *
  rw [Matrix.add_apply, Matrix.add_apply, Matrix.add_apply, add_assoc]
  congr 1
  have hms : ∀ (c : ℝ) (A B : Ten2 ℝ), c • (A * B) = A * (c • B) := fun c A B => (Matrix.mul_smul A c B).symm
  rw [← Matrix.add_apply, hms _ (F t₀) C⁻¹, ← Matrix.mul_add]
  refine congrFun (congrFun (congrArg _ ?_) i) j
  have hp : C.det ^ (2 / 3 : ℝ) = C.det ^ (1 / 3 : ℝ) * C.det ^ (1 / 3 : ℝ) := by
    rw [← Real.rpow_add hd0]; norm_num
  have hsub : ∀ A B : Ten2 ℝ, contract42 H (A - B) = contract42 H A - contract42 H B := by
    intro A B
    rw [sub_eq_add_neg, ← neg_one_smul ℝ B, contract42_add_right, contract42_smul_right]
    simp [sub_eq_add_neg]
  rw [hp]
  simp only [contract42_add_right, contract42_smul_right, hsub, Matrix.trace_smul, smul_eq_mul, Matrix.trace_add,
    contract22_add_right, contract22_smul_right, contract22_sub_right, contract22_one_left]
  ext i j
  simp only [Matrix.add_apply, Matrix.sub_apply, Matrix.smul_apply, smul_eq_mul]
  ring

/-- The full statement of C29 (hessian part). -/
def C29_FullHessian : Prop :=
  ∀ (Z μ : Type) (mat : Material ℝ Z μ) (z : Z) (dom : Ten2 ℝ → Prop),
    IsHessian dom (Material.Grad mat z) (Material.Hess mat z) →
    IsHessian (fun F => F.det ≠ 0 ∧ dom ((cauchyGreen F).det ^ (1 / 3 : ℝ) • cauchyGreen F))
      (SpaceObj.Grad (Dilatational.obj {} mat) z) (SpaceObj.Hess (Dilatational.obj {} mat) z)

/-- The hessian part of C29 fails: for `ψ = ½ C:C` and `F = (2 + t) 1` the derivative of the stress at `t = 0` is `160 · 1`,
the returned elasticity gives `48 · 1`. -/
theorem C29_hessian_false : ¬ C29_FullHessian := by
  intro hfull
  have hm : Moves (fun t => ((2 : ℝ) • (1 : Ten2 ℝ)) + (t - 0) • (1 : Ten2 ℝ)) 1 0 :=
    Moves.add_const_smul _ 1
  have hF : ∀ t : ℝ, ((2 : ℝ) • (1 : Ten2 ℝ)) + (t - 0) • (1 : Ten2 ℝ) = (2 + t) • 1 := by
    intro t; rw [add_smul]; simp
  simp only [hF] at hm
  have hev : ∀ᶠ t : ℝ in 𝓝 0, t ∈ Set.Ioi (-2 : ℝ) := Ioi_mem_nhds (by norm_num)
  have hdet : ∀ t : ℝ, t ∈ Set.Ioi (-2 : ℝ) → ((2 + t) • (1 : Ten2 ℝ)).det ≠ 0 := by
    intro t ht
    have : 0 < 2 + t := by have := Set.mem_Ioi.1 ht; linarith
    rw [Matrix.det_smul]; simp; positivity
  have hdom : ∀ᶠ t : ℝ in 𝓝 0, ((2 + t) • (1 : Ten2 ℝ)).det ≠ 0 ∧
      ((cauchyGreen ((2 + t) • (1 : Ten2 ℝ))).det ^ (1 / 3 : ℝ) • cauchyGreen ((2 + t) • (1 : Ten2 ℝ))).IsSymm :=
    hev.mono fun t ht => ⟨hdet t ht, (cauchyGreen_symm _).smul _⟩
  have hP : ∀ᶠ t : ℝ in 𝓝 0, SpaceObj.Grad (Dilatational.obj {} (squareMat 1)) () ((2 + t) • (1 : Ten2 ℝ))
      ((2 + t) • (1 : Ten2 ℝ) * dilS (cauchyGreen ((2 + t) • (1 : Ten2 ℝ)))
        ((1 : ℝ) • ((cauchyGreen ((2 + t) • (1 : Ten2 ℝ))).det ^ (1 / 3 : ℝ) • cauchyGreen ((2 + t) • (1 : Ten2 ℝ))))) :=
    hev.mono fun t ht => (Dilatational.grad_iff _ _ (hdet t ht)).2
      ⟨_, (squareMat_grad 1 ((cauchyGreen_symm _).smul _) _).2 rfl, rfl⟩
  obtain ⟨A, hA⟩ : ∃ A, SpaceObj.Hess (Dilatational.obj {} (squareMat 1)) () ((2 + (0 : ℝ)) • (1 : Ten2 ℝ)) A :=
    ⟨_, { material := () }, (Dilatational.returns_hessian _ _ _ _ _ _).2
      ⟨_, (), (), _, rfl, rfl, (piolaElasticity_default ..).symm⟩⟩
  obtain ⟨H, hH, h1⟩ := C29_error (squareMat 1) () _ (squareMat_derivatives 1).2 _ _ 0 _ A _ _ rfl rfl hdom hm hP hA
  have h2 := hfull Unit Unit (squareMat 1) () _ (squareMat_derivatives 1).2 _ _ 0 _ A hdom hm hP hA
  have h3 := (h1 0 0).unique (h2 0 0)
  rw [squareMat_hess 1 ((cauchyGreen_symm _).smul _)] at hH
  have hC : cauchyGreen ((2 + (0 : ℝ)) • (1 : Ten2 ℝ)) = (4 : ℝ) • 1 := by
    simp [cauchyGreen, smul_smul]; norm_num
  have hCi : ((4 : ℝ) • (1 : Ten2 ℝ))⁻¹ = (1 / 4 : ℝ) • 1 :=
    Matrix.inv_eq_right_inv (by rw [Matrix.smul_mul, Matrix.mul_smul, smul_smul]; norm_num)
  have hv : (1 : Ten2 ℝ)ᵀ * ((2 + (0 : ℝ)) • (1 : Ten2 ℝ)) + ((2 + (0 : ℝ)) • (1 : Ten2 ℝ))ᵀ * (1 : Ten2 ℝ) = (4 : ℝ) • 1 := by
    simp [← add_smul]; norm_num
  simp only [Matrix.add_apply, hC, hv, hCi] at h3
  have hX : ((4 : ℝ) • (1 : Ten2 ℝ) + (1 / 3 * contract22 ((1 / 4 : ℝ) • (1 : Ten2 ℝ)) ((4 : ℝ) • 1)) •
      ((4 : ℝ) • (1 : Ten2 ℝ) - 1)) = (7 : ℝ) • 1 := by
    rw [contract22_smul_left, contract22_smul_right, contract22_one_left, Matrix.trace_one]
    ext i j
    simp
    ring
  rw [hX, hH, contract42_smul, contract42_dyadSym_self Matrix.isSymm_one (Matrix.isSymm_one.smul _)] at h3
  simp only [Matrix.one_mul, Matrix.mul_one, contract22_smul_right, contract22_one_left, Matrix.trace_one,
    Matrix.smul_apply, Matrix.smul_mul, Matrix.one_apply_eq, smul_eq_mul, Fintype.card_fin] at h3
  norm_num at h3

end Props
