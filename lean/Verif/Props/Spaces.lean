import Verif.Proofs.SpaceApi
import Verif.Props.Invariants

/-! # Properties C25-C29: the spaces return derivatives of the strain energy -/

namespace Props
open Spec Hel Filter Topology Matrix

variable {Z μ : Type}

/-! ## C25 -/

/-- The deformation space's stress is the derivative of `ψ(FᵀF)` with respect to `F`. -/
theorem C25_gradient (mat : Material ℝ Z μ) (z : Z) (dom : Ten2 ℝ → Prop) (ψ : Ten2 ℝ → ℝ)
    (h : IsGradient dom ψ (Material.Grad mat z)) :
    IsGradient (fun F => dom (cauchyGreen F)) (fun F => ψ (cauchyGreen F))
      (SpaceObj.Grad (Deformation.obj {} mat) z) := by
  intro F F' t₀ P hF hm hP
  obtain ⟨G, hG, rfl⟩ := (Deformation.grad_iff _ _ _ _).1 hP
  have h1 := h _ _ t₀ G hF (moves_cauchyGreen hm) hG
  refine h1.congr_deriv ?_
  rw [contract22_mul _ _ ((Material.grad_symm hG).smul _), contract22_smul_left]
  ring

/-- End to end: the stress of a third-order-deformation material on the deformation space is
the derivative of the documented energy. -/
theorem C25_third_order (C10 C01 C11 C20 C30 : ℝ) (strain : Bool) (z : Z) :
    IsGradient (fun F => F.det ≠ 0)
      (fun F => todEnergy C10 C01 C11 C20 C30 (if strain then 0 else 3) (invariants (cauchyGreen F)))
      (SpaceObj.Grad (Deformation.obj {}
        (Invariants.material (TOD.init C10 C01 C11 C20 C30 strain).mat)) z) := by
  have h := C25_gradient _ z _ _
    (C16_gradient _ z (fun _ => True) _ (C10_gradient C10 C01 C11 C20 C30 strain z))
  intro F F' t₀ P hF hm hP
  exact h F F' t₀ P (hF.mono fun t ht => ⟨symInv_cauchyGreen ht, trivial⟩) hm hP

/-- The stress of a Neo-Hookean material with `C10 = 1/2` at simple shear is `P = F`. -/
example : SpaceObj.Grad (Deformation.obj {} (Invariants.material (TOD.init (1 / 2) 0 0 0 0 false).mat)) ()
    !![1, 1, 0; 0, 1, 0; 0, 0, 1] !![1, 1, 0; 0, 1, 0; 0, 0, 1] := by
  rw [Deformation.grad_iff]
  refine ⟨(1 / 2 : ℝ) • 1, ?_, ?_⟩
  · have hd : (!![1, 1, 0; 0, 1, 0; 0, 0, 1] : Ten2 ℝ).det ≠ 0 := by simp [Matrix.det_fin_three]
    rw [Invariants.grad_iff _ _ (symInv_cauchyGreen hd)]
    refine ⟨_, (TOD.grad_iff ..).2 rfl, ?_⟩
    simp [invGradT, TOD.init]
  · rw [smul_smul]; norm_num

/-! ## C26 -/

/-- The deformation space's elasticity is the derivative of its stress wherever the hessian of the
material is the derivative of its gradient (at the points `Q` inside of the domain). -/
theorem C26_hessian_at (mat : Material ℝ Z μ) (z : Z) (dom Q : Ten2 ℝ → Prop)
    (h : IsHessian dom (Material.Grad mat z) fun C H => Q C ∧ Material.Hess mat z C H) :
    IsHessian (fun F => dom (cauchyGreen F)) (SpaceObj.Grad (Deformation.obj {} mat) z)
      (fun F A => Q (cauchyGreen F) ∧ SpaceObj.Hess (Deformation.obj {} mat) z F A) := by
  intro F F' t₀ P A hF hm hP ⟨hQ, hA⟩
  obtain ⟨G₀, H, hG₀, hH, rfl⟩ := Deformation.hess_elim hA
  obtain ⟨G, hG⟩ := (hP.mono fun t ht => (Deformation.grad_iff _ _ _ _).1 ht).choice
  have hu : G t₀ = G₀ := h.unique hF.self_of_nhds hG.self_of_nhds.1 hG₀ ⟨hQ, hH⟩
  have h1 : Moves G _ t₀ := h _ _ t₀ G H hF (moves_cauchyGreen hm) (hG.mono fun t ht => ht.1) ⟨hQ, hH⟩
  have h2 : Moves (fun t => (2 : ℝ) • G t)
      ((2 : ℝ) • contract42 H (F'ᵀ * F t₀ + (F t₀)ᵀ * F')) t₀ := fun i j => (h1 i j).const_mul 2
  have h3 := (moves_piola hm h2).congr (hG.mono fun t ht => ht.2)
  intro i j
  refine (h3 i j).congr_deriv ?_
  have hmin := Material.hess_minor hH
  have e : contract42 (piolaT (F t₀) ((2 : ℝ) • G₀) fun i j k l => 4 * H i j k l) F' = _ :=
    contract42_piola (F t₀) F' ((2 : ℝ) • G₀) ((Material.grad_symm hG₀).smul _)
      (smul_minor 4 hmin)
  rw [e, contract42_smul, hu, smul_smul]
  norm_num

/-- The deformation space's elasticity is the derivative of its stress. -/
theorem C26_hessian (mat : Material ℝ Z μ) (z : Z) (dom : Ten2 ℝ → Prop)
    (h : IsHessian dom (Material.Grad mat z) (Material.Hess mat z)) :
    IsHessian (fun F => dom (cauchyGreen F)) (SpaceObj.Grad (Deformation.obj {} mat) z)
      (SpaceObj.Hess (Deformation.obj {} mat) z) := by
  have := C26_hessian_at mat z dom (fun _ => True) fun X X' t₀ G H h1 h2 h3 h4 => h X X' t₀ G H h1 h2 h3 h4.2
  intro F F' t₀ P A h1 h2 h3 h4
  exact this F F' t₀ P A h1 h2 h3 ⟨trivial, h4⟩

/-- End to end: the elasticity of a third-order-deformation material on the deformation
space is the derivative of its stress. -/
theorem C26_third_order (C10 C01 C11 C20 C30 : ℝ) (strain : Bool) (z : Z) :
    IsHessian (fun F => F.det ≠ 0)
      (SpaceObj.Grad (Deformation.obj {}
        (Invariants.material (TOD.init C10 C01 C11 C20 C30 strain).mat)) z)
      (SpaceObj.Hess (Deformation.obj {}
        (Invariants.material (TOD.init C10 C01 C11 C20 C30 strain).mat)) z) := by
  have h := C26_hessian _ z _ (C17_hessian_partial _ z (fun _ => True)
    (C10_hessian C10 C01 C11 C20 C30 strain z) (C10_statevars C10 C01 C11 C20 C30 strain z)
    (by
      intro I1 I2 I3 s r hr
      simp only [Returns, TOD.mat, PyM.lift_run, TOD.hessian_eq, Except.ok.injEq] at hr
      rw [← hr]; rfl))
  intro F F' t₀ P A hF hm hP hA
  exact h F F' t₀ P A (hF.mono fun t ht => ⟨symInv_cauchyGreen ht, trivial⟩) hm hP hA

/-! ## C27 -/

/-- The distortional space's stress is the derivative of `ψ(I3^(-1/3) FᵀF)`. -/
theorem C27_gradient (mat : Material ℝ Z μ) (z : Z) (dom : Ten2 ℝ → Prop) (ψ : Ten2 ℝ → ℝ)
    (h : IsGradient dom ψ (Material.Grad mat z)) :
    IsGradient (fun F => F.det ≠ 0 ∧ dom (unimodular (cauchyGreen F)))
      (fun F => ψ (unimodular (cauchyGreen F))) (SpaceObj.Grad (Distortional.obj {} mat) z) := by
  intro F F' t₀ P hF hm hP
  have h0 := hF.self_of_nhds
  obtain ⟨G, hG, rfl⟩ := (Distortional.grad_iff _ _ h0.1).1 hP
  have h1 := h _ _ t₀ G (hF.mono fun t ht => ht.2) (moves_unimodular (symInv_cauchyGreen h0.1)
    (det_cauchyGreen_pos h0.1) (moves_cauchyGreen hm)) hG
  refine h1.congr_deriv ?_
  rw [contract22_mul _ _ (distS_symm (cauchyGreen_symm _) (Material.grad_symm hG))]
  simp only [distS, contract22_smul_left, contract22_sub_left, contract22_smul_right,
    contract22_sub_right]
  ring

/-- End to end for third-order-deformation materials. -/
theorem C27_third_order (C10 C01 C11 C20 C30 : ℝ) (strain : Bool) (z : Z) :
    IsGradient (fun F => F.det ≠ 0)
      (fun F => todEnergy C10 C01 C11 C20 C30 (if strain then 0 else 3)
        (invariants (unimodular (cauchyGreen F))))
      (SpaceObj.Grad (Distortional.obj {}
        (Invariants.material (TOD.init C10 C01 C11 C20 C30 strain).mat)) z) := by
  have h := C27_gradient _ z _ _
    (C16_gradient _ z (fun _ => True) _ (C10_gradient C10 C01 C11 C20 C30 strain z))
  intro F F' t₀ P hF hm hP
  refine h F F' t₀ P (hF.mono fun t ht => ⟨ht, ⟨⟨?_, ?_⟩, trivial⟩⟩) hm hP
  · exact (cauchyGreen_symm _).smul _
  · rw [unimodular, Matrix.det_smul]
    have := det_cauchyGreen_pos ht
    positivity

/-! ## C28 -/

/-- The full statement of C28. -/
def C28_Full : Prop :=
  ∀ (Z μ : Type) (mat : Material ℝ Z μ) (z : Z) (dom : Ten2 ℝ → Prop),
    IsHessian dom (Material.Grad mat z) (Material.Hess mat z) →
    IsHessian (fun F => F.det ≠ 0 ∧ dom (unimodular (cauchyGreen F)))
      (SpaceObj.Grad (Distortional.obj {} mat) z) (SpaceObj.Hess (Distortional.obj {} mat) z)

/-- rate of the distortional stress, independently of the returned elasticity -/
theorem moves_distortional {mat : Material ℝ Z μ} {z : Z} {dom Q : Ten2 ℝ → Prop}
    (h : IsHessian dom (Material.Grad mat z) fun C H => Q C ∧ Material.Hess mat z C H) {F : ℝ → Ten2 ℝ} {F' : Ten2 ℝ} {t₀ : ℝ}
    {P : ℝ → Ten2 ℝ} {G₀ : Ten2 ℝ} {H : Ten4 ℝ}
    (hF : ∀ᶠ t in 𝓝 t₀, (F t).det ≠ 0 ∧ dom (unimodular (cauchyGreen (F t)))) (hm : Moves F F' t₀)
    (hP : ∀ᶠ t in 𝓝 t₀, SpaceObj.Grad (Distortional.obj {} mat) z (F t) (P t))
    (hQ : Q (unimodular (cauchyGreen (F t₀))))
    (hG₀ : Material.Grad mat z (unimodular (cauchyGreen (F t₀))) G₀)
    (hH : Material.Hess mat z (unimodular (cauchyGreen (F t₀))) H) :
    Moves P (F' * distS (cauchyGreen (F t₀)) G₀ + F t₀ *
      distS' (cauchyGreen (F t₀)) (F'ᵀ * F t₀ + (F t₀)ᵀ * F') G₀
        (contract42 H ((cauchyGreen (F t₀)).det ^ (-1 / 3 : ℝ) • (F'ᵀ * F t₀ + (F t₀)ᵀ * F' -
          (1 / 3 * contract22 (cauchyGreen (F t₀))⁻¹ (F'ᵀ * F t₀ + (F t₀)ᵀ * F')) •
            cauchyGreen (F t₀))))) t₀ := by
  have h0 := hF.self_of_nhds
  obtain ⟨G, hG⟩ := (hF.and hP |>.mono fun t ht => (Distortional.grad_iff _ _ ht.1.1).1 ht.2).choice
  have hu : G t₀ = G₀ := h.unique h0.2 hG.self_of_nhds.1 hG₀ ⟨hQ, hH⟩
  have hC := moves_cauchyGreen hm
  have h1 : Moves G _ t₀ := h _ _ t₀ G H (hF.mono fun t ht => ht.2)
    (moves_unimodular (symInv_cauchyGreen h0.1) (det_cauchyGreen_pos h0.1) hC) (hG.mono fun t ht => ht.1) ⟨hQ, hH⟩
  have h2 := moves_distS (symInv_cauchyGreen h0.1) (det_cauchyGreen_pos h0.1) hC h1
  have h3 := (moves_piola hm h2).congr (hG.mono fun t ht => ht.2)
  rw [hu] at h3
  exact h3

theorem velocity_symm (F F' : Ten2 ℝ) : (F'ᵀ * F + Fᵀ * F').IsSymm := by
  rw [Matrix.IsSymm, Matrix.transpose_add, Matrix.transpose_mul, Matrix.transpose_mul,
    Matrix.transpose_transpose, Matrix.transpose_transpose, add_comm]

open Classical in
/-- C28 at the tensors `Q` where the material's hessian is the derivative of its gradient and
where the material's elasticity is exactly zero or not within the absolute tolerance
`1e-8` of zero.  Missing: small non-zero elasticities; for these the claim is false, see
`C28_hessian_false`. -/
theorem C28_hessian_at_partial (mat : Material ℝ Z μ) (z : Z) (dom Q : Ten2 ℝ → Prop)
    (h : IsHessian dom (Material.Grad mat z) fun C H => Q C ∧ Material.Hess mat z C H) :
    IsHessian (fun F => F.det ≠ 0 ∧ dom (unimodular (cauchyGreen F)))
      (SpaceObj.Grad (Distortional.obj {} mat) z)
      (fun F A => (Q (unimodular (cauchyGreen F)) ∧
        ∀ H, Material.Hess mat z (unimodular (cauchyGreen F)) H → H = 0 ∨
          ∃ i j k l, 1 / 10 ^ 8 < |4 * (cauchyGreen F).det ^ (-2 / 3 : ℝ) * H i j k l|) ∧
        SpaceObj.Hess (Distortional.obj {} mat) z F A) := by
  intro F F' t₀ P A hF hm hP ⟨⟨hQ, htol⟩, hA⟩
  have h0 := hF.self_of_nhds
  obtain ⟨G₀, H, hG₀, hH, rfl⟩ := Distortional.hess_elim h0.1 hA
  have h1 := moves_distortional h hF hm hP hQ hG₀ hH
  have hmin := Material.hess_minor hH
  have hsym := Material.grad_symm hG₀
  have hCs := cauchyGreen_symm (F t₀)
  have hex : (if ¬ Distortional.Dropped (F t₀) H then
        fun i j k l => Distortional.geoT (cauchyGreen (F t₀)) G₀ i j k l +
          contract44 (contract44 (Distortional.projT (cauchyGreen (F t₀)))
            (Distortional.c4bT (cauchyGreen (F t₀)) H))
            (Distortional.projTt (cauchyGreen (F t₀))) i j k l
        else Distortional.geoT (cauchyGreen (F t₀)) G₀) = fun i j k l =>
        Distortional.geoT (cauchyGreen (F t₀)) G₀ i j k l +
          contract44 (contract44 (Distortional.projT (cauchyGreen (F t₀)))
            (Distortional.c4bT (cauchyGreen (F t₀)) H))
            (Distortional.projTt (cauchyGreen (F t₀))) i j k l := by
    funext i j k l
    split_ifs with hd
    · rcases htol H hH with rfl | ⟨i', j', k', l', hlt⟩
      · simp [contract44, Distortional.c4bT]
      · exact absurd (hd i' j' k' l') (not_le.2 hlt)
    · rfl
  intro i j
  refine (h1 i j).congr_deriv ?_
  have e : contract42 (piolaT (F t₀) (distS (cauchyGreen (F t₀)) G₀) fun i j k l =>
      Distortional.geoT (cauchyGreen (F t₀)) G₀ i j k l +
          contract44 (contract44 (Distortional.projT (cauchyGreen (F t₀)))
            (Distortional.c4bT (cauchyGreen (F t₀)) H))
            (Distortional.projTt (cauchyGreen (F t₀))) i j k l) F' = _ :=
    contract42_piola (F t₀) F' _ (distS_symm hCs hsym) (add_minor (geoT_minor hCs hsym)
      (contract44_minor (contract44_minor (projT_minor hCs) (smul_minor _ hmin)) (projTt_minor hCs)))
  rw [Distortional.contract42_exact (symInv_cauchyGreen h0.1) (det_cauchyGreen_pos h0.1)
    (velocity_symm _ _) H hmin] at e
  rw [hex, e]

/-- The same where the hessian of the material is the derivative of its gradient on the whole
domain. -/
theorem C28_hessian_partial (mat : Material ℝ Z μ) (z : Z) (dom : Ten2 ℝ → Prop)
    (h : IsHessian dom (Material.Grad mat z) (Material.Hess mat z)) :
    IsHessian (fun F => F.det ≠ 0 ∧ dom (unimodular (cauchyGreen F)))
      (SpaceObj.Grad (Distortional.obj {} mat) z)
      (fun F A => (∀ H, Material.Hess mat z (unimodular (cauchyGreen F)) H → H = 0 ∨
          ∃ i j k l, 1 / 10 ^ 8 < |4 * (cauchyGreen F).det ^ (-2 / 3 : ℝ) * H i j k l|) ∧
        SpaceObj.Hess (Distortional.obj {} mat) z F A) := by
  have := C28_hessian_at_partial mat z dom (fun _ => True) fun X X' t₀ G H h1 h2 h3 h4 => h X X' t₀ G H h1 h2 h3 h4.2
  intro F F' t₀ P A h1 h2 h3 h4
  exact this F F' t₀ P A h1 h2 h3 ⟨⟨trivial, h4.1⟩, h4.2⟩

/-- The material `ψ = ε/2 C:C` with gradient `ε C` and hessian `ε` times the symmetric
identity. -/
noncomputable def squareMat (ε : ℝ) : Material ℝ Unit Unit where
  gradient c _ := pure (fun a => ε * c a, ())
  hessian _ _ := pure fun a b => ε * cdyaSelf eye a b

theorem squareMat_grad (ε : ℝ) {C : Ten2 ℝ} (hC : C.IsSymm) (G : Ten2 ℝ) :
    Material.Grad (squareMat ε) () C G ↔ G = ε • C := by
  constructor
  · rintro ⟨s, c, g, z', h1, h2, h3⟩
    simp only [Returns, squareMat, PyM.pure_run, Except.ok.injEq, Prod.mk.injEq] at h3
    rw [← T2_eq h1, ← T2_eq h2, ← h3.1, T2_smul]
  · rintro rfl
    refine ⟨(), asvoigt C, fun a => ε * asvoigt C a, (), stores_asvoigt hC, ?_, rfl⟩
    have := T2_stores fun a => ε * asvoigt C a
    rwa [T2_smul, T2_eq (stores_asvoigt hC)] at this

theorem squareMat_hess (ε : ℝ) {C : Ten2 ℝ} (hC : C.IsSymm) (H : Ten4 ℝ) :
    Material.Hess (squareMat ε) () C H ↔ H = fun i j k l => ε * dyadSym (1 : Ten2 ℝ) 1 i j k l := by
  have e : astensor4 (fun a b => ε * cdyaSelf eye a b) = fun i j k l => ε * dyadSym (1 : Ten2 ℝ) 1 i j k l := by
    rw [← T2_eye, ← T4_cdyaSelf]; rfl
  constructor
  · rintro ⟨s, c, h, h1, h2, h3⟩
    simp only [Returns, squareMat, PyM.pure_run, Except.ok.injEq] at h3
    rw [← T4_eq h2, ← h3, e]
  · rintro rfl
    refine ⟨(), asvoigt C, _, stores_asvoigt hC, ?_, rfl⟩
    rw [← e]
    exact stores4_astensor4 _

theorem squareMat_derivatives (ε : ℝ) :
    IsGradient (·.IsSymm) (fun C => ε / 2 * contract22 C C) (Material.Grad (squareMat ε) ()) ∧
    IsHessian (·.IsSymm) (Material.Grad (squareMat ε) ()) (Material.Hess (squareMat ε) ()) := by
  constructor
  · intro X X' t₀ G hX hm hG
    rw [squareMat_grad ε hX.self_of_nhds] at hG
    subst hG
    refine ((hm.contract22 hm).const_mul (ε / 2)).congr_deriv ?_
    rw [contract22_comm X' (X t₀), contract22_smul_left]
    ring
  · intro X X' t₀ G H hX hm hG hH
    rw [squareMat_hess ε hX.self_of_nhds] at hH
    subst hH
    rw [contract42_smul, contract42_dyadSym_self Matrix.isSymm_one (hm.symm hX), Matrix.one_mul, Matrix.mul_one]
    have h1 : Moves (fun t => ε • X t) (ε • X') t₀ := fun i j => (hm i j).const_mul ε
    refine h1.congr ?_
    filter_upwards [hX, hG] with t h2 h3
    exact (squareMat_grad ε h2 _).1 h3

open Classical in
/-- C28 fails: with `ψ = ε/2 C:C`, `ε = 1e-9`, the elasticity at `F = I` misses the material
part, because its entries are below the absolute tolerance. -/
theorem C28_hessian_false : ¬ C28_Full := by
  intro hfull
  set B : Ten2 ℝ := !![0, 1, 0; 1, 0, 0; 0, 0, 0] with hB
  have hm : Moves (fun t => (1 : Ten2 ℝ) + (t - 0) • B) B 0 := Moves.add_const_smul 1 B
  have hBs : B.IsSymm := by ext i j; fin_cases i <;> fin_cases j <;> rfl
  have h10 : (1 : Ten2 ℝ) + ((0 : ℝ) - 0) • B = 1 := by simp
  have hdet : ∀ᶠ t : ℝ in 𝓝 0, ((1 : Ten2 ℝ) + (t - 0) • B).det ≠ 0 := by
    have hc := hm.det.continuousAt
    refine hc.eventually_ne ?_
    rw [h10]; simp
  have hdom : ∀ᶠ t : ℝ in 𝓝 0, ((1 : Ten2 ℝ) + (t - 0) • B).det ≠ 0 ∧
      (unimodular (cauchyGreen ((1 : Ten2 ℝ) + (t - 0) • B))).IsSymm :=
    hdet.mono fun t ht => ⟨ht, (cauchyGreen_symm _).smul _⟩
  have hus : ∀ F : Ten2 ℝ, (unimodular (cauchyGreen F)).IsSymm := fun F => (cauchyGreen_symm _).smul _
  set ε : ℝ := 1 / 10 ^ 9 with hε
  -- a motion of stresses
  have hP : ∀ᶠ t : ℝ in 𝓝 0, SpaceObj.Grad (Distortional.obj {} (squareMat ε)) ()
      ((1 : Ten2 ℝ) + (t - 0) • B) (((1 : Ten2 ℝ) + (t - 0) • B) *
        distS (cauchyGreen ((1 : Ten2 ℝ) + (t - 0) • B))
          (ε • unimodular (cauchyGreen ((1 : Ten2 ℝ) + (t - 0) • B)))) :=
    hdet.mono fun t ht => (Distortional.grad_iff _ _ ht).2 ⟨_, (squareMat_grad ε (hus _) _).2 rfl, rfl⟩
  have hd1 : ((1 : Ten2 ℝ)).det ≠ 0 := by simp
  have hC1 : cauchyGreen (1 : Ten2 ℝ) = 1 := by simp [cauchyGreen]
  have hU1 : unimodular (1 : Ten2 ℝ) = 1 := by simp [unimodular]
  -- some returned elasticity
  obtain ⟨A, hA⟩ : ∃ A, SpaceObj.Hess (Distortional.obj {} (squareMat ε)) () (1 : Ten2 ℝ) A := by
    refine ⟨_, { material := () }, (Distortional.returns_hessian _ _ _ _ _ _).2
      ⟨_, (), (), _, rfl, rfl, (piolaElasticity_default ..).symm⟩⟩
  have hA' := hA
  obtain ⟨G₀, H, hG₀, hH, rfl⟩ := Distortional.hess_elim hd1 hA'
  have key := hfull Unit Unit (squareMat ε) () _ (squareMat_derivatives ε).2 _ _ 0 _ _ hdom hm hP
    (by rw [h10]; exact hA) 0 1
  have htrue := moves_distortional (Q := fun _ => True)
    (fun X X' t₀ G H h1 h2 h3 h4 => (squareMat_derivatives ε).2 X X' t₀ G H h1 h2 h3 h4.2) hdom hm hP trivial
    (by rw [h10]; exact hG₀) (by rw [h10]; exact hH) 0 1
  have heq := htrue.unique key
  rw [squareMat_grad ε (hus _)] at hG₀
  rw [squareMat_hess ε (hus _)] at hH
  have hdrop : Distortional.Dropped 1 H := by
    intro i j k l
    rw [hC1, hH]
    have hb : |dyadSym (1 : Ten2 ℝ) 1 i j k l| ≤ 1 := by
      simp only [dyadSym, Matrix.one_apply]
      split_ifs <;> norm_num
    rw [Matrix.det_one, Real.one_rpow, hε, abs_mul, abs_mul]
    norm_num
    linarith
  have e : contract42 (piolaT 1 (distS 1 G₀) (Distortional.geoT 1 G₀)) B = _ :=
    contract42_piola (1 : Ten2 ℝ) B (distS 1 G₀) (distS_symm Matrix.isSymm_one (by
      rw [hG₀, hC1, hU1]; exact Matrix.isSymm_one.smul _))
      (geoT_minor Matrix.isSymm_one (by rw [hG₀, hC1, hU1]; exact Matrix.isSymm_one.smul _))
  simp only [h10, hC1] at heq
  rw [if_neg (not_not.2 hdrop), e] at heq
  have ht : B.trace = 0 := by simp [hB, Matrix.trace, Fin.sum_univ_three]
  have hv : Bᵀ * (1 : Ten2 ℝ) + (1 : Ten2 ℝ)ᵀ * B = (2 : ℝ) • B := by
    rw [hBs.eq]; simp [two_smul]
  have hGeo : contract42 (Distortional.geoT 1 G₀) ((2 : ℝ) • B) = (8 * ε) • B := by
    have h2B : ((2 : ℝ) • B).IsSymm := hBs.smul _
    unfold Distortional.geoT
    rw [hG₀, hC1, hU1]
    simp only [contract42_smul, contract42_add, contract42_sub, contract42_dyad, inv_one,
      contract42_dyadSym_self Matrix.isSymm_one h2B]
    simp only [contract22_smul_left, contract22_one_left, Matrix.trace_smul, ht, contract22_smul_right,
      Matrix.det_one, Real.one_rpow, Matrix.trace_one]
    ext i j
    simp
    ring
  rw [hv, hGeo] at heq
  have hY : contract42 H ((2 : ℝ) • B) = (2 * ε) • B := by
    rw [hH, contract42_smul, contract42_dyadSym_self Matrix.isSymm_one (hBs.smul _), Matrix.one_mul,
      Matrix.mul_one, smul_smul]
    ring_nf
  have hd' : distS' 1 ((2 : ℝ) • B) G₀ (contract42 H ((Matrix.det (1 : Ten2 ℝ)) ^ (-1 / 3 : ℝ) •
      ((2 : ℝ) • B - (1 / 3 * contract22 (1 : Ten2 ℝ)⁻¹ ((2 : ℝ) • B)) • (1 : Ten2 ℝ)))) 0 1 =
      4 * ε + 4 * ε := by
    rw [inv_one, contract22_one_left, Matrix.trace_smul, ht, Matrix.det_one, Real.one_rpow, one_smul]
    simp only [smul_zero, mul_zero, zero_smul, sub_zero]
    rw [hY, hG₀, hC1, hU1]
    simp only [distS', contract22_smul_left, contract22_one_left, contract22_smul_right, inv_one, ht,
      Matrix.trace_smul, Matrix.det_one, Real.one_rpow]
    simp [hB]
    ring
  rw [Matrix.one_mul, Matrix.one_mul, Matrix.add_apply, Matrix.add_apply, hd'] at heq
  simp [hB] at heq
  norm_num [hε] at heq

/-- A material of ordinary stiffness meets the hypotheses of `C28_hessian_partial` at `F = I`. -/
example : ∀ H, Material.Hess (squareMat 1) () (unimodular (cauchyGreen 1)) H → H = 0 ∨
    ∃ i j k l, 1 / 10 ^ 8 < |4 * (cauchyGreen (1 : Ten2 ℝ)).det ^ (-2 / 3 : ℝ) * H i j k l| := by
  intro H hH
  rw [squareMat_hess 1 (show (unimodular (cauchyGreen 1)).IsSymm from (cauchyGreen_symm _).smul _)] at hH
  refine Or.inr ⟨0, 0, 0, 0, ?_⟩
  rw [hH]
  simp [cauchyGreen, dyadSym]
  norm_num

/-! ## C29 -/

/-- The full statement of C29 (gradient part). -/
def C29_Full : Prop :=
  ∀ (Z μ : Type) (mat : Material ℝ Z μ) (z : Z) (dom : Ten2 ℝ → Prop) (ψ : Ten2 ℝ → ℝ),
    IsGradient dom ψ (Material.Grad mat z) →
    IsGradient (fun F => F.det ≠ 0 ∧ dom (dilatational (cauchyGreen F)))
      (fun F => ψ (dilatational (cauchyGreen F))) (SpaceObj.Grad (Dilatational.obj {} mat) z)

/-- C29 (gradient) at those `F` where the material's gradient at `I3^(1/3) C` (the tensor that is
handed to it) has the same trace as at `I3^(1/3) I`; in particular for orthogonal `F` and for
materials with a constant gradient.  Missing: all other `F`; there the claim is false, see
`C29_gradient_false`. -/
theorem C29_gradient_partial (mat : Material ℝ Z μ) (z : Z) (dom : Ten2 ℝ → Prop) (ψ : Ten2 ℝ → ℝ)
    (h : IsGradient dom ψ (Material.Grad mat z)) (F : ℝ → Ten2 ℝ) (F' : Ten2 ℝ) (t₀ : ℝ) (P : Ten2 ℝ)
    (hF : ∀ᶠ t in 𝓝 t₀, (F t).det ≠ 0 ∧ dom (dilatational (cauchyGreen (F t)))) (hm : Moves F F' t₀)
    (hP : SpaceObj.Grad (Dilatational.obj {} mat) z (F t₀) P)
    (hsame : ∀ G, Material.Grad mat z ((cauchyGreen (F t₀)).det ^ (1 / 3 : ℝ) • cauchyGreen (F t₀)) G →
      ∃ G', Material.Grad mat z (dilatational (cauchyGreen (F t₀))) G' ∧ G'.trace = G.trace) :
    HasDerivAt (fun t => ψ (dilatational (cauchyGreen (F t)))) (contract22 P F') t₀ := by
  have h0 := hF.self_of_nhds
  obtain ⟨G, hG, rfl⟩ := (Dilatational.grad_iff _ _ h0.1).1 hP
  obtain ⟨G', hG', htr⟩ := hsame G hG
  have h1 := h _ _ t₀ G' (hF.mono fun t ht => ht.2) (moves_dilatational (symInv_cauchyGreen h0.1)
    (det_cauchyGreen_pos h0.1) (moves_cauchyGreen hm)) hG'
  refine h1.congr_deriv ?_
  rw [contract22_mul _ _ (dilS_symm (cauchyGreen_symm _) G), contract22_smul_right, contract22_comm G',
    contract22_one_left, htr]
  simp only [dilS, contract22_smul_left, Matrix.trace_smul, smul_eq_mul]
  ring

/-- C29 (hessian) for materials whose gradient has a constant trace.  Missing: all other
materials. -/
theorem C29_hessian_partial (mat : Material ℝ Z μ) (z : Z) (k : ℝ)
    (hk : ∀ C G, SymInv C → Material.Grad mat z C G → G.trace = k)
    (hH : ∀ C H, SymInv C → Material.Hess mat z C H → contract22 1 (contract42 H 1) = 0) :
    IsHessian (fun F => F.det ≠ 0)
      (SpaceObj.Grad (Dilatational.obj {} mat) z) (SpaceObj.Hess (Dilatational.obj {} mat) z) := by
  intro F F' t₀ P A hF hm hP hA
  have h0 := hF.self_of_nhds
  obtain ⟨G₀, H, hG₀, hHH, rfl⟩ := Dilatational.hess_elim h0 hA
  have hco : ∀ F : Ten2 ℝ, F.det ≠ 0 → SymInv ((cauchyGreen F).det ^ (1 / 3 : ℝ) • cauchyGreen F) := by
    intro F hF
    have := det_cauchyGreen_pos hF
    exact ⟨(cauchyGreen_symm _).smul _, by rw [Matrix.det_smul]; positivity⟩
  have htr₀ := hk _ _ (hco _ h0) hG₀
  have hC := moves_cauchyGreen hm
  have hC0 := symInv_cauchyGreen h0
  have hd0 := det_cauchyGreen_pos h0
  -- a constant tensor with the same trace
  have hS : ∀ C G : Ten2 ℝ, G.trace = k → dilS C G = dilS C ((k / 3) • 1) := by
    intro C G hG
    simp only [dilS, Matrix.trace_smul, hG, Matrix.trace_one, smul_eq_mul]
    congr 2
    simp
  have h2 := moves_dilS hC0 hd0 hC (Moves.const (t₀ := t₀) ((k / 3) • (1 : Ten2 ℝ)))
  have hP' : ∀ᶠ t in 𝓝 t₀, P t = F t * dilS (cauchyGreen (F t)) ((k / 3) • 1) := by
    filter_upwards [hF, hP] with t h3 h4
    obtain ⟨G, hG, h5⟩ := (Dilatational.grad_iff _ _ h3).1 h4
    rw [h5, hS _ _ (hk _ _ (hco _ h3) hG)]
  have h3 := (moves_piola hm h2).congr hP'
  have hi : ((cauchyGreen (F t₀))⁻¹).IsSymm := by
    rw [Matrix.IsSymm, Matrix.transpose_nonsing_inv, hC0.1.eq]
  intro i j
  refine (h3 i j).congr_deriv ?_
  have e : contract42 (piolaT (F t₀) (dilS (cauchyGreen (F t₀)) G₀)
      (Dilatational.c4T (cauchyGreen (F t₀)) G₀ H)) F' = _ :=
    contract42_piola (F t₀) F' _ (dilS_symm hC0.1 G₀) (c4T_minor hC0.1 G₀ H)
  rw [e, hS _ G₀ htr₀]
  congr 2
  unfold Dilatational.c4T
  rw [hH _ _ (hco _ h0) hHH]
  rw [contract42_sub, contract42_smul, contract42_smul, contract42_dyad,
    contract42_dyadSym_self hi (velocity_symm _ _)]
  simp only [Matrix.trace_smul, htr₀, Matrix.trace_one, Matrix.trace_zero, smul_eq_mul]
  refine congrFun (congrFun (congrArg _ (congrArg _ ?_)) i) j
  ext i j
  simp
  ring

/-- The hypotheses of `C29_hessian_partial` are met by a Neo-Hookean material. -/
example : ∀ C G, SymInv C → Material.Grad (Invariants.material (TOD.init 2 0 0 0 0 false).mat) () C G →
    G.trace = 6 := by
  intro C G hC hG
  obtain ⟨g, hg, rfl⟩ := (Invariants.grad_iff _ _ hC).1 hG
  rw [TOD.grad_iff] at hg
  subst hg
  simp [invGradT, TOD.init, Matrix.trace_one]
  norm_num

/-- ... and so is the second one. -/
example : ∀ C H, SymInv C → Material.Hess (Invariants.material (TOD.init 2 0 0 0 0 false).mat) () C H →
    contract22 1 (contract42 H 1) = 0 := by
  intro C H hC hH
  have hm : Moves (fun t => C + (t - 0) • (1 : Ten2 ℝ)) 1 0 := Moves.add_const_smul C 1
  have h0 : C + ((0 : ℝ) - 0) • (1 : Ten2 ℝ) = C := by simp
  have hdet : ∀ᶠ t : ℝ in 𝓝 0, (C + (t - 0) • (1 : Ten2 ℝ)).det ≠ 0 :=
    hm.det.continuousAt.eventually_ne (by rw [h0]; exact hC.2)
  have hsi : ∀ᶠ t : ℝ in 𝓝 0, SymInv (C + (t - 0) • (1 : Ten2 ℝ)) := hdet.mono fun t ht =>
    ⟨hC.1.add (Matrix.isSymm_one.smul _), ht⟩
  have hG : ∀ᶠ t : ℝ in 𝓝 0, Material.Grad (Invariants.material (TOD.init 2 0 0 0 0 false).mat) ()
      (C + (t - 0) • (1 : Ten2 ℝ)) ((2 : ℝ) • 1) := by
    filter_upwards [hsi] with t ht
    rw [Invariants.grad_iff _ _ ht]
    refine ⟨_, (TOD.grad_iff ..).2 rfl, ?_⟩
    simp [invGradT, TOD.init]
  have h := C17_hessian_partial _ () (fun _ => True) (C10_hessian 2 0 0 0 0 false ())
    (C10_statevars 2 0 0 0 0 false ()) (by
      intro I1 I2 I3 s r hr
      simp only [Returns, TOD.mat, PyM.lift_run, TOD.hessian_eq, Except.ok.injEq] at hr
      rw [← hr]; rfl) _ _ 0 _ H (hsi.mono fun t ht => ⟨ht, trivial⟩) hm hG (by rw [h0]; exact hH)
  have hz : contract42 H 1 = 0 := by
    ext i j
    exact (h i j).unique (hasDerivAt_const _ _)
  rw [hz]
  simp [contract22]

/-- C29 fails: for `ψ = ½ C:C` and `F = 2 I` the returned stress is `64 I` although the
derivative of the energy of the dilatational part is that of `16 I`. -/
theorem C29_gradient_false : ¬ C29_Full := by
  intro hfull
  have hm : Moves (fun t => ((2 : ℝ) • (1 : Ten2 ℝ)) + (t - 0) • (1 : Ten2 ℝ)) 1 0 :=
    Moves.add_const_smul _ 1
  have hF : ∀ t : ℝ, ((2 : ℝ) • (1 : Ten2 ℝ)) + (t - 0) • (1 : Ten2 ℝ) = (2 + t) • 1 := by
    intro t; rw [add_smul]; simp
  simp only [hF] at hm
  have hev : ∀ᶠ t : ℝ in 𝓝 0, t ∈ Set.Ioi (-2 : ℝ) := Ioi_mem_nhds (by norm_num)
  have hdet : ∀ t : ℝ, t ∈ Set.Ioi (-2 : ℝ) → ((2 + t) • (1 : Ten2 ℝ)).det ≠ 0 := by
    intro t ht
    have : 0 < 2 + t := by have := Set.mem_Ioi.1 ht; linarith
    rw [Matrix.det_smul]; simp; positivity
  have hC : ∀ t : ℝ, cauchyGreen ((2 + t) • (1 : Ten2 ℝ)) = (2 + t) ^ 2 • 1 := by
    intro t; simp [cauchyGreen, smul_smul, sq]
  have hI3 : ∀ t : ℝ, t ∈ Set.Ioi (-2 : ℝ) →
      (cauchyGreen ((2 + t) • (1 : Ten2 ℝ))).det ^ (1 / 3 : ℝ) = (2 + t) ^ 2 := by
    intro t ht
    have h0 : 0 ≤ (2 + t) ^ 2 := sq_nonneg _
    rw [hC, Matrix.det_smul, Matrix.det_one, mul_one, Fintype.card_fin,
      ← Real.rpow_natCast ((2 + t) ^ 2) 3, ← Real.rpow_mul h0]
    norm_num
  have hP : SpaceObj.Grad (Dilatational.obj {} (squareMat 1)) () ((2 + (0 : ℝ)) • (1 : Ten2 ℝ))
      ((64 : ℝ) • 1) := by
    rw [Dilatational.grad_iff _ _ (hdet 0 (by norm_num))]
    refine ⟨_, (squareMat_grad 1 ((cauchyGreen_symm _).smul _) _).2 rfl, ?_⟩
    rw [dilS, hI3 0 (by norm_num), hC]
    have : (((2 + (0 : ℝ)) ^ 2 • (1 : Ten2 ℝ)))⁻¹ = (1 / 4 : ℝ) • 1 :=
      Matrix.inv_eq_right_inv (by rw [Matrix.smul_mul, Matrix.mul_smul, smul_smul]; norm_num)
    rw [this]
    simp only [Matrix.trace_smul, Matrix.trace_one, smul_eq_mul, Matrix.smul_mul, Matrix.mul_smul,
      Matrix.one_mul, smul_smul]
    norm_num
  have key := hfull Unit Unit (squareMat 1) () _ _ (squareMat_derivatives 1).1 _ _ 0 _
    (hev.mono fun t ht => ⟨hdet t ht, by
      rw [dilatational]; exact Matrix.isSymm_one.smul _⟩) hm hP
  have heq : (fun t : ℝ => 1 / 2 * contract22 (dilatational (cauchyGreen ((2 + t) • (1 : Ten2 ℝ))))
      (dilatational (cauchyGreen ((2 + t) • (1 : Ten2 ℝ))))) =ᶠ[𝓝 0] fun t => 3 / 2 * (2 + t) ^ 4 := by
    filter_upwards [hev] with t ht
    rw [dilatational, hI3 t ht, contract22_smul_left, contract22_smul_right, contract22_one_left,
      Matrix.trace_one]
    simp
    ring
  have htrue : HasDerivAt (fun t : ℝ => 3 / 2 * (2 + t) ^ 4) 48 0 := by
    refine ((((hasDerivAt_id (0 : ℝ)).const_add 2).pow 4).const_mul (3 / 2)).congr_deriv ?_
    norm_num
  have h := (htrue.congr_of_eventuallyEq heq).unique key
  rw [contract22_smul_left, contract22_one_left, Matrix.trace_one] at h
  norm_num at h

end Props
