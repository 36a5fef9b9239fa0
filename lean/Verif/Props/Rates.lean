import Verif.Spec.Rates
import Verif.Props.EndToEnd
import Verif.Props.Balance
import Verif.Props.Symmetry
import Verif.Props.Superposition

/-! # Property C86: the elasticity with deformed area is the tangent of the objective stress rates -/

namespace Props
open Spec Hel Matrix Filter Topology

variable {Z μ : Type}

/-- `J⁻¹ F_iI F_jJ F_kK F_lL C_IJKL` -/
noncomputable def push4 (F : Ten2 ℝ) (C : Ten4 ℝ) (J : ℝ) : Ten4 ℝ := fun i j k l =>
  J⁻¹ * ∑ I, ∑ K, ∑ M, ∑ L, F i I * F k K * F j M * F l L * C I M K L

theorem pushArea4_piolaT (F S : Ten2 ℝ) (C : Ten4 ℝ) (d : ℝ) :
    withoutStress (pushArea4 F (piolaT F S C) d) (d⁻¹ • (F * S * Fᵀ)) = push4 F C d := by
  ext i j k l
  simp only [withoutStress, pushArea4, piolaT, push4, dyadIK, Matrix.smul_apply, Matrix.mul_apply, Matrix.transpose_apply, smul_eq_mul,
    Fin.sum_univ_three]
  ring

theorem push4_minor {F : Ten2 ℝ} {C : Ten4 ℝ} {d : ℝ} (h : MinorSymm C) : MinorSymm (push4 F C d) := by
  constructor
  · intro i j k l
    simp only [push4]
    congr 1
    rw [Finset.sum_comm]
    conv_rhs => rw [Finset.sum_comm]
    refine Finset.sum_congr rfl fun K _ => ?_
    rw [Finset.sum_comm]
    refine Finset.sum_congr rfl fun I _ => Finset.sum_congr rfl fun M _ => Finset.sum_congr rfl fun L _ => ?_
    rw [h.1 M I K L]
    ring
  · intro i j k l
    simp only [push4]
    congr 1
    refine Finset.sum_congr rfl fun I _ => ?_
    rw [Finset.sum_comm]
    conv_rhs => rw [Finset.sum_comm]
    refine Finset.sum_congr rfl fun M _ => ?_
    rw [Finset.sum_comm]
    refine Finset.sum_congr rfl fun K _ => Finset.sum_congr rfl fun L _ => ?_
    rw [h.2 I M L K]
    ring

/-- both calls with the area in the deformed configuration, from the same object state -/
theorem spatial_of {w : Space} {mat : Material ℝ Z μ} {z : Z} {s : w.St μ} {F : Ten2 ℝ} {a : Ten4 ℝ}
    (h : Returns ((w.obj { area := none } mat).hessian F z) s (.full a)) :
    ∃ (z' : Z) (P : Ten2 ℝ) (A : Ten4 ℝ) (C : Ten4 ℝ), Returns ((w.obj {} mat).gradient F z) s (.full P, z') ∧
      Returns ((w.obj { area := none } mat).gradient F z) s (.full (|F.det|⁻¹ • (P * Fᵀ)), z') ∧
      Returns ((w.obj {} mat).hessian F z) s (.full A) ∧ a = pushArea4 F A |F.det| ∧
      MinorSymm C ∧ withoutStress a (|F.det|⁻¹ • (P * Fᵀ)) = push4 F C |F.det| := by
  obtain ⟨g, z', m, k, h1, h2, h3⟩ := (Space.returns_hessian ..).1 h
  rw [piolaElasticity_area, detOf_getD, sqrt_det_cauchyGreen] at h3
  obtain rfl := Elasticity.full.inj h3
  have hr : Returns (mat.gradient (arg w F) z) (w.inner s) (g, z') := by rw [Returns, h1]
  refine ⟨z', F * T2 (stressOf w F g), piolaT F (T2 (stressOf w F g)) (astensor4 (elastOf w F g k)), astensor4 (elastOf w F g k),
    (Space.returns_gradient ..).2 ⟨g, hr, (piolaStress_default ..).symm⟩,
    (Space.returns_gradient ..).2 ⟨g, hr, ?_⟩,
    (Space.returns_hessian ..).2 ⟨g, z', m, k, h1, h2, (piolaElasticity_default ..).symm⟩, rfl, (stores4_astensor4 _).minor,
    pushArea4_piolaT ..⟩
  rw [piolaStress_area, detOf_getD, sqrt_det_cauchyGreen]
  rfl

theorem spatial_grad {w : Space} {mat : Material ℝ Z μ} {z : Z} {F σ : Ten2 ℝ}
    (h : SpaceObj.Grad (w.obj { area := none } mat) z F σ) :
    ∃ P, SpaceObj.Grad (w.obj {} mat) z F P ∧ σ = |F.det|⁻¹ • (P * Fᵀ) := by
  obtain ⟨s, z', h⟩ := h
  obtain ⟨g, h1, h2⟩ := (Space.returns_gradient ..).1 h
  rw [piolaStress_area, detOf_getD, sqrt_det_cauchyGreen] at h2
  exact ⟨_, ⟨s, z', (Space.returns_gradient ..).2 ⟨g, h1, (piolaStress_default ..).symm⟩⟩, Stress.full.inj h2⟩

/-- The elasticity returned with the area in the deformed configuration is a minor-symmetric tensor plus `δ_ik σ_jl`, where
`σ` is the Cauchy stress returned by the same object; the tensor is major-symmetric if the hessian of the material is. -/
theorem C86_symmetries (w : Space) (mat : Material ℝ Z μ) (z z' : Z) (s : w.St μ) {F σ : Ten2 ℝ} {a : Ten4 ℝ}
    (hσ : Returns ((w.obj { area := none } mat).gradient F z) s (.full σ, z'))
    (ha : Returns ((w.obj { area := none } mat).hessian F z) s (.full a)) :
    MinorSymm (withoutStress a σ) ∧
      ((∀ C H, Material.Hess mat z C H → MajorSymm H) → MajorSymm (withoutStress a σ)) := by
  obtain ⟨z'', P, A, C, h1, h2, h3, h4, h5, h6⟩ := spatial_of ha
  have e : σ = |F.det|⁻¹ • (P * Fᵀ) := by
    rw [Returns, hσ] at h2
    exact Stress.full.inj (congrArg Prod.fst (Except.ok.inj h2))
  refine ⟨by rw [e, h6]; exact push4_minor h5, fun hm i j k l => ?_⟩
  have h7 := (C23_spaces w _ mat z s F _ hm ha).1 a rfl i j k l
  obtain ⟨P', -, hs⟩ := spatial_grad ⟨s, z', hσ⟩
  have h8 : σ.IsSymm := by
    have h9 := C33_symmetric w mat z z'' s h1
    rw [e]; exact h9.smul _
  simp only [withoutStress, h7, Matrix.one_apply, eq_comm (a := k) (b := i), h8.apply l j]

theorem contract42_pushArea4 (F L : Ten2 ℝ) (A : Ten4 ℝ) (d : ℝ) :
    contract42 (pushArea4 F A d) L = d⁻¹ • (contract42 A (L * F) * Fᵀ) := by
  ext i j
  simp only [contract42, pushArea4, Matrix.smul_apply, Matrix.mul_apply, Matrix.transpose_apply, smul_eq_mul, Fin.sum_univ_three]
  ring

theorem contract42_withoutStress (a : Ten4 ℝ) (σ L : Ten2 ℝ) (hs : σ.IsSymm) :
    contract42 (withoutStress a σ) L = contract42 a L - L * σ := by
  ext i j
  have h : ∀ x y, σ x y = σ y x := fun x y => hs.apply y x
  simp only [contract42, withoutStress, Matrix.sub_apply, Matrix.mul_apply, Fin.sum_univ_three]
  have h1 := h 1 0
  have h2 := h 2 0
  have h3 := h 2 1
  fin_cases i <;> fin_cases j <;> simp [Matrix.one_apply, h1, h2, h3] <;> ring

theorem contract42_stretching {c : Ten4 ℝ} (h : MinorSymm c) (L : Ten2 ℝ) : contract42 c (stretching L) = contract42 c L := by
  ext i j
  simp only [contract42, stretching, Matrix.smul_apply, Matrix.add_apply, Matrix.transpose_apply, smul_eq_mul, Fin.sum_univ_three]
  rw [h.2 i j 1 0, h.2 i j 2 0, h.2 i j 2 1]
  ring

theorem hasDerivAt_det {F : ℝ → Ten2 ℝ} {L : Ten2 ℝ} {t₀ : ℝ} (hm : Moves F (L * F t₀) t₀) :
    HasDerivAt (fun t => (F t).det) ((F t₀).det * L.trace) t₀ := by
  refine hm.det.congr_deriv ?_
  rw [← Matrix.mul_assoc, Matrix.trace_mul_comm, ← Matrix.mul_assoc, Matrix.mul_adjugate, Matrix.smul_mul, Matrix.one_mul, Matrix.trace_smul,
    smul_eq_mul]

theorem hasDerivAt_abs_det {F : ℝ → Ten2 ℝ} {L : Ten2 ℝ} {t₀ : ℝ} (hF : (F t₀).det ≠ 0) (hm : Moves F (L * F t₀) t₀) :
    HasDerivAt (fun t => |(F t).det|) (|(F t₀).det| * L.trace) t₀ := by
  have h := hasDerivAt_det hm
  rcases lt_or_gt_of_ne hF with h0 | h0
  · have := h.neg
    refine (this.congr_of_eventuallyEq ((h.continuousAt.eventually_lt_const h0).mono fun t ht => abs_of_neg ht)).congr_deriv ?_
    rw [abs_of_neg h0]; ring
  · refine (h.congr_of_eventuallyEq ((h.continuousAt.eventually_const_lt h0).mono fun t ht => abs_of_pos ht)).congr_deriv ?_
    rw [abs_of_pos h0]

/-- Along every motion with velocity gradient `L` the Cauchy stress is differentiable, and the returned elasticity without the
initial stress maps the stretching to the Truesdell rate of the Cauchy stress, whenever the elasticity of the default
configuration is the derivative of the stress (C26, C28, C29). -/
theorem C86_truesdell (w : Space) (mat : Material ℝ Z μ) (z : Z) (dom Q : Ten2 ℝ → Prop)
    (h : IsHessian dom (SpaceObj.Grad (w.obj {} mat) z) fun F A => Q F ∧ SpaceObj.Hess (w.obj {} mat) z F A)
    {F σ : ℝ → Ten2 ℝ} {L : Ten2 ℝ} {t₀ : ℝ} {a : Ten4 ℝ} (hd : ∀ᶠ t in 𝓝 t₀, dom (F t)) (hQ : Q (F t₀)) (hF : (F t₀).det ≠ 0)
    (hm : Moves F (L * F t₀) t₀) (hσ : ∀ᶠ t in 𝓝 t₀, SpaceObj.Grad (w.obj { area := none } mat) z (F t) (σ t))
    (ha : SpaceObj.Hess (w.obj { area := none } mat) z (F t₀) a) :
    ∃ σ', Moves σ σ' t₀ ∧ truesdell L (σ t₀) σ' = contract42 (withoutStress a (σ t₀)) (stretching L) := by
  obtain ⟨s, ha⟩ := ha
  obtain ⟨z', P₀, A, C, h1, -, h3, rfl, h5, h6⟩ := spatial_of ha
  obtain ⟨P, hP⟩ := (hσ.mono fun t ht => spatial_grad ht).choice
  have hu : P t₀ = P₀ := h.unique hd.self_of_nhds hP.self_of_nhds.1 ⟨s, z', h1⟩ ⟨hQ, s, h3⟩
  have hσ0 : σ t₀ = |(F t₀).det|⁻¹ • (P t₀ * (F t₀)ᵀ) := hP.self_of_nhds.2
  have hP' : Moves P (contract42 A (L * F t₀)) t₀ := h F _ t₀ P A hd hm (hP.mono fun t ht => ht.1) ⟨hQ, s, h3⟩
  have hJ := (hasDerivAt_abs_det hF hm).inv (abs_ne_zero.2 hF)
  have hM := (Moves.smul hJ (hP'.mul hm.transpose)).congr (Y := σ) (hP.mono fun t ht => ht.2)
  refine ⟨_, hM, ?_⟩
  have hs : (σ t₀).IsSymm := by
    rw [hσ0, hu]
    exact (C33_symmetric w mat z z' s h1).smul _
  rw [contract42_stretching (by rw [hσ0, hu, h6]; exact push4_minor h5), contract42_withoutStress _ _ _ hs, contract42_pushArea4,
    truesdell]
  have e1 : (-(|(F t₀).det| * L.trace) / |(F t₀).det| ^ 2) • (P t₀ * (F t₀)ᵀ) = -(L.trace • σ t₀) := by
    rw [hσ0, smul_smul, ← neg_smul]
    congr 1
    have := abs_ne_zero.2 hF
    field_simp
  have e2 : |(F t₀).det|⁻¹ • (P t₀ * (L * F t₀)ᵀ) = σ t₀ * Lᵀ := by
    rw [hσ0, Matrix.transpose_mul, ← Matrix.mul_assoc, Matrix.smul_mul]
  rw [smul_add, Pi.inv_apply, e2, e1]
  abel

/-- A rigid spin of the deformed body only turns the Cauchy stress: `dσ/dt = W σ - σ W`. -/
theorem C86_spin (w : Space) (mat : Material ℝ Z μ) (z : Z) (dom Q : Ten2 ℝ → Prop)
    (h : IsHessian dom (SpaceObj.Grad (w.obj {} mat) z) fun F A => Q F ∧ SpaceObj.Hess (w.obj {} mat) z F A)
    {F σ : ℝ → Ten2 ℝ} {W : Ten2 ℝ} (hW : Wᵀ = -W) {t₀ : ℝ} {a : Ten4 ℝ} (hd : ∀ᶠ t in 𝓝 t₀, dom (F t)) (hQ : Q (F t₀))
    (hF : (F t₀).det ≠ 0)
    (hm : Moves F (W * F t₀) t₀) (hσ : ∀ᶠ t in 𝓝 t₀, SpaceObj.Grad (w.obj { area := none } mat) z (F t) (σ t))
    (ha : SpaceObj.Hess (w.obj { area := none } mat) z (F t₀) a) : Moves σ (W * σ t₀ - σ t₀ * W) t₀ := by
  obtain ⟨σ', h1, h2⟩ := C86_truesdell w mat z dom Q h hd hQ hF hm hσ ha
  have e0 : stretching W = 0 := by rw [stretching, hW, add_neg_cancel, smul_zero]
  have e1 : contract42 (withoutStress a (σ t₀)) (0 : Ten2 ℝ) = 0 := by
    ext i j; simp [contract42]
  have e2 : W.trace = 0 := by
    have := congrArg Matrix.trace hW
    rw [Matrix.trace_transpose, Matrix.trace_neg] at this
    linarith
  rw [e0, e1, truesdell, e2, zero_smul, add_zero, hW, Matrix.mul_neg, sub_neg_eq_add] at h2
  have : σ' = W * σ t₀ - σ t₀ * W := by rw [← sub_eq_zero, ← h2]; abel
  exact this ▸ h1

/-- The Jaumann rate of the Kirchhoff stress `J σ`: it is `J` times the tangent `jaumannTangent` of the stretching. -/
theorem C86_jaumann (w : Space) (mat : Material ℝ Z μ) (z : Z) (dom Q : Ten2 ℝ → Prop)
    (h : IsHessian dom (SpaceObj.Grad (w.obj {} mat) z) fun F A => Q F ∧ SpaceObj.Hess (w.obj {} mat) z F A)
    {F σ : ℝ → Ten2 ℝ} {L : Ten2 ℝ} {t₀ : ℝ} {a : Ten4 ℝ} (hd : ∀ᶠ t in 𝓝 t₀, dom (F t)) (hQ : Q (F t₀)) (hF : (F t₀).det ≠ 0)
    (hm : Moves F (L * F t₀) t₀) (hσ : ∀ᶠ t in 𝓝 t₀, SpaceObj.Grad (w.obj { area := none } mat) z (F t) (σ t))
    (ha : SpaceObj.Hess (w.obj { area := none } mat) z (F t₀) a) :
    ∃ τ', Moves (fun t => (F t).det • σ t) τ' t₀ ∧ jaumann L ((F t₀).det • σ t₀) τ' =
      (F t₀).det • contract42 (jaumannTangent (withoutStress a (σ t₀)) (σ t₀)) (stretching L) := by
  obtain ⟨σ', h1, h2⟩ := C86_truesdell w mat z dom Q h hd hQ hF hm hσ ha
  refine ⟨_, Moves.smul (hasDerivAt_det hm) h1, ?_⟩
  have hs : (σ t₀).IsSymm := by
    obtain ⟨s, z', hg⟩ := hσ.self_of_nhds
    obtain ⟨g, h1, h2⟩ := (Space.returns_gradient ..).1 hg
    rw [piolaStress_area] at h2
    rw [Stress.full.inj h2]
    refine Matrix.IsSymm.smul ?_ _
    rw [Matrix.IsSymm, Matrix.transpose_mul, Matrix.transpose_transpose, Matrix.transpose_mul,
      (T2_symm (stressOf w (F t₀) g)).eq, Matrix.mul_assoc]
  have e : contract42 (jaumannTangent (withoutStress a (σ t₀)) (σ t₀)) (stretching L) =
      contract42 (withoutStress a (σ t₀)) (stretching L) + stretching L * σ t₀ + σ t₀ * stretching L := by
    generalize withoutStress a (σ t₀) = c
    generalize hS : σ t₀ = S at hs
    have hs' : ∀ x y, S x y = S y x := fun x y => hs.apply y x
    have hD : ∀ x y, stretching L x y = stretching L y x := fun x y => by
      simp [stretching, add_comm]
    generalize stretching L = D at hD
    have a1 := hs' 1 0
    have a2 := hs' 2 0
    have a3 := hs' 2 1
    have b1 := hD 1 0
    have b2 := hD 2 0
    have b3 := hD 2 1
    ext i j
    simp only [contract42, jaumannTangent, Matrix.add_apply, Matrix.mul_apply, Fin.sum_univ_three]
    fin_cases i <;> fin_cases j <;> simp [Matrix.one_apply, a1, a2, a3, b1, b2, b3] <;> ring
  rw [e, ← h2, jaumann, truesdell]
  ext i j
  simp only [spin, stretching, Matrix.smul_apply, Matrix.add_apply, Matrix.sub_apply, Matrix.mul_apply, Matrix.transpose_apply, smul_eq_mul,
    Fin.sum_univ_three]
  ring

/-- Third-order-deformation materials on the deformation space, all motions: the calls return, and they return the tangent of
the Truesdell rate. -/
theorem C86_third_order (C10 C01 C11 C20 C30 : ℝ) (strain : Bool) (z : Z) {F : ℝ → Ten2 ℝ} {L : Ten2 ℝ} {t₀ : ℝ}
    (hF : ∀ᶠ t in 𝓝 t₀, (F t).det ≠ 0) (hm : Moves F (L * F t₀) t₀) :
    ∃ (σ : ℝ → Ten2 ℝ) (a : Ten4 ℝ), (∀ t, SpaceObj.Grad
        (Space.deformation.obj { area := none } (Invariants.material (TOD.init C10 C01 C11 C20 C30 strain).mat)) z (F t) (σ t)) ∧
      SpaceObj.Hess (Space.deformation.obj { area := none } (Invariants.material (TOD.init C10 C01 C11 C20 C30 strain).mat)) z (F t₀) a ∧
      ∃ σ', Moves σ σ' t₀ ∧ truesdell L (σ t₀) σ' = contract42 (withoutStress a (σ t₀)) (stretching L) := by
  set mat : Material ℝ Z _ := Invariants.material (TOD.init C10 C01 C11 C20 C30 strain).mat with hmat
  have hr : ∀ F : Ten2 ℝ, ∃ g z' m', mat.gradient (rightCauchyGreen F) z { material := () } = (.ok (g, z'), m') := by
    intro F
    change ∃ g z' m', Invariants.gradient _ _ _ _ = (.ok (g, z'), m')
    rw [Invariants.gradient_run]
    simp only [TOD.mat, PyM.lift_run, TOD.gradient_eq]
    exact ⟨_, _, _, rfl⟩
  have hg : ∀ F : Ten2 ℝ, ∃ σ, SpaceObj.Grad (Space.deformation.obj { area := none } mat) z F σ := by
    intro F
    obtain ⟨g, z', m', h⟩ := hr F
    exact ⟨_, { material := { material := () } }, z', (Deformation.returns_gradient ..).2 ⟨g, congrArg Prod.fst h, (piolaStress_area ..).symm⟩⟩
  have hh : ∀ F : Ten2 ℝ, ∃ a, SpaceObj.Hess (Space.deformation.obj { area := none } mat) z F a := by
    intro F
    obtain ⟨g, z', m', h⟩ := hr F
    obtain ⟨k, hk⟩ := tod_hess_total (TOD.init C10 C01 C11 C20 C30 strain) (rightCauchyGreen F) z m'
    exact ⟨_, { material := { material := () } }, (Deformation.returns_hessian ..).2 ⟨g, z', m', k, h, hk, (piolaElasticity_area ..).symm⟩⟩
  choose σ hσ using fun t => hg (F t)
  obtain ⟨a, ha⟩ := hh (F t₀)
  refine ⟨σ, a, hσ, ha, ?_⟩
  have h := C26_third_order C10 C01 C11 C20 C30 strain z
  refine C86_truesdell .deformation mat z (fun F => F.det ≠ 0) (fun _ => True) ?_ hF trivial hF.self_of_nhds hm (.of_forall hσ) ha
  intro X X' t G H h1 h2 h3 h4
  exact h X X' t G H h1 h2 h3 h4.2

/-- Ogden materials on the deformation space, at deformations with separated principal stretches. -/
theorem C86_ogden (lapack : Eigh) (hl : EighValid lapack) (mu alpha : List ℝ) (hα : ∀ p ∈ mu.zip alpha, p.2 ≠ 0) (z : Z)
    {F σ : ℝ → Ten2 ℝ} {L : Ten2 ℝ} {t₀ : ℝ} {a : Ten4 ℝ} (hF : ∀ᶠ t in 𝓝 t₀, (F t).det ≠ 0) (hs : Separated (cauchyGreen (F t₀)))
    (hm : Moves F (L * F t₀) t₀)
    (hσ : ∀ᶠ t in 𝓝 t₀, SpaceObj.Grad (Space.deformation.obj { area := none } (Stretches.material lapack (Ogden.mat ⟨mu, alpha⟩))) z
      (F t) (σ t))
    (ha : SpaceObj.Hess (Space.deformation.obj { area := none } (Stretches.material lapack (Ogden.mat ⟨mu, alpha⟩))) z (F t₀) a) :
    ∃ σ', Moves σ σ' t₀ ∧ truesdell L (σ t₀) σ' = contract42 (withoutStress a (σ t₀)) (stretching L) :=
  C86_truesdell .deformation _ z (fun F => F.det ≠ 0) (fun F => Separated (cauchyGreen F)) (C26_ogden lapack hl mu alpha z hα) hF hs
    hF.self_of_nhds hm hσ ha

/-- A motion which meets the hypotheses of `C86_third_order`: simple shear with a constant rate. -/
example : ∃ (F : ℝ → Ten2 ℝ) (L : Ten2 ℝ), L ≠ 0 ∧ (∀ t, (F t).det ≠ 0) ∧ ∀ t, Moves F (L * F t) t := by
  refine ⟨fun t => !![1, t, 0; 0, 1, 0; 0, 0, 1], !![0, 1, 0; 0, 0, 0; 0, 0, 0], ?_, ?_, ?_⟩
  · intro h; have := congrFun (congrFun h 0) 1; simp at this
  · intro t; simp [Matrix.det_fin_three]
  · intro t i j
    fin_cases i <;> fin_cases j <;> simp [hasDerivAt_const, hasDerivAt_id']

end Props
