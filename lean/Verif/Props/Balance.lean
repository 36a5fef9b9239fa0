import Verif.Proofs.SpaceUniform
import Verif.Props.Spaces

/-! # Properties C30-C34: balance laws, objectivity and configurations of the spaces -/

namespace Props
open Spec Hel Matrix

variable {Z μ : Type}

theorem space_grad {w : Space} {mat : Material ℝ Z μ} {z : Z} {F P : Ten2 ℝ} {s : w.St μ} {z' : Z}
    (h : Returns ((w.obj {} mat).gradient F z) s (.full P, z')) :
    ∃ g, Returns (mat.gradient (arg w F) z) (w.inner s) (g, z') ∧ P = F * T2 (stressOf w F g) := by
  obtain ⟨g, h1, h2⟩ := (Space.returns_gradient ..).1 h
  rw [piolaStress_default] at h2
  exact ⟨g, h1, Stress.full.inj h2⟩

theorem sqrt_det_cauchyGreen (F : Ten2 ℝ) : √(cauchyGreen F).det = |F.det| := by
  rw [det_cauchyGreen, Real.sqrt_sq_eq_abs]

/-! ## C30 -/

/-- The Cauchy stress of the distortional space is trace-free. -/
theorem C30_deviatoric (mat : Material ℝ Z μ) (z z' : Z) (s : Space.distortional.St μ) {F P : Ten2 ℝ}
    (hF : F.det ≠ 0)
    (h : Returns ((Space.distortional.obj {} mat).gradient F z) s (.full P, z')) :
    (pushArea F P F.det).trace = 0 := by
  obtain ⟨g, -, rfl⟩ := space_grad h
  have e : T2 (stressOf .distortional F g) = distS (cauchyGreen F) (T2 g) := Distortional.T2_st hF g
  have hu : IsUnit (cauchyGreen F).det := isUnit_iff_ne_zero.2 (det_cauchyGreen_pos hF).ne'
  have h1 : ∀ S : Ten2 ℝ, (F * S * Fᵀ).trace = contract22 (cauchyGreen F) S := by
    intro S
    rw [Matrix.trace_mul_comm, ← Matrix.mul_assoc, contract22_eq_trace, (cauchyGreen_symm F).eq, cauchyGreen]
  have h2 : contract22 (cauchyGreen F) (cauchyGreen F)⁻¹ = 3 := by
    rw [contract22_eq_trace, (cauchyGreen_symm F).eq, Matrix.mul_nonsing_inv _ hu, Matrix.trace_one]
    norm_num
  rw [e, pushArea, Matrix.trace_smul, h1, distS, contract22_sub_right, contract22_smul_right,
    contract22_smul_right, h2, contract22_smul_left, contract22_comm (T2 g)]
  simp only [smul_eq_mul]
  ring

/-- The material is only ever asked at unimodular tensors: two materials that agree there
cannot be told apart. -/
theorem C30_unimodular (mat mat' : Material ℝ Z μ) (cfg : SpaceCfg) (z : Z) {F : Ten2 ℝ} (hF : F.det ≠ 0)
    (hg : ∀ c C, Stores c C → C.det = 1 → mat.gradient c z = mat'.gradient c z)
    (hh : ∀ c C, Stores c C → C.det = 1 → mat.hessian c z = mat'.hessian c z) :
    (Space.distortional.obj cfg mat).gradient F z = (Space.distortional.obj cfg mat').gradient F z ∧
    (Space.distortional.obj cfg mat).hessian F z = (Space.distortional.obj cfg mat').hessian F z := by
  have hd := det_cauchyGreen_pos hF
  have h1 : (T2 (Distortional.cu F)).det = 1 := by
    rw [Distortional.T2_cu, unimodular, Matrix.det_smul, Fintype.card_fin, ← Real.rpow_natCast,
      ← Real.rpow_mul hd.le]
    norm_num
    rw [Real.rpow_neg hd.le, Real.rpow_one, inv_mul_cancel₀ hd.ne']
  have h2 := hg _ _ (T2_stores (Distortional.cu F)) h1
  have h3 := hh _ _ (T2_stores (Distortional.cu F)) h1
  exact Distortional.material_congr cfg h2 h3

theorem cauchyGreen_smul (a : ℝ) (F : Ten2 ℝ) : cauchyGreen (a • F) = a ^ 2 • cauchyGreen F := by
  rw [cauchyGreen, cauchyGreen, Matrix.transpose_smul, Matrix.smul_mul, Matrix.mul_smul, smul_smul, sq]

theorem det_rpow_smul {a : ℝ} (ha : a ≠ 0) {C : Ten2 ℝ} (hC : 0 < C.det) :
    ((a ^ 2 • C).det) ^ (-1 / 3 : ℝ) = (a ^ 2)⁻¹ * C.det ^ (-1 / 3 : ℝ) := by
  have h2 : 0 < a ^ 2 := by positivity
  rw [Matrix.det_smul, Fintype.card_fin, Real.mul_rpow (by positivity) hC.le, ← Real.rpow_natCast,
    ← Real.rpow_mul h2.le]
  rw [show (((3 : ℕ) : ℝ) * (-1 / 3)) = -1 by norm_num, Real.rpow_neg h2.le, Real.rpow_one]

theorem unimodular_smul {a : ℝ} (ha : a ≠ 0) {C : Ten2 ℝ} (hC : 0 < C.det) :
    unimodular (a ^ 2 • C) = unimodular C := by
  have h2 : 0 < a ^ 2 := by positivity
  rw [unimodular, unimodular, det_rpow_smul ha hC, smul_smul]
  congr 1
  field_simp

/-- Scaling `F` scales the stress of the distortional space by the inverse factor, and the
material cannot see the difference. -/
theorem C30_scaling (mat : Material ℝ Z μ) (z z' : Z) (s : Space.distortional.St μ) {F P : Ten2 ℝ}
    (hF : F.det ≠ 0) {a : ℝ} (ha : a ≠ 0)
    (h : Returns ((Space.distortional.obj {} mat).gradient F z) s (.full P, z')) :
    Returns ((Space.distortional.obj {} mat).gradient (a • F) z) s (.full (a⁻¹ • P), z') := by
  obtain ⟨g, h1, rfl⟩ := space_grad h
  have haF : (a • F).det ≠ 0 := by rw [Matrix.det_smul]; positivity
  have hC := det_cauchyGreen_pos hF
  have ec : arg .distortional (a • F) = arg .distortional F := by
    apply T2_injective
    change T2 (Distortional.cu (a • F)) = T2 (Distortional.cu F)
    rw [Distortional.T2_cu, Distortional.T2_cu, cauchyGreen_smul, unimodular_smul ha hC]
  refine (Space.returns_gradient ..).2 ⟨g, by rw [ec]; exact h1, ?_⟩
  rw [piolaStress_default]
  have e1 : T2 (stressOf .distortional F g) = distS (cauchyGreen F) (T2 g) := Distortional.T2_st hF g
  have e2 : T2 (stressOf .distortional (a • F) g) = distS (cauchyGreen (a • F)) (T2 g) :=
    Distortional.T2_st haF g
  have hi : (a ^ 2 • cauchyGreen F)⁻¹ = (a ^ 2)⁻¹ • (cauchyGreen F)⁻¹ :=
    Matrix.inv_eq_right_inv (by
      rw [Matrix.smul_mul, Matrix.mul_smul, smul_smul, mul_inv_cancel₀ (by positivity), one_smul,
        Matrix.mul_nonsing_inv _ (isUnit_iff_ne_zero.2 hC.ne')])
  have e3 : distS (cauchyGreen (a • F)) (T2 g) = (a ^ 2)⁻¹ • distS (cauchyGreen F) (T2 g) := by
    rw [cauchyGreen_smul, distS, distS, det_rpow_smul ha hC, hi, smul_sub, smul_smul, smul_smul, smul_smul]
    congr 2
    · ring
    · simp only [contract22_smul_left, contract22_smul_right]
      field_simp
  rw [e1, e2, e3, Matrix.smul_mul, Matrix.mul_smul, smul_smul]
  congr 2
  field_simp

/-- A case with a non-zero stress: `F = 2 diag(2, 1, 1)` and `ψ = ½ C:C`. -/
example : (!![4, 0, 0; 0, 2, 0; 0, 0, 2] : Ten2 ℝ).det ≠ 0 ∧
    ∃ P : Ten2 ℝ, P 0 0 ≠ 0 ∧ Returns ((Space.distortional.obj {} (squareMat 1)).gradient
      !![2, 0, 0; 0, 1, 0; 0, 0, 1] ()) (Space.distortional.fresh ()) (.full P, ()) := by
  have hd : (!![2, 0, 0; 0, 1, 0; 0, 0, 1] : Ten2 ℝ).det ≠ 0 := by simp [Matrix.det_fin_three]
  refine ⟨by simp [Matrix.det_fin_three], ?_⟩
  refine ⟨_, ?_, (Space.returns_gradient ..).2 ⟨_, rfl, piolaStress_default .. |>.symm⟩⟩
  have e1 : ∀ g, T2 (stressOf .distortional !![2, 0, 0; 0, 1, 0; 0, 0, 1] g) = distS _ (T2 g) :=
    Distortional.T2_st hd
  rw [e1, T2_smul]
  change ((!![2, 0, 0; 0, 1, 0; 0, 0, 1] : Ten2 ℝ) * distS _ ((1 : ℝ) • T2 (Distortional.cu _))) 0 0 ≠ 0
  have hC : cauchyGreen !![2, 0, 0; 0, 1, 0; 0, 0, 1] = !![4, 0, 0; 0, 1, 0; 0, 0, (1 : ℝ)] := by
    ext i j; fin_cases i <;> fin_cases j <;> simp [cauchyGreen, Matrix.mul_apply, Fin.sum_univ_three]; norm_num
  have hCi : (!![4, 0, 0; 0, 1, 0; 0, 0, (1 : ℝ)])⁻¹ = !![1 / 4, 0, 0; 0, 1, 0; 0, 0, (1 : ℝ)] := by
    apply Matrix.inv_eq_right_inv
    ext i j; fin_cases i <;> fin_cases j <;> simp [Matrix.mul_apply, Fin.sum_univ_three]
  rw [Distortional.T2_cu, one_smul, distS, hC, hCi, unimodular]
  have hp : 0 < (!![4, 0, 0; 0, 1, 0; 0, 0, (1 : ℝ)]).det ^ (-1 / 3 : ℝ) := by
    apply Real.rpow_pos_of_pos
    simp [Matrix.det_fin_three]
  generalize (!![4, 0, 0; 0, 1, 0; 0, 0, (1 : ℝ)]).det ^ (-1 / 3 : ℝ) = p at hp
  simp [contract22, Fin.sum_univ_three, Matrix.mul_apply]
  nlinarith [mul_pos hp hp]

/-! ## C31 -/

/-- The Cauchy stress of the dilatational space is a multiple of the identity. -/
theorem C31_hydrostatic (mat : Material ℝ Z μ) (z z' : Z) (s : Space.dilatational.St μ) {F P : Ten2 ℝ}
    (hF : F.det ≠ 0)
    (h : Returns ((Space.dilatational.obj {} mat).gradient F z) s (.full P, z')) :
    ∃ p : ℝ, pushArea F P F.det = p • (1 : Ten2 ℝ) := by
  obtain ⟨g, -, rfl⟩ := space_grad h
  have e : T2 (stressOf .dilatational F g) = dilS (cauchyGreen F) (T2 g) := Dilatational.T2_st hF g
  have hu : IsUnit F.det := isUnit_iff_ne_zero.2 hF
  have h1 : F * (cauchyGreen F)⁻¹ * Fᵀ = 1 := by
    rw [cauchyGreen, Matrix.mul_inv_rev, ← Matrix.mul_assoc, Matrix.mul_nonsing_inv _ hu, Matrix.one_mul,
      Matrix.nonsing_inv_mul _ (by rwa [Matrix.det_transpose])]
  rw [e, pushArea, dilS, Matrix.mul_smul, Matrix.smul_mul, h1, smul_smul]
  exact ⟨_, rfl⟩

/-- The dilatational space does return stresses, here a non-zero one at `F = I`. -/
example : Returns ((Space.dilatational.obj {} (squareMat 1)).gradient (1 : Ten2 ℝ) ())
    (Space.dilatational.fresh ()) (.full ((2 : ℝ) • (1 : Ten2 ℝ)), ()) := by
  refine (Space.returns_gradient ..).2 ⟨_, rfl, ?_⟩
  have e : ∀ g, T2 (stressOf .dilatational (1 : Ten2 ℝ) g) = dilS _ (T2 g) :=
    Dilatational.T2_st (F := (1 : Ten2 ℝ)) (by simp)
  rw [piolaStress_default, e, T2_smul]
  change Stress.full _ = Stress.full ((1 : Ten2 ℝ) * dilS _ ((1 : ℝ) • T2 (Dilatational.co _)))
  rw [Dilatational.T2_co]
  congr 1
  simp [cauchyGreen, dilS]
  rfl

/-! ## C32 -/

/-- The stress rotates with the observer: `P(QF) = Q P(F)`, in all three spaces, for every
material, with the material in the same state. -/
theorem C32_gradient (w : Space) (mat : Material ℝ Z μ) (z z' : Z) (s : w.St μ) {F P Q : Ten2 ℝ}
    (hQ : Orthogonal Q) (h : Returns ((w.obj {} mat).gradient F z) s (.full P, z')) :
    Returns ((w.obj {} mat).gradient (Q * F) z) s (.full (Q * P), z') := by
  obtain ⟨g, h1, rfl⟩ := space_grad h
  obtain ⟨e1, e2, -⟩ := rcg_congr w (rcg_rotate hQ F)
  refine (Space.returns_gradient ..).2 ⟨g, by rw [e1]; exact h1, ?_⟩
  rw [piolaStress_default, e2, Matrix.mul_assoc]

/-- The elasticity rotates with the observer: `A_iJkL(QF) = Q_im Q_kn A_mJnL(F)`. -/
theorem C32_hessian (w : Space) (mat : Material ℝ Z μ) (z : Z) (s : w.St μ) {F Q : Ten2 ℝ} {A : Ten4 ℝ}
    (hQ : Orthogonal Q) (h : Returns ((w.obj {} mat).hessian F z) s (.full A)) :
    Returns ((w.obj {} mat).hessian (Q * F) z) s
      (.full fun i J k L => ∑ m, ∑ n, Q i m * Q k n * A m J n L) := by
  obtain ⟨g, z', m, h, h1, h2, h3⟩ := (Space.returns_hessian ..).1 h
  obtain ⟨e1, e2, e3, e4, e5⟩ := rcg_congr w (rcg_rotate hQ F)
  rw [piolaElasticity_force] at h3
  rw [Elasticity.full.inj h3]
  refine (Space.returns_hessian ..).2 ⟨g, z', m, h, by rw [e1]; exact h1, by rw [e1]; exact h2, ?_⟩
  rw [piolaElasticity_force, e2, e3, ← pushForce4_piolaT hQ]
  rfl

/-- The Cauchy stress and its elasticity rotate as spatial tensors. -/
theorem C32_cauchy (w : Space) (mat : Material ℝ Z μ) (z z' : Z) (s : w.St μ) {F σ Q : Ten2 ℝ}
    (hQ : Orthogonal Q) (h : Returns ((w.obj { area := none } mat).gradient F z) s (.full σ, z')) :
    Returns ((w.obj { area := none } mat).gradient (Q * F) z) s (.full (rotate Q σ), z') := by
  obtain ⟨g, h1, h2⟩ := (Space.returns_gradient ..).1 h
  obtain ⟨e1, e2, e3, e4, e5⟩ := rcg_congr w (rcg_rotate hQ F)
  rw [piolaStress_area] at h2
  rw [Stress.full.inj h2]
  refine (Space.returns_gradient ..).2 ⟨g, by rw [e1]; exact h1, ?_⟩
  have e6 : cauchyGreen (Q * F) = cauchyGreen F := by rw [← T2_rcg, ← T2_rcg, rcg_rotate hQ]
  rw [piolaStress_area, e2, e4, e6, ← pushArea_rotate, Matrix.mul_assoc]

/-- The spatial elasticity tensor (`area=None`) turns with the superposed rotation in all four indices. -/
theorem C32_cauchy_hessian (w : Space) (mat : Material ℝ Z μ) (z : Z) (s : w.St μ) {F Q : Ten2 ℝ}
    {A : Ten4 ℝ} (hQ : Orthogonal Q)
    (h : Returns ((w.obj { area := none } mat).hessian F z) s (.full A)) :
    Returns ((w.obj { area := none } mat).hessian (Q * F) z) s (.full (rotate4 Q A)) := by
  obtain ⟨g, z', m, h, h1, h2, h3⟩ := (Space.returns_hessian ..).1 h
  obtain ⟨e1, e2, e3, e4, e5⟩ := rcg_congr w (rcg_rotate hQ F)
  have e6 : cauchyGreen (Q * F) = cauchyGreen F := by rw [← T2_rcg, ← T2_rcg, rcg_rotate hQ]
  rw [piolaElasticity_area] at h3
  rw [Elasticity.full.inj h3]
  refine (Space.returns_hessian ..).2 ⟨g, z', m, h, by rw [e1]; exact h1, by rw [e1]; exact h2, ?_⟩
  rw [piolaElasticity_area, e2, e3, e4, e6, ← pushForce4_piolaT hQ, pushArea4_rotate]

/-- The referential quantities do not change at all: the calls on `F` and on `Q F` return the
same, raise the same, and leave the same attributes and the same material behind. -/
theorem C32_reference (w : Space) (mat : Material ℝ Z μ) (z : Z) {F Q : Ten2 ℝ} (hQ : Orthogonal Q) :
    (w.obj { finalize := false } mat).gradient (Q * F) z = (w.obj { finalize := false } mat).gradient F z ∧
    (w.obj { finalize := false } mat).hessian (Q * F) z = (w.obj { finalize := false } mat).hessian F z := by
  have hr := rcg_rotate hQ F
  cases w
  · exact Deformation.reference_congr mat z hr
  · exact Distortional.reference_congr mat z hr
  · exact Dilatational.reference_congr mat z hr

/-- A rotation and a stress as in C32. -/
example : Orthogonal (!![0, -1, 0; 1, 0, 0; 0, 0, 1] : Ten2 ℝ) ∧
    Returns ((Space.deformation.obj {} (squareMat 1)).gradient (1 : Ten2 ℝ) ())
      (Space.deformation.fresh ()) (.full ((2 : ℝ) • (1 : Ten2 ℝ)), ()) := by
  constructor
  · ext i j; fin_cases i <;> fin_cases j <;> simp [Matrix.mul_apply, Fin.sum_univ_three]
  · refine (Space.returns_gradient ..).2 ⟨_, rfl, ?_⟩
    rw [piolaStress_default]
    change Stress.full _ = Stress.full ((1 : Ten2 ℝ) * T2 (fun a => 2 * (1 * rightCauchyGreen (1 : Ten2 ℝ) a)))
    rw [T2_smul, T2_smul, T2_rcg]
    simp [cauchyGreen]

/-! ## C33 -/

/-- `P Fᵀ` is symmetric, for every material, in all three spaces. -/
theorem C33_symmetric (w : Space) (mat : Material ℝ Z μ) (z z' : Z) (s : w.St μ) {F P : Ten2 ℝ}
    (h : Returns ((w.obj {} mat).gradient F z) s (.full P, z')) : (P * Fᵀ).IsSymm := by
  obtain ⟨g, -, rfl⟩ := space_grad h
  rw [Matrix.IsSymm, Matrix.transpose_mul, Matrix.transpose_transpose, Matrix.transpose_mul,
    (T2_symm (stressOf w F g)).eq, Matrix.mul_assoc]

/-- With the area in the deformed configuration the returned stress is `P Fᵀ / √det C`, it is
symmetric, and it is the Cauchy stress if `det F > 0`. -/
theorem C33_cauchy (w : Space) (mat : Material ℝ Z μ) (z z' : Z) (s : w.St μ) {F P : Ten2 ℝ}
    (h : Returns ((w.obj {} mat).gradient F z) s (.full P, z')) :
    ∃ σ : Ten2 ℝ, Returns ((w.obj { area := none } mat).gradient F z) s (.full σ, z') ∧
      σ = (√(Fᵀ * F).det)⁻¹ • (P * Fᵀ) ∧ σ.IsSymm ∧ (0 < F.det → σ = F.det⁻¹ • (P * Fᵀ)) := by
  have hs := C33_symmetric w mat z z' s h
  obtain ⟨g, h1, rfl⟩ := space_grad h
  refine ⟨_, (Space.returns_gradient ..).2 ⟨g, h1, (piolaStress_area ..).symm⟩, ?_, ?_, ?_⟩
  · rw [detOf_getD]; rfl
  · exact hs.smul _
  · intro hp
    rw [detOf_getD, sqrt_det_cauchyGreen, abs_of_pos hp]; rfl

/-! ## C34 -/

/-- The four settings of force and area, in terms of the unfinalized second Piola-Kirchhoff
stress `S`. -/
theorem C34_gradient (w : Space) (mat : Material ℝ Z μ) (z z' : Z) (s : w.St μ) {F T : Ten2 ℝ}
    {S : Vec6 ℝ} (hS : Stores S T) (f a : Int)
    (h : Returns ((w.obj { finalize := false } mat).gradient F z) s (.voigt S, z')) :
    Returns ((w.obj { force := some f, area := some a } mat).gradient F z) s (.full T, z') ∧
    Returns ((w.obj { force := none, area := some a } mat).gradient F z) s (.full (F * T), z') ∧
    Returns ((w.obj { force := some f, area := none } mat).gradient F z) s
      (.full (|F.det|⁻¹ • (T * Fᵀ)), z') ∧
    Returns ((w.obj { force := none, area := none } mat).gradient F z) s
      (.full (|F.det|⁻¹ • (F * T * Fᵀ)), z') := by
  obtain rfl := T2_eq hS
  obtain ⟨g, h1, h2⟩ := (Space.returns_gradient ..).1 h
  obtain rfl := Stress.voigt.inj (h2 : Stress.voigt S = Stress.voigt _)
  refine ⟨(Space.returns_gradient ..).2 ⟨g, h1, rfl⟩, (Space.returns_gradient ..).2 ⟨g, h1, rfl⟩,
    (Space.returns_gradient ..).2 ⟨g, h1, ?_⟩, (Space.returns_gradient ..).2 ⟨g, h1, ?_⟩⟩
  · rw [piolaStress_ref_area, detOf_getD, sqrt_det_cauchyGreen]; rfl
  · rw [piolaStress_area, detOf_getD, sqrt_det_cauchyGreen]; rfl

/-- A finalized call returns only if the unfinalized call does: together with `C34_gradient`
the four results are determined. -/
theorem C34_gradient_iff (w : Space) (mat : Material ℝ Z μ) (cfg : SpaceCfg) (z z' : Z) (s : w.St μ)
    (F : Ten2 ℝ) : (∃ σ, Returns ((w.obj cfg mat).gradient F z) s (σ, z')) ↔
      ∃ S, Returns ((w.obj { finalize := false } mat).gradient F z) s (.voigt S, z') := by
  constructor
  · rintro ⟨σ, h⟩
    obtain ⟨g, h1, h2⟩ := (Space.returns_gradient ..).1 h
    exact ⟨_, (Space.returns_gradient ..).2 ⟨g, h1, rfl⟩⟩
  · rintro ⟨S, h⟩
    obtain ⟨g, h1, h2⟩ := (Space.returns_gradient ..).1 h
    exact ⟨_, (Space.returns_gradient ..).2 ⟨g, h1, rfl⟩⟩

/-- The elasticity with the force in the undeformed configuration is the unfinalized
material elasticity plus `C⁻¹_IK S_JL`. -/
theorem C34_hessian_reference (w : Space) (mat : Material ℝ Z μ) (z z' : Z) (s : w.St μ) {F T : Ten2 ℝ}
    (hF : F.det ≠ 0) {S : Vec6 ℝ} {M : Mat6 ℝ} {T4 : Ten4 ℝ} (hS : Stores S T) (hM : Stores4 M T4) (f a : Int)
    (hg : Returns ((w.obj { finalize := false } mat).gradient F z) s (.voigt S, z'))
    (hh : Returns ((w.obj { finalize := false } mat).hessian F z) s (.voigt M)) :
    Returns ((w.obj { force := some f, area := some a } mat).hessian F z) s
      (.full fun I J K L => T4 I J K L + (Fᵀ * F)⁻¹ I K * T J L) := by
  obtain rfl := T2_eq hS
  obtain rfl := T4_eq hM
  obtain ⟨g, h1, h2⟩ := (Space.returns_gradient ..).1 hg
  obtain rfl := Stress.voigt.inj (h2 : Stress.voigt S = Stress.voigt _)
  obtain ⟨g', z'', m, h, h3, h4, h5⟩ := (Space.returns_hessian ..).1 hh
  obtain rfl := Elasticity.voigt.inj (h5 : Elasticity.voigt M = Elasticity.voigt _)
  rw [Returns, h3] at h1
  cases h1
  refine (Space.returns_hessian ..).2 ⟨_, _, m, h, h3, h4, ?_⟩
  exact (piolaElasticity_ref f hF _ (detOf w F) _ (invOf w F) (invOf_eq w hF)).symm

/-- Pushing the force-undeformed elasticity forward with `F` on the two force indices gives the
force-deformed elasticity; transforming the two area indices and dividing by the volume ratio
gives those with the area in the deformed configuration. -/
theorem C34_hessian_push (w : Space) (mat : Material ℝ Z μ) (z : Z) (s : w.St μ) {F : Ten2 ℝ}
    (hF : F.det ≠ 0) {A : Ten4 ℝ} (f a : Int)
    (h : Returns ((w.obj { force := some f, area := some a } mat).hessian F z) s (.full A)) :
    Returns ((w.obj { force := none, area := some a } mat).hessian F z) s (.full (pushForce4 F A)) ∧
    Returns ((w.obj { force := some f, area := none } mat).hessian F z) s
      (.full (pushArea4 F A |F.det|)) ∧
    Returns ((w.obj { force := none, area := none } mat).hessian F z) s
      (.full (pushArea4 F (pushForce4 F A) |F.det|)) := by
  obtain ⟨g, z', m, k, h1, h2, h3⟩ := (Space.returns_hessian ..).1 h
  have e : Elasticity.full A = _ :=
    h3.trans (piolaElasticity_ref f hF _ (detOf w F) _ (invOf w F) (invOf_eq w hF))
  obtain rfl := Elasticity.full.inj e
  rw [pushForce4_refT hF]
  refine ⟨(Space.returns_hessian ..).2 ⟨g, z', m, k, h1, h2, ?_⟩,
    (Space.returns_hessian ..).2 ⟨g, z', m, k, h1, h2, ?_⟩,
    (Space.returns_hessian ..).2 ⟨g, z', m, k, h1, h2, ?_⟩⟩
  · exact (piolaElasticity_force F (stressOf w F g) (detOf w F) (elastOf w F g k) (invOf w F)).symm
  · rw [piolaElasticity_ref_area f hF _ _ _ _ (invOf_eq w hF), detOf_getD, sqrt_det_cauchyGreen]
  · rw [piolaElasticity_area, detOf_getD, sqrt_det_cauchyGreen]

/-- A finalized elasticity is returned exactly if an unfinalized one is. -/
theorem C34_hessian_iff (w : Space) (mat : Material ℝ Z μ) (cfg : SpaceCfg) (z : Z) (s : w.St μ)
    (F : Ten2 ℝ) : (∃ A, Returns ((w.obj cfg mat).hessian F z) s A) ↔
      ∃ M, Returns ((w.obj { finalize := false } mat).hessian F z) s (.voigt M) := by
  constructor
  · rintro ⟨A, h⟩
    obtain ⟨g, z', m, h, h1, h2, h3⟩ := (Space.returns_hessian ..).1 h
    exact ⟨_, (Space.returns_hessian ..).2 ⟨g, z', m, h, h1, h2, rfl⟩⟩
  · rintro ⟨S, h⟩
    obtain ⟨g, z', m, h, h1, h2, h3⟩ := (Space.returns_hessian ..).1 h
    exact ⟨_, (Space.returns_hessian ..).2 ⟨g, z', m, h, h1, h2, rfl⟩⟩

/-- `piola` without the optional arguments `detF` and `invC` returns the same as with them. -/
theorem C34_omitted (cfg : SpaceCfg) {F : Ten2 ℝ} (hF : F.det ≠ 0) (S v : Vec6 ℝ) (M : Mat6 ℝ)
    (hv : Stores v (Fᵀ * F)⁻¹) (d : Option ℝ) (hd : d = none ∨ d = some |F.det|)
    (i : Option (Vec6 ℝ)) (hi : i = none ∨ i = some v) :
    piolaStress cfg F S d = piolaStress cfg F S none ∧
    piolaElasticity cfg F S d M i = piolaElasticity cfg F S none M none := by
  have hs : √(det (rightCauchyGreen F)) = |F.det| := by rw [T2_det, T2_rcg, sqrt_det_cauchyGreen]
  have hvi : v = inv (rightCauchyGreen F) (some (det (rightCauchyGreen F))) := by
    apply T2_injective
    rw [T2_eq hv]
    exact (Distortional.T2_ic hF).symm
  have hss : √(det (rightCauchyGreen F)) = √(det (rightCauchyGreen F)) := rfl
  rcases cfg with ⟨_ | _, _ | f, _ | a⟩ <;> rcases hd with rfl | rfl <;> rcases hi with rfl | rfl <;>
    refine ⟨?_, ?_⟩ <;>
    first
    | rfl
    | (simp only [piolaStress, piolaElasticity, hs, ← hvi, if_true]; done)

/-- Non-trivial hypotheses for C34. -/
example : ∃ S : Vec6 ℝ, Returns ((Space.deformation.obj { finalize := false } (squareMat 1)).gradient
    (!![2, 0, 0; 0, 1, 0; 0, 0, 1] : Ten2 ℝ) ()) (Space.deformation.fresh ()) (.voigt S, ()) ∧ S 0 = 8 := by
  refine ⟨_, (Space.returns_gradient ..).2 ⟨_, rfl, rfl⟩, ?_⟩
  have : rightCauchyGreen (!![2, 0, 0; 0, 1, 0; 0, 0, 1] : Ten2 ℝ) 0 = (4 : ℝ) := by
    refine ((T2_stores _).entry 0).trans ?_
    rw [T2_rcg]
    simp [pos, cauchyGreen, Matrix.mul_apply, Fin.sum_univ_three]
    norm_num
  have h : stressOf .deformation (!![2, 0, 0; 0, 1, 0; 0, 0, 1] : Ten2 ℝ) (fun a => 1 *
      rightCauchyGreen (!![2, 0, 0; 0, 1, 0; 0, 0, 1] : Ten2 ℝ) a) 0 =
      2 * (1 * rightCauchyGreen (!![2, 0, 0; 0, 1, 0; 0, 0, 1] : Ten2 ℝ) 0) := rfl
  refine h.trans ?_
  rw [this]; norm_num

end Props
