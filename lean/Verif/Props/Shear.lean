import Verif.Spec.Shear
import Verif.Props.Principal
import Verif.Proofs.Polyconvex
import Verif.Props.StretchesChoice
import Verif.Proofs.StretchesModels

/-! # Property C85: universal relations and simple shear -/

namespace Props
open Spec Hel Matrix

variable {Z μ : Type}

/-- The Cauchy stress does not change if the specimen is turned about a principal axis of the
deformation. -/
theorem cauchy_fixed (w : Space) (mat : Material ℝ Z μ) (z z' : Z) (s : w.St μ) (hi : Material.Isotropic mat z)
    {F σ R Q : Ten2 ℝ} (hF : F.det ≠ 0) (hR : Orthogonal R) (hQ : Orthogonal Q) (e : R * F = F * Q)
    (h : Returns ((w.obj { area := none } mat).gradient F z) s (.full σ, z')) : rotate R σ = σ := by
  have h1 := C32_cauchy w mat z z' s hR h
  have h2 := C36_cauchy w mat z z' s hi hF hQ h
  rw [e, Returns, h2] at h1
  exact (Stress.full.inj (congrArg Prod.fst (Except.ok.inj h1))).symm

/-- The universal relations of isotropic materials: in every space the Cauchy stress commutes with
the left Cauchy-Green deformation tensor. -/
theorem C85_universal (w : Space) (mat : Material ℝ Z μ) (z z' : Z) (s : w.St μ) (hi : Material.Isotropic mat z)
    {F σ : Ten2 ℝ} (hF : F.det ≠ 0) (h : Returns ((w.obj { area := none } mat).gradient F z) s (.full σ, z')) :
    σ * (F * Fᵀ) = F * Fᵀ * σ := by
  obtain ⟨R, Q, l, hR, hQ, hl, rfl⟩ := exists_svd hF
  have hq : Qᵀ * Q = 1 := hQ
  have hr : Rᵀ * R = 1 := hR
  set T : Ten2 ℝ := rotate Rᵀ σ with hT
  have eσ : σ = R * T * Rᵀ := by
    rw [hT, rotate, Matrix.transpose_transpose]
    calc σ = (R * Rᵀ) * σ * (R * Rᵀ) := by rw [hR.mul_transpose, Matrix.one_mul, Matrix.mul_one]
      _ = _ := by simp only [Matrix.mul_assoc]
  have hd : ∀ i j, i ≠ j → T i j = 0 := by
    intro i j hij
    set S : Ten2 ℝ := diagonal fun a => if a = i then (-1 : ℝ) else 1 with hS
    have hSo : Orthogonal S := orthogonal_flip i
    have hSo' : Sᵀ * S = 1 := hSo
    have o1 : ∀ V : Ten2 ℝ, Orthogonal V → Orthogonal (V * S * Vᵀ) := by
      intro V hV
      have hV' : Vᵀ * V = 1 := hV
      rw [Orthogonal, Matrix.transpose_mul, Matrix.transpose_mul, Matrix.transpose_transpose]
      calc V * (Sᵀ * Vᵀ) * (V * S * Vᵀ) = V * Sᵀ * (Vᵀ * V) * S * Vᵀ := by simp only [Matrix.mul_assoc]
        _ = V * (Sᵀ * S) * Vᵀ := by rw [hV', Matrix.mul_one, Matrix.mul_assoc V]
        _ = 1 := by rw [hSo', Matrix.mul_one, hV.mul_transpose]
    have e : (R * S * Rᵀ) * (R * diagonal l * Qᵀ) = R * diagonal l * Qᵀ * (Q * S * Qᵀ) := by
      have c : S * diagonal l = diagonal l * S := by
        rw [hS, diagonal_mul_diagonal, diagonal_mul_diagonal]; congr 1; funext a; ring
      calc (R * S * Rᵀ) * (R * diagonal l * Qᵀ) = R * S * (Rᵀ * R) * diagonal l * Qᵀ := by simp only [Matrix.mul_assoc]
        _ = R * (S * diagonal l) * Qᵀ := by rw [hr, Matrix.mul_one, Matrix.mul_assoc R]
        _ = R * diagonal l * 1 * S * Qᵀ := by rw [c, Matrix.mul_one]; simp only [Matrix.mul_assoc]
        _ = _ := by rw [← hq]; simp only [Matrix.mul_assoc]
    have h1 := cauchy_fixed w mat z z' s hi hF (o1 R hR) (o1 Q hQ) e h
    have h2 : S * T * S = T := by
      have hSt : Sᵀ = S := diagonal_transpose _
      have := congrArg (rotate Rᵀ) h1
      refine Eq.trans ?_ this
      simp only [rotate, Matrix.transpose_mul, Matrix.transpose_transpose, hT, hSt]
      calc S * (Rᵀ * σ * R) * S = 1 * (S * (Rᵀ * σ * R) * S) * 1 := by rw [Matrix.one_mul, Matrix.mul_one]
        _ = _ := by rw [← hr]; simp only [Matrix.mul_assoc]
    have h3 := congrFun (congrFun h2 i) j
    rw [hS, Matrix.mul_diagonal, Matrix.diagonal_mul, if_pos rfl, if_neg hij.symm] at h3
    linarith
  have hTd : T = diagonal fun a => T a a := by
    ext i j
    rcases eq_or_ne i j with rfl | hij
    · rw [diagonal_apply_eq]
    · rw [diagonal_apply_ne _ hij, hd i j hij]
  have eB : (R * diagonal l * Qᵀ) * (R * diagonal l * Qᵀ)ᵀ = R * (diagonal l * diagonal l) * Rᵀ := by
    rw [Matrix.transpose_mul, Matrix.transpose_mul, Matrix.transpose_transpose, diagonal_transpose]
    calc R * diagonal l * Qᵀ * (Q * (diagonal l * Rᵀ)) = R * diagonal l * (Qᵀ * Q) * diagonal l * Rᵀ := by simp only [Matrix.mul_assoc]
      _ = _ := by rw [hq, Matrix.mul_one, Matrix.mul_assoc R]
  have key : ∀ A B : Ten2 ℝ, R * A * Rᵀ * (R * B * Rᵀ) = R * (A * B) * Rᵀ := by
    intro A B
    calc R * A * Rᵀ * (R * B * Rᵀ) = R * A * (Rᵀ * R) * B * Rᵀ := by simp only [Matrix.mul_assoc]
      _ = _ := by rw [hr, Matrix.mul_one, Matrix.mul_assoc R]
  rw [eB, eσ, key, key, hTd, diagonal_mul_diagonal, diagonal_mul_diagonal, diagonal_mul_diagonal]
  congr 3
  funext a
  ring

theorem simpleShear_det (γ : ℝ) : (simpleShear γ).det = 1 := by
  simp [simpleShear, Matrix.det_fin_three]

theorem simpleShear_left (γ : ℝ) : simpleShear γ * (simpleShear γ)ᵀ = !![1 + γ ^ 2, γ, 0; γ, 1, 0; 0, 0, 1] := by
  ext i j
  fin_cases i <;> fin_cases j <;> simp [simpleShear, Matrix.mul_apply, Fin.sum_univ_three, sq]

/-- Simple shear: the difference of the normal stresses in the plane of shear is the amount of shear
times the shear stress, and there is no shear stress out of the plane, whatever the isotropic
material and the space. -/
theorem C85_shear (w : Space) (mat : Material ℝ Z μ) (z z' : Z) (s : w.St μ) (hi : Material.Isotropic mat z) (γ : ℝ) {σ : Ten2 ℝ}
    (h : Returns ((w.obj { area := none } mat).gradient (simpleShear γ) z) s (.full σ, z')) :
    σ 0 0 - σ 1 1 = γ * σ 0 1 ∧ σ 0 2 = 0 ∧ σ 1 2 = 0 ∧ σ.IsSymm := by
  have hF : (simpleShear γ).det ≠ 0 := by rw [simpleShear_det]; norm_num
  have hs : σ.IsSymm := by
    obtain ⟨g, -, h2⟩ := (Space.returns_gradient ..).1 h
    rw [piolaStress_area] at h2
    rw [Stress.full.inj h2]
    refine Matrix.IsSymm.smul ?_ _
    rw [Matrix.IsSymm, Matrix.transpose_mul, Matrix.transpose_transpose, Matrix.transpose_mul,
      (T2_symm (stressOf w (simpleShear γ) g)).eq, Matrix.mul_assoc]
  have ho : Orthogonal (diagonal fun a => if a = 2 then (-1 : ℝ) else 1 : Ten2 ℝ) := orthogonal_flip 2
  have h1 := cauchy_fixed w mat z z' s hi hF ho ho (by
    ext i j
    fin_cases i <;> fin_cases j <;> simp [simpleShear, Matrix.mul_apply, Fin.sum_univ_three, Matrix.diagonal_apply]) h
  have e02 := congrFun (congrFun h1 0) 2
  have e12 := congrFun (congrFun h1 1) 2
  simp only [rotate, diagonal_transpose, Matrix.mul_diagonal, Matrix.diagonal_mul, Fin.isValue, Fin.reduceEq, if_true, if_false] at e02 e12
  refine ⟨?_, by linarith, by linarith, hs⟩
  rcases eq_or_ne γ 0 with rfl | hγ
  · have hq : Orthogonal (!![0, 1, 0; 1, 0, 0; 0, 0, 1] : Ten2 ℝ) := by
      rw [Orthogonal]
      ext i j
      fin_cases i <;> fin_cases j <;> simp [Matrix.mul_apply, Fin.sum_univ_three]
    have h2 := cauchy_fixed w mat z z' s hi hF hq hq (by
      ext i j
      fin_cases i <;> fin_cases j <;> simp [simpleShear, Matrix.mul_apply, Fin.sum_univ_three]) h
    have e00 := congrFun (congrFun h2 0) 0
    simp [rotate, Matrix.mul_apply, Fin.sum_univ_three, Matrix.vecMul, dotProduct] at e00
    linarith
  · have hu := congrFun (congrFun (C85_universal w mat z z' s hi hF h) 0) 1
    rw [simpleShear_left] at hu
    simp [Matrix.mul_apply, Fin.sum_univ_three] at hu
    have : γ * (σ 0 0 - σ 1 1 - γ * σ 0 1) = 0 := by linear_combination hu
    rcases mul_eq_zero.1 this with h0 | h0
    · exact absurd h0 hγ
    · linarith

/-- Shearing in the opposite direction: the shear stress changes its sign, the normal stresses stay. -/
theorem C85_reverse (w : Space) (mat : Material ℝ Z μ) (z z' : Z) (s : w.St μ) (hi : Material.Isotropic mat z) (γ : ℝ) {σ : Ten2 ℝ}
    (h : Returns ((w.obj { area := none } mat).gradient (simpleShear γ) z) s (.full σ, z')) :
    ∃ σ' : Ten2 ℝ, Returns ((w.obj { area := none } mat).gradient (simpleShear (-γ)) z) s (.full σ', z') ∧
      σ' 0 1 = -σ 0 1 ∧ ∀ a, σ' a a = σ a a := by
  have hF : (simpleShear γ).det ≠ 0 := by rw [simpleShear_det]; norm_num
  have ho : Orthogonal (diagonal fun a => if a = 1 then (-1 : ℝ) else 1 : Ten2 ℝ) := orthogonal_flip 1
  have h1 := C32_cauchy w mat z z' s ho (C36_cauchy w mat z z' s hi hF ho h)
  have e : (diagonal fun a => if a = 1 then (-1 : ℝ) else 1 : Ten2 ℝ) * (simpleShear γ * diagonal fun a => if a = 1 then (-1 : ℝ) else 1) =
      simpleShear (-γ) := by
    ext i j
    rw [Matrix.diagonal_mul, Matrix.mul_diagonal]
    fin_cases i <;> fin_cases j <;> simp [simpleShear]
  rw [e] at h1
  refine ⟨_, h1, ?_, fun a => ?_⟩
  · simp [rotate, diagonal_transpose, Matrix.mul_diagonal, Matrix.diagonal_mul]
  · fin_cases a <;> simp [rotate, diagonal_transpose, Matrix.mul_diagonal, Matrix.diagonal_mul]

/-- the Cauchy stress of an isochoric deformation up to a pressure -/
theorem cauchy_isochoric (w : Space) (hw : w ≠ .dilatational) (mat : Material ℝ Z μ) (z z' : Z) (s : w.St μ) {F σ : Ten2 ℝ} (hF : F.det = 1)
    (h : Returns ((w.obj { area := none } mat).gradient F z) s (.full σ, z')) :
    ∃ G p, Material.Grad mat z (cauchyGreen F) G ∧ σ = (2 : ℝ) • (F * G * Fᵀ) - (p : ℝ) • (1 : Ten2 ℝ) := by
  have hF0 : F.det ≠ 0 := by rw [hF]; norm_num
  have hd : (cauchyGreen F).det = 1 := by rw [cauchyGreen, Matrix.det_mul, Matrix.det_transpose, hF, one_mul]
  obtain ⟨g, h1, h2⟩ := (Space.returns_gradient ..).1 h
  rw [piolaStress_area, detOf_getD, hd, Real.sqrt_one] at h2
  rw [Stress.full.inj h2]
  simp only [pushArea, inv_one, one_smul]
  rcases w
  · refine ⟨T2 g, 0, ?_, ?_⟩
    · rw [← T2_rcg]
      exact ⟨_, _, _, _, T2_stores _, T2_stores _, h1⟩
    · change F * T2 (fun a => 2 * g a) * Fᵀ = _
      rw [T2_smul, zero_smul, sub_zero, Matrix.mul_smul, Matrix.smul_mul]
  · refine ⟨T2 g, contract22 ((2 : ℝ) • T2 g) (cauchyGreen F) / 3, ?_, ?_⟩
    · have : T2 (arg .distortional F) = cauchyGreen F := by
        change T2 (Distortional.cu F) = _
        rw [Distortional.T2_cu, unimodular, hd, Real.one_rpow, one_smul]
      rw [← this]
      exact ⟨_, _, _, _, T2_stores _, T2_stores _, h1⟩
    · change F * T2 (Distortional.st F g) * Fᵀ = _
      rw [Distortional.T2_st hF0, distS, hd, Real.one_rpow, mul_one, Matrix.mul_sub, Matrix.sub_mul, Matrix.mul_smul, Matrix.smul_mul,
        Matrix.mul_smul, Matrix.smul_mul]
      congr 2
      rw [cauchyGreen, Matrix.mul_inv_rev, ← Matrix.mul_assoc, Matrix.mul_nonsing_inv _ (by rw [hF]; exact isUnit_one), Matrix.one_mul,
        Matrix.nonsing_inv_mul _ (by rw [Matrix.det_transpose, hF]; exact isUnit_one)]
  · exact absurd rfl hw

/-- Simple shear of invariant-based materials in the deformation and the distortional space: the
response is given by the derivatives of the energy at the invariants `3 + γ², 3 + γ², 1`. -/
theorem C85_invariants (w : Space) (hw : w ≠ .dilatational) (mat : InvMat ℝ Z μ) (z z' : Z) (s : w.St (InvSt ℝ μ)) (γ : ℝ) {σ : Ten2 ℝ}
    (h : Returns ((w.obj { area := none } (Invariants.material mat)).gradient (simpleShear γ) z) s (.full σ, z')) :
    ∃ g, InvMat.Grad mat z ![3 + γ ^ 2, 3 + γ ^ 2, 1] g ∧ σ 0 1 = 2 * γ * (g 0 + g 1) ∧ σ 0 0 - σ 1 1 = 2 * γ ^ 2 * (g 0 + g 1) ∧
      σ 1 1 - σ 2 2 = -2 * γ ^ 2 * g 1 := by
  obtain ⟨G, p, hG, rfl⟩ := cauchy_isochoric w hw _ z z' s (simpleShear_det γ) h
  have hd : (cauchyGreen (simpleShear γ)).det = 1 := by
    rw [cauchyGreen, Matrix.det_mul, Matrix.det_transpose, simpleShear_det, one_mul]
  have hp := posDef_cauchyGreen (F := simpleShear γ) (by rw [simpleShear_det]; norm_num)
  obtain ⟨g, hg, rfl⟩ := (Invariants.grad_iff mat z ⟨hp.1, hp.det_ne_zero⟩).1 hG
  have eC : cauchyGreen (simpleShear γ) = !![1, γ, 0; γ, 1 + γ ^ 2, 0; 0, 0, 1] := by
    ext i j
    fin_cases i <;> fin_cases j <;> simp [cauchyGreen, simpleShear, Matrix.mul_apply, Fin.sum_univ_three, sq, add_comm]
  have ei : invariants (cauchyGreen (simpleShear γ)) = ![3 + γ ^ 2, 3 + γ ^ 2, 1] := by
    rw [invariants, hd, inv2, eC]
    congr 1
    · simp [Matrix.trace, Fin.sum_univ_three]; ring
    · congr 1
      simp [Matrix.trace, Fin.sum_univ_three, Matrix.mul_apply]; ring
  rw [ei] at hg
  have ev : (cauchyGreen (simpleShear γ))⁻¹ = !![1 + γ ^ 2, -γ, 0; -γ, 1, 0; 0, 0, 1] := by
    refine Matrix.inv_eq_right_inv ?_
    rw [eC]
    ext i j
    fin_cases i <;> fin_cases j <;> simp [Matrix.mul_apply, Fin.sum_univ_three] <;> ring
  have eG : invGradT (cauchyGreen (simpleShear γ)) g = !![g 0 + g 1 * (2 + γ ^ 2) + g 2 * (1 + γ ^ 2), -(g 1 * γ) - g 2 * γ, 0;
      -(g 1 * γ) - g 2 * γ, g 0 + 2 * g 1 + g 2, 0; 0, 0, g 0 + g 1 * (2 + γ ^ 2) + g 2] := by
    rw [invGradT, hd, ev, eC]
    ext i j
    fin_cases i <;> fin_cases j <;> simp [Fin.sum_univ_three, Matrix.trace, Matrix.one_apply, -mul_eq_mul_left_iff, -mul_eq_mul_right_iff] <;> ring
  have eP : simpleShear γ * invGradT (cauchyGreen (simpleShear γ)) g * (simpleShear γ)ᵀ =
      !![g 0 * (1 + γ ^ 2) + g 1 * (2 + γ ^ 2) + g 2, (g 0 + g 1) * γ, 0; (g 0 + g 1) * γ, g 0 + 2 * g 1 + g 2, 0;
        0, 0, g 0 + g 1 * (2 + γ ^ 2) + g 2] := by
    rw [eG]
    ext i j
    fin_cases i <;> fin_cases j <;>
      simp [simpleShear, Fin.sum_univ_three, Matrix.mul_apply, Matrix.vecMul, dotProduct, Matrix.transpose_apply] <;> ring
  rw [eP]
  refine ⟨g, hg, ?_, ?_, ?_⟩ <;>
  · simp [Matrix.one_apply]
    ring

/-- Third-order-deformation materials: the secant shear modulus is a polynomial in the amount of
shear; it is the constant `2 (C10 + C01)` for Mooney-Rivlin materials. -/
theorem C85_third_order (w : Space) (hw : w ≠ .dilatational) (C10 C01 C11 C20 C30 : ℝ) (z z' : Z) (s : w.St (InvSt ℝ Unit)) (γ : ℝ)
    {σ : Ten2 ℝ} (h : Returns ((w.obj { area := none } (Invariants.material (TOD.init C10 C01 C11 C20 C30 false).mat)).gradient
      (simpleShear γ) z) s (.full σ, z')) :
    σ 0 1 = 2 * (C10 + C01 + 2 * (C11 + C20) * γ ^ 2 + 3 * C30 * γ ^ 4) * γ ∧
      σ 0 0 - σ 1 1 = 2 * (C10 + C01 + 2 * (C11 + C20) * γ ^ 2 + 3 * C30 * γ ^ 4) * γ ^ 2 ∧
      σ 1 1 - σ 2 2 = -2 * (C01 + C11 * γ ^ 2) * γ ^ 2 := by
  obtain ⟨g, hg, h1, h2, h3⟩ := C85_invariants w hw _ z z' s γ h
  have hg := (TOD.grad_iff ..).1 hg
  rw [h1, h2, h3, hg]
  simp only [TOD.init, cons_val_zero, cons_val_one, if_false, Bool.false_eq_true]
  refine ⟨?_, ?_, ?_⟩ <;> ring

/-- The hypotheses of the theorems above are met: third-order-deformation materials return a stress at
every simple shear, in every space. -/
theorem C85_returns (w : Space) (C10 C01 C11 C20 C30 : ℝ) (z : Z) (s : w.St (InvSt ℝ Unit)) (γ : ℝ) :
    ∃ σ, Returns ((w.obj { area := none } (Invariants.material (TOD.init C10 C01 C11 C20 C30 false).mat)).gradient (simpleShear γ) z) s
      (.full σ, z) := by
  have h1 : Returns ((Invariants.material (Z := Z) (TOD.init C10 C01 C11 C20 C30 false).mat).gradient (arg w (simpleShear γ)) z)
      (w.inner s) _ :=
    (Invariants.returns_gradient ..).2 ⟨_, congrArg (fun r => (PyM.lift r () : _ × Unit).1) (TOD.gradient_eq _ _ _ _ z), rfl, rfl⟩
  exact ⟨_, (Space.returns_gradient w ..).2 ⟨_, h1, (piolaStress_area ..).symm⟩⟩

/-- The secant shear modulus of a Neo-Hookean material is `2 C10`, whatever the amount of shear. -/
example (C10 γ : ℝ) (s : Space.distortional.St (InvSt ℝ Unit)) :
    ∃ σ : Ten2 ℝ, Returns ((Space.distortional.obj { area := none } (Invariants.material (TOD.init C10 0 0 0 0 false).mat)).gradient
      (simpleShear γ) ()) s (.full σ, ()) ∧ σ 0 1 = 2 * C10 * γ ∧ σ 0 0 - σ 1 1 = 2 * C10 * γ ^ 2 ∧ σ 1 1 = σ 2 2 := by
  obtain ⟨σ, h⟩ := C85_returns .distortional C10 0 0 0 0 () s γ
  obtain ⟨h1, h2, h3⟩ := C85_third_order .distortional (by simp) C10 0 0 0 0 () () s γ h
  exact ⟨σ, h, by rw [h1]; ring, by rw [h2]; ring, by linarith⟩

/-- Ogden materials, with any valid eigenvalue solver. -/
theorem C85_ogden (lapack : Eigh) (hl : EighValid lapack) (w : Space) (m : Ogden) (z z' : Z) (s : w.St (StrSt Unit)) (γ : ℝ) {σ : Ten2 ℝ}
    (h : Returns ((w.obj { area := none } (Stretches.material lapack m.mat)).gradient (simpleShear γ) z) s (.full σ, z')) :
    σ 0 0 - σ 1 1 = γ * σ 0 1 ∧ σ 0 2 = 0 ∧ σ 1 2 = 0 ∧ σ.IsSymm :=
  C85_shear w _ z z' s (C36_stretches lapack hl _ (Ogden.symmetric m) z) γ h

end Props
