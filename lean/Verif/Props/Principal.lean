import Verif.Props.StretchesChoice
import Verif.Proofs.StretchesModels

/-! # Property C52: principal stresses of materials in terms of stretches -/

namespace Props
open Spec Hel Matrix

variable {Z μ : Type}

theorem orthogonal_one : Orthogonal (1 : Ten2 ℝ) := by simp [Orthogonal]

theorem cauchyGreen_svd {R : Ten2 ℝ} (hR : Orthogonal R) (Q : Ten2 ℝ) (l : Fin 3 → ℝ) :
    cauchyGreen (R * diagonal l * Qᵀ) = Q * diagonal (fun a => l a ^ 2) * Qᵀ := by
  have h : Rᵀ * R = 1 := hR
  have e : diagonal (fun a => l a ^ 2) = diagonal l * (Rᵀ * R) * diagonal l := by
    rw [h, Matrix.mul_one, diagonal_mul_diagonal]
    congr 1; funext a; ring
  rw [cauchyGreen, e]
  simp only [transpose_mul, transpose_transpose, diagonal_transpose, Matrix.mul_assoc]

theorem roots_sq_eq {l : Fin 3 → ℝ} (hl : Positive l) : Stretches.roots (fun a => l a ^ 2) = l :=
  funext fun a => Real.sqrt_sq (hl a).le

/-- The gradient of the framework at a tensor with known principal stretches. -/
theorem stretches_returns (lapack : Eigh) (hl : EighValid lapack) (mat : StrMat Z μ) (hs : StrMat.Symmetric mat)
    {z z' : Z} {s : StrSt μ} {l g : Fin 3 → ℝ} (hpos : Positive l) {Q : Ten2 ℝ} (hQ : Orthogonal Q) {c : Vec6 ℝ}
    (hc : Stores c (Q * diagonal (fun a => l a ^ 2) * Qᵀ))
    (h : Returns (mat.gradient l z) s.material (g, z')) :
    ∃ G, Returns ((Stretches.material lapack mat).gradient c z) s (G, z') ∧
      T2 G = Q * diagonal (fun a => g a / (2 * l a)) * Qᵀ := by
  have hS : Spectral (Q * diagonal (fun a => l a ^ 2) * Qᵀ) (fun a => l a ^ 2) Q := Spectral.of_eq hQ rfl
  rw [← roots_sq_eq hpos] at h
  obtain ⟨g', h1, h2⟩ := Stretches.grad_unique hs hS (hl _ hc.symm) h
  refine ⟨_, (Stretches.returns_gradient ..).2 ⟨g', by rw [Stretches.eighSqrt_eq lapack hc]; exact h1, rfl⟩, ?_⟩
  rw [Stretches.eighSqrt_eq lapack hc]
  change T2 (Stretches.gradPure (Stretches.roots (lapack _).1) (Stretches.bases (lapack _).2) g') = _
  rw [← h2, Stretches.T2_gradPure, roots_sq_eq hpos]
  rfl

/-- On the deformation space the principal first Piola-Kirchhoff stresses are the derivatives of the
energy with respect to the principal stretches, on the principal axes of the deformation. -/
theorem C52_deformation (lapack : Eigh) (hl : EighValid lapack) (mat : StrMat Z μ) (hs : StrMat.Symmetric mat)
    {z z' : Z} {s : DefSt (StrSt μ)} {l g : Fin 3 → ℝ} (hpos : Positive l) {R Q : Ten2 ℝ} (hR : Orthogonal R)
    (hQ : Orthogonal Q) (h : Returns (mat.gradient l z) s.material.material (g, z')) :
    Returns ((Deformation.obj {} (Stretches.material lapack mat)).gradient (R * diagonal l * Qᵀ) z) s
      (.full (R * diagonal g * Qᵀ), z') := by
  have hc : Stores (rightCauchyGreen (R * diagonal l * Qᵀ)) (Q * diagonal (fun a => l a ^ 2) * Qᵀ) := by
    rw [← cauchyGreen_svd hR, ← T2_rcg]; exact T2_stores _
  obtain ⟨G, h1, h2⟩ := stretches_returns lapack hl mat hs hpos hQ hc h
  refine (Deformation.returns_gradient ..).2 ⟨G, h1, ?_⟩
  rw [piolaStress_default, T2_smul, h2]
  congr 1
  have e : diagonal g = diagonal l * ((2 : ℝ) • diagonal fun a => g a / (2 * l a)) := by
    rw [← diagonal_smul, diagonal_mul_diagonal]
    congr 1; funext a
    have := (hpos a).ne'
    simp only [Pi.smul_apply, smul_eq_mul]
    field_simp
  have hq : Qᵀ * Q = 1 := hQ
  rw [e]
  simp only [Matrix.mul_assoc, Matrix.mul_smul, Matrix.smul_mul]
  rw [← Matrix.mul_assoc Qᵀ Q, hq, Matrix.one_mul]

/-- On the distortional space: the deviator of the derivatives at the isochoric stretches. -/
theorem C52_distortional (lapack : Eigh) (hl : EighValid lapack) (mat : StrMat Z μ) (hs : StrMat.Symmetric mat)
    {z z' : Z} {s : DistSt (StrSt μ)} {l g : Fin 3 → ℝ} (hpos : Positive l) {R Q : Ten2 ℝ} (hR : Orthogonal R)
    (hQ : Orthogonal Q) (m : Fin 3 → ℝ) (hm : ∀ a, m a = l a / (l 0 * l 1 * l 2) ^ (1 / 3 : ℝ))
    (h : Returns (mat.gradient m z) s.material.material (g, z')) :
    Returns ((Distortional.obj {} (Stretches.material lapack mat)).gradient (R * diagonal l * Qᵀ) z) s
      (.full (R * diagonal (fun a => (m a * g a - (m 0 * g 0 + m 1 * g 1 + m 2 * g 2) / 3) / l a) * Qᵀ), z') := by
  have h0 := hpos 0
  have h1 := hpos 1
  have h2 := hpos 2
  have hJ : 0 < l 0 * l 1 * l 2 := by positivity
  have hj : 0 < (l 0 * l 1 * l 2) ^ (1 / 3 : ℝ) := Real.rpow_pos_of_pos hJ _
  have hmp : Positive m := fun a => by rw [hm]; exact div_pos (hpos a) hj
  have hd : (diagonal l : Ten2 ℝ).det ≠ 0 := by rw [det_diagonal, Fin.prod_univ_three]; exact hJ.ne'
  have hF : (R * diagonal l * Qᵀ).det ≠ 0 := by
    rw [det_mul, det_mul, det_transpose]
    exact mul_ne_zero (mul_ne_zero hR.det_ne_zero hd) hQ.det_ne_zero
  have hq : Qᵀ * Q = 1 := hQ
  set C := cauchyGreen (R * diagonal l * Qᵀ) with hC
  have eC : C = rotate Q (diagonal fun a => l a ^ 2) := cauchyGreen_svd hR Q l
  have edet : C.det = (l 0 * l 1 * l 2) ^ 2 := by
    rw [eC, det_rotate _ hQ, det_diagonal, Fin.prod_univ_three]; ring
  have ep : C.det ^ (-1 / 3 : ℝ) = ((l 0 * l 1 * l 2) ^ (1 / 3 : ℝ))⁻¹ ^ 2 := by
    rw [edet, inv_pow, ← Real.rpow_natCast, ← Real.rpow_natCast, ← Real.rpow_mul hJ.le, ← Real.rpow_mul hJ.le,
      ← Real.rpow_neg hJ.le]
    norm_num
  have eU : unimodular C = Q * diagonal (fun a => m a ^ 2) * Qᵀ := by
    change _ = rotate Q _
    rw [unimodular, ep, eC, ← rotate_smul, ← diagonal_smul]
    congr 2; funext a
    simp only [Pi.smul_apply, smul_eq_mul, hm, div_eq_mul_inv, mul_pow]; ring
  have hc : Stores (Distortional.cu (R * diagonal l * Qᵀ)) (Q * diagonal (fun a => m a ^ 2) * Qᵀ) := by
    rw [← eU, hC, ← Distortional.T2_cu]; exact T2_stores _
  obtain ⟨G, hG, eG⟩ := stretches_returns lapack hl mat hs hmp hQ hc h
  refine (Distortional.returns_gradient ..).2 ⟨G, hG, ?_⟩
  rw [piolaStress_default, Distortional.T2_st hF, eG]
  congr 1
  rw [← hC]
  have hdd : (diagonal fun a => l a ^ 2 : Ten2 ℝ).det ≠ 0 := by
    rw [det_diagonal, Fin.prod_univ_three]; positivity
  have hl2 : ∀ a, 0 < l a ^ 2 := fun a => pow_pos (hpos a) 2
  have einv : (diagonal fun a => l a ^ 2 : Ten2 ℝ)⁻¹ = diagonal fun a => (l a ^ 2)⁻¹ := by
    refine Matrix.inv_eq_left_inv ?_
    rw [Matrix.diagonal_mul_diagonal, ← Matrix.diagonal_one]
    congr 1; funext a; exact inv_mul_cancel₀ (hl2 a).ne'
  have ec : contract22 ((2 * C.det ^ (-1 / 3 : ℝ)) • (Q * diagonal (fun a => g a / (2 * m a)) * Qᵀ)) C =
      m 0 * g 0 + m 1 * g 1 + m 2 * g 2 := by
    have hsym : C.IsSymm := by rw [eC]; exact rotate_symm (diagonal_transpose _)
    have e1 : contract22 ((2 * C.det ^ (-1 / 3 : ℝ)) • rotate Q (diagonal (fun a => g a / (2 * m a)))) C =
        (rotate Q ((2 * C.det ^ (-1 / 3 : ℝ)) • diagonal (fun a => g a / (2 * m a)) * diagonal (fun a => l a ^ 2))).trace := by
      rw [rotate_mul _ _ hQ, rotate_smul, ← eC]
      simp only [contract22, Matrix.trace, Matrix.diag_apply, Matrix.mul_apply]
      exact Finset.sum_congr rfl fun i _ => Finset.sum_congr rfl fun j _ => by rw [hsym.apply i j]
    refine e1.trans ?_
    rw [trace_rotate _ hQ, ← diagonal_smul, diagonal_mul_diagonal, trace_diagonal, Fin.sum_univ_three, ep]
    have k : ∀ a, (2 * ((l 0 * l 1 * l 2) ^ (1 / 3 : ℝ))⁻¹ ^ 2) * (g a / (2 * m a)) * l a ^ 2 = m a * g a := by
      intro a
      have := (hmp a).ne'
      have e3 : l a = m a * (l 0 * l 1 * l 2) ^ (1 / 3 : ℝ) := by rw [hm]; field_simp
      rw [e3]; field_simp
    simp only [Pi.smul_apply, smul_eq_mul, k]
  rw [distS, ec, ep]
  have e2 : R * diagonal (fun a => (m a * g a - (m 0 * g 0 + m 1 * g 1 + m 2 * g 2) / 3) / l a) * Qᵀ =
      R * diagonal l * Qᵀ * rotate Q (diagonal fun a => (m a * g a - (m 0 * g 0 + m 1 * g 1 + m 2 * g 2) / 3) / l a ^ 2) := by
    have e : (diagonal fun a => (m a * g a - (m 0 * g 0 + m 1 * g 1 + m 2 * g 2) / 3) / l a : Ten2 ℝ) =
        diagonal l * diagonal fun a => (m a * g a - (m 0 * g 0 + m 1 * g 1 + m 2 * g 2) / 3) / l a ^ 2 := by
      rw [diagonal_mul_diagonal]; congr 1; funext a
      have := (hpos a).ne'
      field_simp
    rw [e, rotate]
    simp only [Matrix.mul_assoc]
    rw [← Matrix.mul_assoc Qᵀ Q, hq, Matrix.one_mul]
  rw [e2]
  congr 1
  rw [eC, inv_rotate _ hQ hdd, einv]
  change _ = _ • rotate Q _ - _
  rw [← rotate_smul, ← rotate_smul, ← rotate_sub, ← diagonal_smul, ← diagonal_smul, diagonal_sub]
  congr 2; funext a
  have h3 := (hmp a).ne'
  have h4 := (hpos a).ne'
  have e3 : l a = m a * (l 0 * l 1 * l 2) ^ (1 / 3 : ℝ) := by rw [hm]; field_simp
  simp only [Pi.smul_apply, smul_eq_mul]
  set q := (l 0 * l 1 * l 2) ^ (1 / 3 : ℝ) with hqq
  rw [e3]
  field_simp

/-! ### isotropic materials of any kind -/

theorem orthogonal_flip (i : Fin 3) : Orthogonal (diagonal fun a => if a = i then (-1 : ℝ) else 1 : Ten2 ℝ) := by
  rw [Orthogonal, diagonal_transpose, diagonal_mul_diagonal, ← diagonal_one]
  congr 1; funext a; split_ifs <;> norm_num

/-- Coaxiality: in every space an isotropic material returns a stress with the principal axes of the
deformation; its principal values depend on the principal stretches only. -/
theorem C52_coaxial (w : Space) (mat : Material ℝ Z μ) (z z' : Z) (s : w.St μ) (hi : Material.Isotropic mat z)
    {l : Fin 3 → ℝ} (hl : ∀ a, l a ≠ 0) {P : Ten2 ℝ} (h : Returns ((w.obj {} mat).gradient (diagonal l) z) s (.full P, z')) :
    ∃ p : Fin 3 → ℝ, P = diagonal p ∧ ∀ R Q : Ten2 ℝ, Orthogonal R → Orthogonal Q →
      Returns ((w.obj {} mat).gradient (R * diagonal l * Qᵀ) z) s (.full (R * diagonal p * Qᵀ), z') := by
  have hd : (diagonal l : Ten2 ℝ).det ≠ 0 := by
    rw [det_diagonal]; exact Finset.prod_ne_zero_iff.2 fun a _ => hl a
  have hP : P = diagonal fun a => P a a := by
    ext i j
    rcases eq_or_ne i j with rfl | hij
    · rw [diagonal_apply_eq]
    rw [diagonal_apply_ne _ hij]
    have h1 := C36_gradient w mat z z' s hi hd (orthogonal_flip i) h
    have h2 := C32_gradient w mat z z' s (orthogonal_flip i) h
    have e : (diagonal l : Ten2 ℝ) * diagonal (fun a => if a = i then (-1 : ℝ) else 1) =
        diagonal (fun a => if a = i then (-1 : ℝ) else 1) * diagonal l := by
      rw [diagonal_mul_diagonal, diagonal_mul_diagonal]; congr 1; funext a; ring
    rw [e, Returns, h2] at h1
    have h3 := Stress.full.inj (congrArg Prod.fst (Except.ok.inj h1))
    have h4 := congrFun (congrFun h3 i) j
    rw [diagonal_mul, mul_diagonal, if_pos rfl, if_neg hij.symm] at h4
    linarith
  refine ⟨fun a => P a a, hP, fun R Q hR hQ => ?_⟩
  rw [← hP]
  refine C36_gradient w mat z z' s hi ?_ hQ.transpose (C32_gradient w mat z z' s hR h)
  rw [det_mul]; exact mul_ne_zero hR.det_ne_zero hd

/-! ### Ogden -/

/-- The derivative of the Ogden energy with respect to a stretch. -/
noncomputable def ogdenSlope (mu alpha : List ℝ) (l : ℝ) : ℝ :=
  ((mu.zip alpha).map fun p => 2 * p.1 / p.2 * l ^ (p.2 - 1)).sum

theorem ogden_returns (mu alpha : List ℝ) (ha : ∀ a ∈ alpha, a ≠ 0) (l : Fin 3 → ℝ) (z : Z) :
    Returns ((Ogden.mat ⟨mu, alpha⟩).gradient l z) () (fun a => ogdenSlope mu alpha (l a), z) := by
  have hz : ∀ p ∈ mu.zip alpha, p.2 ≠ 0 := fun p hp => ha _ (List.of_mem_zip hp).2
  simp only [Returns, Ogden.mat, PyM.lift_run, Ogden.gradient_eq]
  rw [if_pos hz]
  rfl

/-- The principal stresses of Ogden's model. -/
theorem C52_ogden (lapack : Eigh) (hl : EighValid lapack) (mu alpha : List ℝ) (ha : ∀ a ∈ alpha, a ≠ 0)
    (z : Z) (s : DefSt (StrSt Unit)) {l : Fin 3 → ℝ} (hpos : Positive l) {R Q : Ten2 ℝ} (hR : Orthogonal R)
    (hQ : Orthogonal Q) :
    Returns ((Deformation.obj {} (Stretches.material lapack (Ogden.mat ⟨mu, alpha⟩))).gradient (R * diagonal l * Qᵀ) z) s
      (.full (R * diagonal (fun a => ((mu.zip alpha).map fun p => 2 * p.1 / p.2 * l a ^ (p.2 - 1)).sum) * Qᵀ), z) :=
  C52_deformation lapack hl _ (Ogden.symmetric _) hpos hR hQ (ogden_returns mu alpha ha l z)

/-- The hypotheses are met. -/
example : (∃ lapack, EighValid lapack) ∧ Positive ![2, 1, (1 : ℝ)] ∧ (∀ a ∈ [(2 : ℝ), -2], a ≠ 0) ∧
    Orthogonal !![0, 1, 0; -1, 0, 0; 0, 0, (1 : ℝ)] := by
  refine ⟨exists_eigh, ?_, by simp, ?_⟩
  · intro a; fin_cases a <;> simp
  · ext i j; fin_cases i <;> fin_cases j <;> simp [Matrix.mul_apply, Fin.sum_univ_three]

end Props
