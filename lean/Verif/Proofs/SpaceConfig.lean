import Verif.Proofs.SpaceApi
import Verif.Proofs.Rotate

/-! The force/area configurations, in terms of full tensors. -/

namespace Hel
open Spec Matrix

variable {Z μ : Type}

theorem rcg_rotate {Q : Ten2 ℝ} (hQ : Orthogonal Q) (F : Ten2 ℝ) :
    rightCauchyGreen (Q * F) = rightCauchyGreen F := by
  apply T2_injective
  have h : Qᵀ * Q = 1 := hQ
  rw [T2_rcg, T2_rcg, cauchyGreen, cauchyGreen, Matrix.transpose_mul, Matrix.mul_assoc,
    ← Matrix.mul_assoc Qᵀ, h, Matrix.one_mul]

theorem piolaStress_area (F : Ten2 ℝ) (S : Vec6 ℝ) (d : Option ℝ) :
    piolaStress { area := none } F S d =
      .full (pushArea F (F * T2 S) (d.getD (Real.sqrt (cauchyGreen F).det))) := by
  simp only [piolaStress, if_true]
  congr 1
  ext i j
  simp only [pushArea, Matrix.smul_apply, Matrix.mul_apply, Matrix.transpose_apply, smul_eq_mul]
  rw [div_eq_inv_mul]
  congr 1
  · cases d with
    | none => simp only [Option.getD_none]; rw [T2_det, T2_rcg]
    | some d => rfl
  · exact Finset.sum_congr rfl fun J _ => by rw [mul_comm]; rfl

theorem piolaStress_ref (f : Int) (F : Ten2 ℝ) (S : Vec6 ℝ) (d : Option ℝ) :
    piolaStress { force := some f } F S d = .full (T2 S) := rfl

theorem piolaStress_ref_area (f : Int) (F : Ten2 ℝ) (S : Vec6 ℝ) (d : Option ℝ) :
    piolaStress { force := some f, area := none } F S d =
      .full (pushArea F (T2 S) (d.getD (Real.sqrt (cauchyGreen F).det))) := by
  simp only [piolaStress, if_true]
  congr 1
  ext i j
  simp only [pushArea, Matrix.smul_apply, Matrix.mul_apply, Matrix.transpose_apply, smul_eq_mul]
  rw [div_eq_inv_mul]
  congr 1
  · cases d with
    | none => simp only [Option.getD_none]; rw [T2_det, T2_rcg]
    | some d => rfl
  · exact Finset.sum_congr rfl fun J _ => by rw [mul_comm]; rfl

/-- the elasticity with the forces in the undeformed configuration -/
noncomputable def refT (F S : Ten2 ℝ) (C4 : Ten4 ℝ) : Ten4 ℝ := fun I J K L =>
  C4 I J K L + dyadIK (cauchyGreen F)⁻¹ S I J K L

theorem cdya_ik_T2 (A S : Vec6 ℝ) : cdya_ik A S = dyadIK (T2 A) (T2 S) :=
  Props.C06_cdya_ik (T2_stores _) (T2_stores _)

theorem piolaElasticity_force (F : Ten2 ℝ) (S : Vec6 ℝ) (d : Option ℝ) (C4 : Mat6 ℝ)
    (invC : Option (Vec6 ℝ)) :
    piolaElasticity {} F S d C4 invC = .full (piolaT F (T2 S) (astensor4 C4)) :=
  piolaElasticity_default ..

theorem piolaElasticity_area (F : Ten2 ℝ) (S : Vec6 ℝ) (d : Option ℝ) (C4 : Mat6 ℝ)
    (invC : Option (Vec6 ℝ)) :
    piolaElasticity { area := none } F S d C4 invC = .full (pushArea4 F
      (piolaT F (T2 S) (astensor4 C4)) (d.getD (Real.sqrt (cauchyGreen F).det))) := by
  simp only [piolaElasticity, if_true, cdya_ik_eye]
  congr 1
  ext i j k l
  simp only [pushArea4]
  rw [div_eq_inv_mul]
  congr 1
  cases d with
  | none => simp only [Option.getD_none]; rw [T2_det, T2_rcg]
  | some d => rfl

theorem piolaElasticity_ref (f : Int) {F : Ten2 ℝ} (hF : F.det ≠ 0) (S : Vec6 ℝ) (d : Option ℝ)
    (C4 : Mat6 ℝ) (invC : Option (Vec6 ℝ)) (hi : ∀ v, invC = some v → T2 v = (cauchyGreen F)⁻¹) :
    piolaElasticity { force := some f } F S d C4 invC = .full (refT F (T2 S) (astensor4 C4)) := by
  cases invC with
  | none =>
    simp only [piolaElasticity, if_true, cdya_ik_T2]
    rw [show T2 (inv (rightCauchyGreen F) (some (det (rightCauchyGreen F)))) = (cauchyGreen F)⁻¹ from
      Distortional.T2_ic hF]
    rfl
  | some v =>
    simp only [piolaElasticity, if_true, cdya_ik_T2, hi v rfl]
    rfl

theorem piolaElasticity_ref_area (f : Int) {F : Ten2 ℝ} (hF : F.det ≠ 0) (S : Vec6 ℝ) (d : Option ℝ)
    (C4 : Mat6 ℝ) (invC : Option (Vec6 ℝ)) (hi : ∀ v, invC = some v → T2 v = (cauchyGreen F)⁻¹) :
    piolaElasticity { force := some f, area := none } F S d C4 invC = .full (pushArea4 F
      (refT F (T2 S) (astensor4 C4)) (d.getD (Real.sqrt (cauchyGreen F).det))) := by
  have hs : √(det (rightCauchyGreen F)) = √(cauchyGreen F).det := by rw [T2_det, T2_rcg]
  cases invC with
  | none =>
    simp only [piolaElasticity, if_true, cdya_ik_T2]
    rw [show T2 (inv (rightCauchyGreen F) (some (det (rightCauchyGreen F)))) = (cauchyGreen F)⁻¹ from
      Distortional.T2_ic hF]
    congr 1
    ext i j k l
    simp only [pushArea4]
    rw [div_eq_inv_mul]
    congr 1
    cases d with
    | none => simp only [Option.getD_none]; rw [hs]
    | some d => rfl
  | some v =>
    simp only [piolaElasticity, if_true, cdya_ik_T2, hi v rfl]
    congr 1
    ext i j k l
    simp only [pushArea4]
    rw [div_eq_inv_mul]
    congr 1
    cases d with
    | none => simp only [Option.getD_none]; rw [hs]
    | some d => rfl

/-- pushing the force indices forward turns the reference elasticity into the first
Piola-Kirchhoff elasticity -/
theorem pushForce4_refT {F : Ten2 ℝ} (hF : F.det ≠ 0) (S : Ten2 ℝ) (C4 : Ten4 ℝ) :
    pushForce4 F (refT F S C4) = piolaT F S C4 := by
  have hu : IsUnit F.det := isUnit_iff_ne_zero.2 hF
  have h1 : F * (cauchyGreen F)⁻¹ * Fᵀ = 1 := by
    rw [cauchyGreen, Matrix.mul_inv_rev, ← Matrix.mul_assoc, Matrix.mul_nonsing_inv _ hu, Matrix.one_mul,
      Matrix.nonsing_inv_mul _ (by rwa [Matrix.det_transpose])]
  ext i J k L
  simp only [pushForce4, refT, piolaT, mul_add, Finset.sum_add_distrib]
  congr 1
  have h2 := congrFun (congrFun h1 i) k
  simp only [Matrix.mul_apply, Matrix.transpose_apply, Finset.sum_mul] at h2
  rw [Finset.sum_comm] at h2
  simp only [dyadIK]
  rw [← h2, Finset.sum_mul]
  refine Finset.sum_congr rfl fun I _ => ?_
  rw [Finset.sum_mul]
  exact Finset.sum_congr rfl fun K _ => by ring

end Hel
