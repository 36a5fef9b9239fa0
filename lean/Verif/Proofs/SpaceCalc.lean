import Verif.Proofs.Space
import Verif.Proofs.InvFramework
import Verif.Spec.Kinematics
import Mathlib.Analysis.SpecialFunctions.Pow.Deriv

/-! Calculus for the spaces. -/

namespace Spec
open Matrix Filter Topology

variable {F : ℝ → Ten2 ℝ} {F' : Ten2 ℝ} {C : ℝ → Ten2 ℝ} {C' : Ten2 ℝ} {t₀ : ℝ}

theorem moves_cauchyGreen (hF : Moves F F' t₀) :
    Moves (fun t => cauchyGreen (F t)) (F'ᵀ * F t₀ + (F t₀)ᵀ * F') t₀ := hF.transpose.mul hF

theorem cauchyGreen_symm (F : Ten2 ℝ) : (cauchyGreen F).IsSymm := by
  rw [Matrix.IsSymm, cauchyGreen, Matrix.transpose_mul, Matrix.transpose_transpose]

theorem det_cauchyGreen (F : Ten2 ℝ) : (cauchyGreen F).det = F.det ^ 2 := by
  rw [cauchyGreen, Matrix.det_mul, Matrix.det_transpose, sq]

theorem det_cauchyGreen_pos {F : Ten2 ℝ} (h : F.det ≠ 0) : 0 < (cauchyGreen F).det := by
  rw [det_cauchyGreen]; positivity

theorem symInv_cauchyGreen {F : Ten2 ℝ} (h : F.det ≠ 0) : SymInv (cauchyGreen F) :=
  ⟨cauchyGreen_symm F, (det_cauchyGreen_pos h).ne'⟩

/-- work of `P = F S` -/
theorem contract22_mul (F F' : Ten2 ℝ) {S : Ten2 ℝ} (hS : S.IsSymm) :
    contract22 (F * S) F' = (1 / 2) * contract22 S (F'ᵀ * F + Fᵀ * F') := by
  have h1 : contract22 S (F'ᵀ * F) = contract22 S (Fᵀ * F') := by
    rw [← contract22_symm_right hS (Fᵀ * F'), Matrix.transpose_mul, Matrix.transpose_transpose]
  rw [contract22_add_right, h1, contract22_eq_trace, contract22_eq_trace, Matrix.transpose_mul, hS.eq,
    Matrix.mul_assoc]
  ring

/-- the first Piola-Kirchhoff elasticity applied to a velocity -/
theorem contract42_piola (F F' S : Ten2 ℝ) (hS : S.IsSymm) {H : Ten4 ℝ} (hH : MinorSymm H) :
    contract42 (fun i J k L => (∑ I, ∑ K, F i I * F k K * H I J K L) + dyadIK (1 : Ten2 ℝ) S i J k L) F' =
      F' * S + F * ((1 / 2 : ℝ) • contract42 H (F'ᵀ * F + Fᵀ * F')) := by
  have h1 : contract42 H (F'ᵀ * F) = contract42 H (Fᵀ * F') := by
    rw [← contract42_symm_right hH (Fᵀ * F'), Matrix.transpose_mul, Matrix.transpose_transpose]
  have h2 : (1 / 2 : ℝ) • contract42 H (F'ᵀ * F + Fᵀ * F') = contract42 H (Fᵀ * F') := by
    rw [contract42_add_right, h1, ← two_smul ℝ, smul_smul]; norm_num
  have h3 : contract42 (dyadIK (1 : Ten2 ℝ) S) F' = F' * S := by
    ext i j
    have hs : ∀ i j, S i j = S j i := fun i j => (hS.apply i j).symm
    simp only [contract42, dyadIK, Matrix.one_apply, Matrix.mul_apply, ite_mul, one_mul, zero_mul]
    rw [Finset.sum_eq_single i]
    · exact Finset.sum_congr rfl fun l _ => by rw [if_pos rfl, hs j l]; ring
    · intro k _ hk; simp [hk.symm]
    · simp
  rw [contract42_add, h2, h3, add_comm]
  congr 1
  ext i j
  simp only [contract42, Matrix.mul_apply, Matrix.transpose_apply, Fin.sum_univ_three]
  ring

theorem moves_det_rpow (hC : SymInv (C t₀)) (hd : 0 < (C t₀).det) (hm : Moves C C' t₀) (e : ℝ) :
    HasDerivAt (fun t => (C t).det ^ e)
      (e * ((C t₀).det ^ e * contract22 (C t₀)⁻¹ C')) t₀ := by
  have h1 : HasDerivAt (fun t => (C t).det) ((C t₀).det * contract22 (C t₀)⁻¹ C') t₀ :=
    moves_invariants hC hm 2
  refine (h1.rpow_const (p := e) (Or.inl hd.ne')).congr_deriv ?_
  rw [Real.rpow_sub_one hd.ne']
  field_simp

theorem moves_unimodular (hC : SymInv (C t₀)) (hd : 0 < (C t₀).det) (hm : Moves C C' t₀) :
    Moves (fun t => unimodular (C t)) ((C t₀).det ^ (-1 / 3 : ℝ) •
      (C' - (1 / 3 * contract22 (C t₀)⁻¹ C') • C t₀)) t₀ := by
  have h1 := Moves.smul (moves_det_rpow hC hd hm (-1 / 3)) hm
  intro i j
  refine (h1 i j).congr_deriv ?_
  simp only [Matrix.add_apply, Matrix.smul_apply, Matrix.sub_apply, smul_eq_mul]
  ring

theorem moves_dilatational (hC : SymInv (C t₀)) (hd : 0 < (C t₀).det) (hm : Moves C C' t₀) :
    Moves (fun t => dilatational (C t))
      ((1 / 3 * ((C t₀).det ^ (1 / 3 : ℝ) * contract22 (C t₀)⁻¹ C')) • (1 : Ten2 ℝ)) t₀ := by
  have h1 := Moves.smul (moves_det_rpow hC hd hm (1 / 3)) (Moves.const (t₀ := t₀) 1)
  intro i j
  refine (h1 i j).congr_deriv ?_
  simp only [Matrix.add_apply, Matrix.smul_apply, Matrix.zero_apply, smul_eq_mul]
  ring

/-- the distortional second Piola-Kirchhoff stress -/
noncomputable def distS (C G : Ten2 ℝ) : Ten2 ℝ :=
  (2 * C.det ^ (-1 / 3 : ℝ)) • G -
    (contract22 ((2 * C.det ^ (-1 / 3 : ℝ)) • G) C / 3) • C⁻¹

/-- its rate -/
noncomputable def distS' (C C' G Y : Ten2 ℝ) : Ten2 ℝ :=
  (1 / 3 : ℝ) • (contract22 ((2 * C.det ^ (-1 / 3 : ℝ)) • G) C • (C⁻¹ * C' * C⁻¹) -
    contract22 C⁻¹ C' • ((2 * C.det ^ (-1 / 3 : ℝ)) • G) -
    contract22 ((2 * C.det ^ (-1 / 3 : ℝ)) • G) C' • C⁻¹ +
    (contract22 ((2 * C.det ^ (-1 / 3 : ℝ)) • G) C / 3 * contract22 C⁻¹ C') • C⁻¹) +
  (2 * C.det ^ (-1 / 3 : ℝ)) • (Y - (contract22 C Y / 3) • C⁻¹)

theorem moves_distS (hC : SymInv (C t₀)) (hd : 0 < (C t₀).det) (hm : Moves C C' t₀)
    {G : ℝ → Ten2 ℝ} {Y : Ten2 ℝ} (hG : Moves G Y t₀) :
    Moves (fun t => distS (C t) (G t)) (distS' (C t₀) C' (G t₀) Y) t₀ := by
  have h1 := Moves.smul ((moves_det_rpow hC hd hm (-1 / 3)).const_mul 2) hG
  have h2 := h1.contract22 hm
  have h3 := Moves.smul (h2.div_const 3) (hm.inv hC.2)
  have h4 := h1.sub h3
  intro i j
  refine (h4 i j).congr_deriv ?_
  simp only [distS', contract22_comm (C t₀) Y, Matrix.add_apply, Matrix.smul_apply, Matrix.sub_apply, Matrix.neg_apply,
    smul_eq_mul, contract22_add_left, contract22_smul_left]
  ring

/-- the dilatational second Piola-Kirchhoff stress -/
noncomputable def dilS (C G : Ten2 ℝ) : Ten2 ℝ :=
  (((2 * C.det ^ (1 / 3 : ℝ)) • G).trace / 3) • C⁻¹

theorem moves_dilS (hC : SymInv (C t₀)) (hd : 0 < (C t₀).det) (hm : Moves C C' t₀)
    {G : ℝ → Ten2 ℝ} {Y : Ten2 ℝ} (hG : Moves G Y t₀) :
    Moves (fun t => dilS (C t) (G t))
      (((((2 * (C t₀).det ^ (1 / 3 : ℝ)) • G t₀).trace / 3 * contract22 (C t₀)⁻¹ C' +
        ((2 * (C t₀).det ^ (1 / 3 : ℝ)) • Y).trace) / 3) • (C t₀)⁻¹ -
        (((2 * (C t₀).det ^ (1 / 3 : ℝ)) • G t₀).trace / 3) • ((C t₀)⁻¹ * C' * (C t₀)⁻¹)) t₀ := by
  have h1 := Moves.smul ((moves_det_rpow hC hd hm (1 / 3)).const_mul 2) hG
  have h3 := Moves.smul (h1.trace.div_const 3) (hm.inv hC.2)
  intro i j
  refine (h3 i j).congr_deriv ?_
  simp only [Matrix.add_apply, Matrix.smul_apply, Matrix.sub_apply, Matrix.neg_apply,
    smul_eq_mul, Matrix.trace_add, Matrix.trace_smul]
  ring

end Spec

namespace Hel
open Spec Matrix

theorem T2_rcg (F : Ten2 ℝ) : T2 (rightCauchyGreen F) = cauchyGreen F := T2_rightCauchyGreen F

/-! ### piola -/

theorem piolaStress_default (F : Ten2 ℝ) (S : Vec6 ℝ) (d : Option ℝ) :
    piolaStress {} F S d = .full (F * T2 S) := by
  rfl

theorem cdya_ik_eye (S : Vec6 ℝ) : cdya_ik eye S = dyadIK (1 : Ten2 ℝ) (T2 S) := by
  rw [← T2_eye]
  exact Props.C06_cdya_ik (T2_stores _) (T2_stores _)

theorem piolaElasticity_default (F : Ten2 ℝ) (S : Vec6 ℝ) (d : Option ℝ) (C4 : Mat6 ℝ)
    (invC : Option (Vec6 ℝ)) :
    piolaElasticity {} F S d C4 invC = .full (fun i J k L =>
      (∑ I, ∑ K, F i I * F k K * astensor4 C4 I J K L) + dyadIK (1 : Ten2 ℝ) (T2 S) i J k L) := by
  rw [← cdya_ik_eye]
  rfl

namespace Distortional

theorem T2_cu (F : Ten2 ℝ) : T2 (cu F) = unimodular (cauchyGreen F) := by
  have e : cu F = fun a => det (rightCauchyGreen F) ^ (-1 / 3 : ℝ) * rightCauchyGreen F a := rfl
  rw [e, T2_smul, T2_det, T2_rcg, unimodular]

theorem T2_sb (F : Ten2 ℝ) (g : Vec6 ℝ) :
    T2 (sb F g) = (2 * (cauchyGreen F).det ^ (-1 / 3 : ℝ)) • T2 g := by
  have e : sb F g = fun a => (2 * det (rightCauchyGreen F) ^ (-1 / 3 : ℝ)) * g a := rfl
  rw [e, T2_smul, T2_det, T2_rcg]

theorem T2_ic {F : Ten2 ℝ} (hF : F.det ≠ 0) : T2 (ic F) = (cauchyGreen F)⁻¹ := by
  have e : ic F = inv (rightCauchyGreen F) (some (det (rightCauchyGreen F))) := rfl
  rw [e, T2_inv, T2_rcg]
  rw [T2_rcg]
  exact (det_cauchyGreen_pos hF).ne'

theorem T2_st {F : Ten2 ℝ} (hF : F.det ≠ 0) (g : Vec6 ℝ) : T2 (st F g) = distS (cauchyGreen F) (T2 g) := by
  have e : st F g = fun a => sb F g a - ddot (sb F g) (rightCauchyGreen F) / 3 * ic F a := rfl
  rw [e, T2_sub, T2_smul, T2_ddot, T2_sb, T2_ic hF, T2_rcg, distS]

/-- the elasticity without the projected part -/
noncomputable def geoT (C G : Ten2 ℝ) : Ten4 ℝ := fun i j k l =>
  2 / 3 * (contract22 ((2 * C.det ^ (-1 / 3 : ℝ)) • G) C * dyadSym C⁻¹ C⁻¹ i j k l -
    dyad ((2 * C.det ^ (-1 / 3 : ℝ)) • G) C⁻¹ i j k l -
    dyad C⁻¹ ((2 * C.det ^ (-1 / 3 : ℝ)) • G) i j k l +
    contract22 ((2 * C.det ^ (-1 / 3 : ℝ)) • G) C / 3 * dyad C⁻¹ C⁻¹ i j k l)

/-- the projection tensor -/
noncomputable def projT (C : Ten2 ℝ) : Ten4 ℝ := fun i j k l =>
  dyadSym (1 : Ten2 ℝ) 1 i j k l - 1 / 3 * dyad C⁻¹ C i j k l

/-- its major transpose -/
noncomputable def projTt (C : Ten2 ℝ) : Ten4 ℝ := fun i j k l =>
  dyadSym (1 : Ten2 ℝ) 1 i j k l - 1 / 3 * dyad C C⁻¹ i j k l

/-- the fictitious elasticity -/
noncomputable def c4bT (C : Ten2 ℝ) (H : Ten4 ℝ) : Ten4 ℝ := fun i j k l =>
  4 * C.det ^ (-2 / 3 : ℝ) * H i j k l

open Classical in
theorem T4_c4 {F : Ten2 ℝ} (hF : F.det ≠ 0) (g : Vec6 ℝ) (h : Mat6 ℝ) :
    astensor4 (c4 F g h) =
      if ¬ allclose0 (fun a b => 4 * (cauchyGreen F).det ^ (-2 / 3 : ℝ) * h a b) then
        fun i j k l => geoT (cauchyGreen F) (T2 g) i j k l +
          contract44 (contract44 (projT (cauchyGreen F)) (c4bT (cauchyGreen F) (astensor4 h)))
            (projTt (cauchyGreen F)) i j k l
      else geoT (cauchyGreen F) (T2 g) := by
  have e1 : astensor4 (fun a b => 2 / 3 * (ddot (sb F g) (rightCauchyGreen F) * cdyaSelf (ic F) a b -
      dya (sb F g) (ic F) a b - transpose (dya (sb F g) (ic F)) a b +
      ddot (sb F g) (rightCauchyGreen F) / 3 * dya (ic F) (ic F) a b)) =
      geoT (cauchyGreen F) (T2 g) := by
    unfold geoT
    rw [← T2_sb, ← T2_ic hF, ← T4_cdyaSelf, ← T2_rcg, ← T2_ddot]
    ext i j k l
    rw [← T4_dya, ← T4_dya, ← T4_dya]
    rw [show astensor4 (dya (ic F) (sb F g)) i j k l = astensor4 (transpose (dya (sb F g) (ic F))) i j k l from by
      rw [T4_transpose, T4_dya, T4_dya]; simp only [dyad]; ring]
    rfl
  have e2 : astensor4 (fun a b => cdyaSelf eye a b - dya (ic F) (rightCauchyGreen F) a b / 3) =
      projT (cauchyGreen F) := by
    unfold projT
    rw [← T2_ic hF, ← T2_rcg, ← T2_eye, ← T4_cdyaSelf]
    ext i j k l
    rw [← T4_dya]
    show _ - _ / 3 = _
    ring_nf
    rfl
  have e3 : astensor4 (transpose (fun a b => cdyaSelf eye a b - dya (ic F) (rightCauchyGreen F) a b / 3)) =
      projTt (cauchyGreen F) := by
    rw [T4_transpose, e2]
    ext i j k l
    simp only [projT, projTt, dyadSym, dyad]
    have : ∀ i j : Fin 3, (1 : Ten2 ℝ) i j = (1 : Ten2 ℝ) j i := fun i j => by
      simp [Matrix.one_apply, eq_comm]
    rw [this k i, this l j, this k j, this i l]
    ring
  have e4 : astensor4 (fun a b => 4 * det (rightCauchyGreen F) ^ (-2 / 3 : ℝ) * h a b) =
      c4bT (cauchyGreen F) (astensor4 h) := by
    rw [T2_det, T2_rcg]
    rfl
  unfold c4
  dsimp only
  rw [T2_det (rightCauchyGreen F), T2_rcg] at *
  split_ifs with hc
  · exact e1
  · rw [← e1, ← e4, ← e2, ← e3, ← T4_ddot44, ← T4_ddot44]
    rfl

/-- the correct elasticity applied to a velocity gives the rate of the stress -/
theorem contract42_exact {C C' G : Ten2 ℝ} (hC : SymInv C) (hd : 0 < C.det) (hC' : C'.IsSymm)
    (H : Ten4 ℝ) (hH : MinorSymm H) :
    (1 / 2 : ℝ) • contract42 (fun i j k l => geoT C G i j k l +
      contract44 (contract44 (projT C) (c4bT C H)) (projTt C) i j k l) C' =
    distS' C C' G (contract42 H (C.det ^ (-1 / 3 : ℝ) • (C' - (1 / 3 * contract22 C⁻¹ C') • C))) := by
  have hi : (C⁻¹).IsSymm := by rw [Matrix.IsSymm, Matrix.transpose_nonsing_inv, hC.1.eq]
  have hp : C.det ^ (-2 / 3 : ℝ) = C.det ^ (-1 / 3 : ℝ) * C.det ^ (-1 / 3 : ℝ) := by
    rw [← Real.rpow_add hd]; norm_num
  have hY : (contract42 H (C' - (1 / 3 * contract22 C⁻¹ C') • C)).IsSymm := by
    ext i j
    simp only [Matrix.transpose_apply, contract42]
    exact Finset.sum_congr rfl fun k _ => Finset.sum_congr rfl fun l _ => by rw [hH.1 j i]
  have e1 : contract42 (projTt C) C' = C' - (1 / 3 * contract22 C⁻¹ C') • C := by
    unfold projTt
    rw [contract42_sub, contract42_smul, contract42_dyad, contract42_dyadSym_self Matrix.isSymm_one hC',
      smul_smul]
    simp
  have e2 : ∀ Y : Ten2 ℝ, Y.IsSymm → contract42 (projT C) Y = Y - (1 / 3 * contract22 C Y) • C⁻¹ := by
    intro Y hY
    unfold projT
    rw [contract42_sub, contract42_smul, contract42_dyad, contract42_dyadSym_self Matrix.isSymm_one hY,
      smul_smul]
    simp
  rw [contract42_add, contract42_contract44, contract42_contract44, e1]
  unfold c4bT
  rw [contract42_smul]
  set Y := contract42 H (C' - (1 / 3 * contract22 C⁻¹ C') • C) with hYdef
  rw [contract42_smul_right (projT C), e2 _ hY]
  rw [contract42_smul_right H, ← hYdef]
  have e3 : contract42 (geoT C G) C' = (2 / 3 : ℝ) •
      (contract22 ((2 * C.det ^ (-1 / 3 : ℝ)) • G) C • (C⁻¹ * C' * C⁻¹) -
      contract22 C⁻¹ C' • ((2 * C.det ^ (-1 / 3 : ℝ)) • G) -
      contract22 ((2 * C.det ^ (-1 / 3 : ℝ)) • G) C' • C⁻¹ +
      (contract22 ((2 * C.det ^ (-1 / 3 : ℝ)) • G) C / 3) • contract22 C⁻¹ C' • C⁻¹) := by
    unfold geoT
    rw [contract42_smul, contract42_add, contract42_sub, contract42_sub, contract42_smul,
      contract42_smul, contract42_dyad, contract42_dyad, contract42_dyad,
      contract42_dyadSym_self hi hC']
  rw [e3, hp]
  ext i j
  simp only [distS', Matrix.add_apply, Matrix.smul_apply, Matrix.sub_apply, smul_eq_mul,
    contract22_smul_right]
  ring

end Distortional

namespace Dilatational

theorem T2_co (F : Ten2 ℝ) : T2 (co F) = (cauchyGreen F).det ^ (1 / 3 : ℝ) • cauchyGreen F := by
  have e : co F = fun a => det (rightCauchyGreen F) ^ (1 / 3 : ℝ) * rightCauchyGreen F a := rfl
  rw [e, T2_smul, T2_det, T2_rcg]

theorem T2_sb (F : Ten2 ℝ) (g : Vec6 ℝ) :
    T2 (sb F g) = (2 * (cauchyGreen F).det ^ (1 / 3 : ℝ)) • T2 g := by
  have e : sb F g = fun a => (2 * det (rightCauchyGreen F) ^ (1 / 3 : ℝ)) * g a := rfl
  rw [e, T2_smul, T2_det, T2_rcg]

theorem T2_ic {F : Ten2 ℝ} (hF : F.det ≠ 0) : T2 (ic F) = (cauchyGreen F)⁻¹ := Distortional.T2_ic hF

theorem T2_st {F : Ten2 ℝ} (hF : F.det ≠ 0) (g : Vec6 ℝ) : T2 (st F g) = dilS (cauchyGreen F) (T2 g) := by
  have e : st F g = fun a => trace (sb F g) / 3 * ic F a := rfl
  rw [e, T2_smul, T2_trace, T2_sb, T2_ic hF, dilS]

/-- the elasticity -/
noncomputable def c4T (C G : Ten2 ℝ) (H : Ten4 ℝ) : Ten4 ℝ := fun i j k l =>
  (2 * ((2 * C.det ^ (1 / 3 : ℝ)) • G).trace + 4 * C.det ^ (2 / 3 : ℝ) * contract22 1 (contract42 H 1)) / 9 *
    dyad C⁻¹ C⁻¹ i j k l - 2 / 3 * ((2 * C.det ^ (1 / 3 : ℝ)) • G).trace * dyadSym C⁻¹ C⁻¹ i j k l

theorem T4_c4 {F : Ten2 ℝ} (hF : F.det ≠ 0) (g : Vec6 ℝ) (h : Mat6 ℝ) :
    astensor4 (c4 F g h) = c4T (cauchyGreen F) (T2 g) (astensor4 h) := by
  have e1 : ddot (ddot24 eye (fun a b => 4 * det (rightCauchyGreen F) ^ (2 / 3 : ℝ) * h a b)) eye =
      4 * (cauchyGreen F).det ^ (2 / 3 : ℝ) * contract22 1 (contract42 (astensor4 h) 1) := by
    rw [T2_ddot, T2_eye, T2_eq (Props.C05_ddot24 (T2_stores eye) (stores4_astensor4 _)), T2_eye, T2_det, T2_rcg]
    simp only [contract22, contract24, contract42, astensor4, Fin.sum_univ_three, Matrix.one_apply]
    simp
    ring
  unfold c4T
  rw [← e1, ← T2_sb, ← T2_trace, ← T2_ic hF, ← T4_cdyaSelf, ← T4_dya]
  ext i j k l
  have : ∀ x y w : ℝ, x * y / 9 - w = x / 9 * y - w := fun x y w => by ring
  exact this _ _ _

end Dilatational

end Hel
