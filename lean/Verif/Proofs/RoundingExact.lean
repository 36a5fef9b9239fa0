import Verif.Proofs.RoundingCert
import Verif.Props.Superposition
import Verif.Props.Work

/-! The programs of `Model/Rounding` in exact arithmetic are the functions of the other models. -/

namespace Hel.Rnd
open Spec

theorem trace_exact (A : Vec6 ℝ) : trace A = Hel.trace A := by
  simp [trace, Arith.einsum, Hel.trace, add_assoc]

theorem det_exact (A : Vec6 ℝ) : det A = Hel.det A := rfl

theorem inv_exact (A : Vec6 ℝ) (d : ℝ) : inv (fun x => x / d) A = Hel.inv A (some d) := by
  funext a
  fin_cases a <;> rfl

theorem dot_exact (A B : Vec6 ℝ) : dot A B = Hel.dot A B := rfl

theorem eye_exact : (eye : Vec6 ℝ) = Hel.eye := rfl

theorem weights_exact : (weights : Vec6 ℝ) = Hel.weights := rfl

theorem sum6_exact (t : Fin 6 → List ℝ) : sum6 t = ∑ i, (t i).prod := by
  simp [sum6, Arith.einsum, Fin.sum_univ_succ]

theorem sum3_exact (t : Fin 3 → List ℝ) : sum3 t = ∑ i, (t i).prod := by
  simp [sum3, Arith.einsum, Fin.sum_univ_succ]

theorem sum33_exact (t : Fin 3 → Fin 3 → List ℝ) : sum33 t = ∑ i, ∑ j, (t i j).prod := by
  simp [sum33, Arith.einsum, Fin.sum_univ_succ]
  ring

theorem ddot_exact (A B : Vec6 ℝ) : ddot A B = Hel.ddot A B := by
  simp [ddot, sum6_exact, Hel.ddot, weights_exact, mul_assoc]

theorem ddot44_exact (A B : Mat6 ℝ) : ddot44 A B = Hel.ddot44 A B := by
  funext i j
  simp [ddot44, sum6_exact, Hel.ddot44, weights_exact, mul_assoc]

theorem ddot42_exact (A : Mat6 ℝ) (B : Vec6 ℝ) : ddot42 A B = Hel.ddot42 A B := by
  funext i
  simp [ddot42, sum6_exact, Hel.ddot42, weights_exact, mul_assoc]

theorem ddot24_exact (A : Vec6 ℝ) (B : Mat6 ℝ) : ddot24 A B = Hel.ddot24 A B := by
  funext i
  simp [ddot24, sum6_exact, Hel.ddot24, weights_exact, mul_assoc]

theorem dya_exact (A B : Vec6 ℝ) : dya A B = Hel.dya A B := rfl

theorem dev_exact (A : Vec6 ℝ) : dev A = Hel.dev A := by
  funext a
  simp [dev, Hel.dev, Arith.divNat, trace_exact, eye_exact]

theorem cdya_ik_exact (A B : Vec6 ℝ) : cdya_ik A B = Hel.cdya_ik A B := rfl

theorem cdya_il_exact (A B : Vec6 ℝ) : cdya_il A B = Hel.cdya_il A B := rfl

theorem cdya_exact (A B : Vec6 ℝ) : cdya A B = Hel.cdya A B := by
  funext a b
  fin_cases a <;> fin_cases b <;> rfl

theorem cdyaSelf_exact (A : Vec6 ℝ) : cdyaSelf A = Hel.cdyaSelf A := by
  funext a b
  fin_cases a <;> fin_cases b <;> rfl

/-! ### third-order-deformation materials -/

theorem d1_exact (p : TOD ℝ) (x y : ℝ) : (todD1 p x y).getD 0 = p.C10 + p.C11 * (y - p.undeformed) +
    p.C20 * 2 * (x - p.undeformed) + p.C30 * 3 * (x - p.undeformed) ^ 2 := by
  unfold todD1 addIf
  by_cases h1 : p.C10 = 0 <;> by_cases h3 : p.C11 = 0 <;> by_cases h4 : p.C20 = 0 <;> by_cases h5 : p.C30 = 0 <;>
    simp [h1, h3, h4, h5, Arith.lit, Arith.sq]

theorem d2_exact (p : TOD ℝ) (x : ℝ) : (todD2 p x).getD 0 = p.C01 + p.C11 * (x - p.undeformed) := by
  unfold todD2 addIf
  by_cases h1 : p.C01 = 0 <;> by_cases h3 : p.C11 = 0 <;> simp [h1, h3, Arith.lit]

theorem d11_exact (p : TOD ℝ) (x : ℝ) :
    (todD11 p x).getD 0 = p.C20 * 2 + p.C30 * 6 * (x - p.undeformed) := by
  unfold todD11
  by_cases h1 : p.C20 = 0 <;> by_cases h3 : p.C30 = 0 <;> simp [h1, h3, Arith.lit]

theorem d12_exact (p : TOD ℝ) : (todD12 p : Option ℝ).getD 0 = p.C11 := by
  unfold todD12
  by_cases h1 : p.C11 = 0 <;> simp [h1, Arith.lit]

theorem I2_exact (C : Vec6 ℝ) : I2 C = (Hel.trace C ^ 2 - Hel.ddot C C) / 2 := by
  simp [I2, Arith.divNat, Arith.sq, trace_exact, ddot_exact]

theorem dI2dC_exact (C : Vec6 ℝ) : dI2dC C = fun a => Hel.trace C * Hel.eye a - C a := by
  funext a
  simp [dI2dC, trace_exact, eye_exact]

theorem addTerm_exact (x : ℝ) (w : Option ℝ) (t : ℝ) : addTerm x w t = x + w.getD 0 * t := by
  cases w <;> simp [addTerm]

theorem invGrad_exact (p : TOD ℝ) (C : Vec6 ℝ) : T2 (invGrad p C) = Props.todGradT p (T2 C) := by
  have : invGrad p C = fun a => (todD1 p (Hel.trace C) ((Hel.trace C ^ 2 - Hel.ddot C C) / 2)).getD 0 * Hel.eye a +
      (todD2 p (Hel.trace C)).getD 0 * (Hel.trace C * Hel.eye a - C a) := by
    funext a
    simp [invGrad, addTerm_exact, dI2dC_exact, eye_exact, I2_exact, trace_exact, Arith.lit]
  rw [this, T2_add, T2_smul, T2_smul, T2_sub, T2_smul, T2_eye, d1_exact, d2_exact, T2_inv2, T2_trace]
  rfl

theorem invHess_exact (p : TOD ℝ) (C : Vec6 ℝ) : astensor4 (invHess p C) = Props.todHessT p (T2 C) := by
  funext i j k l
  have h1 : ∀ a b, dya (K := ℝ) eye eye a b = Hel.dya Hel.eye Hel.eye a b := fun _ _ => rfl
  have h2 := congrFun (congrFun (congrFun (congrFun (T4_dya (Hel.eye : Vec6 ℝ) Hel.eye) i) j) k) l
  have h3 := congrFun (congrFun (congrFun (congrFun (T4_cdyaSelf (Hel.eye : Vec6 ℝ)) i) j) k) l
  have h4 := congrFun (congrFun (congrFun (congrFun (T4_dya (Hel.eye : Vec6 ℝ) (dI2dC C)) i) j) k) l
  have h5 := congrFun (congrFun (congrFun (congrFun (T4_dya (dI2dC C) (Hel.eye : Vec6 ℝ)) i) j) k) l
  have h6 : T2 (dI2dC C) = (T2 C).trace • (1 : Ten2 ℝ) - T2 C := by
    rw [dI2dC_exact, T2_sub, T2_smul, T2_eye, T2_trace]
  rw [h6] at h4 h5
  rw [T2_eye] at h2 h3 h4 h5
  simp only [astensor4] at h2 h3 h4 h5 ⊢
  simp only [invHess, addTerm_exact, d2I2dCdC, cdyaSelf_exact, eye_exact, dya_exact, trace_exact, h2, h3, h4, h5,
    d2_exact, d11_exact, d12_exact, T2_trace, Props.todHessT, Arith.lit, zero_add]
  rfl

theorem cauchyGreen_exact (F : Ten2 ℝ) : T2 (Rnd.cauchyGreen F) = Spec.cauchyGreen F := by
  have : Rnd.cauchyGreen F = asvoigt (fun I J => Spec.cauchyGreen F I J) := by
    funext a
    simp [Rnd.cauchyGreen, asvoigt, sum3_exact, Spec.cauchyGreen, Matrix.mul_apply]
  rw [this]
  ext i j
  have hs := (cauchyGreen_symm F)
  have := fun i j => congrFun (congrFun hs i) j
  simp only [Matrix.transpose_apply] at this
  fin_cases i <;> fin_cases j <;> simp [T2, astensor, asvoigt, tab, this] <;> exact this _ _

theorem piolaStress_exact (F : Ten2 ℝ) (S : Vec6 ℝ) : Rnd.piolaStress F S = F * T2 S := by
  funext i J
  simp [Rnd.piolaStress, sum3_exact, Matrix.mul_apply, T2]

theorem defS_exact (p : TOD ℝ) (F : Ten2 ℝ) : T2 (defS p F) = (2 : ℝ) • Props.todGradT p (Spec.cauchyGreen F) := by
  have : defS p F = fun a => 2 * invGrad p (Rnd.cauchyGreen F) a := rfl
  rw [this, T2_smul, invGrad_exact, cauchyGreen_exact]

theorem defGradient_exact (p : TOD ℝ) (F : Ten2 ℝ) :
    defGradient p F = F * ((2 : ℝ) • Props.todGradT p (Spec.cauchyGreen F)) := by
  unfold defGradient
  rw [piolaStress_exact, defS_exact]

theorem piolaElasticity_exact (F : Ten2 ℝ) (S : Vec6 ℝ) (C4 : Mat6 ℝ) :
    Rnd.piolaElasticity F S C4 = piolaT F (T2 S) (astensor4 C4) := by
  funext i J k L
  have h : Rnd.cdya_ik eye S i J k L = dyadIK (1 : Ten2 ℝ) (T2 S) i J k L := by
    rw [← T2_eye]; rfl
  simp [Rnd.piolaElasticity, sum33_exact, piolaT, h, mul_assoc]

theorem defHessian_exact (p : TOD ℝ) (F : Ten2 ℝ) :
    defHessian p F = piolaT F ((2 : ℝ) • Props.todGradT p (Spec.cauchyGreen F))
      (fun i j k l => 4 * Props.todHessT p (Spec.cauchyGreen F) i j k l) := by
  unfold defHessian
  rw [piolaElasticity_exact, defS_exact]
  congr 1
  funext i j k l
  have := congrFun (congrFun (congrFun (congrFun (invHess_exact p (Rnd.cauchyGreen F)) i) j) k) l
  rw [cauchyGreen_exact] at this
  rw [← this]
  rfl

end Hel.Rnd
