import Verif.Proofs.NonFinite
import Verif.Proofs.RoundingExact
import Verif.Proofs.SpaceUniform

/-! # The programs of `Model/NonFinite` over the real numbers are those of `Model/Space` -/

namespace Proofs.NonFin
open Hel Rnd Spec

/-- Exact arithmetic without `inf` and `nan`. -/
noncomputable instance : FloatOps ℝ where
  div x y := x / y
  sqrt := Real.sqrt
  powThird n x := x ^ ((n : ℝ) / 3)

/-- the result as one of `Model/Space` -/
def stressOfF : FStress ℝ → Stress
  | .voigt s => .voigt s
  | .full p => .full p

/-- the result as one of `Model/Space` -/
def elasticityOfF : FElasticity ℝ → Elasticity
  | .voigt s => .voigt s
  | .full p => .full p

/-- the material as one of `Model/Space`, without state -/
def materialOfF (m : FMaterial ℝ) : Material ℝ Unit Unit where
  gradient C z := pure (m.gradient C, z)
  hessian C _ := pure (m.hessian C)

theorem rcg_real (F : Full2 ℝ) : Rnd.cauchyGreen F = rightCauchyGreen F := by
  funext a; simp [Rnd.cauchyGreen, rightCauchyGreen, asvoigt, sum3_exact]

theorem spaceStress_real (cfg : SpaceCfg) (F : Full2 ℝ) (S : Vec6 ℝ) (d : Option ℝ) :
    stressOfF (spaceStress cfg F S d) = Hel.piolaStress cfg F S d := by
  rcases cfg with ⟨fin, force, area⟩
  cases fin <;> cases force <;> cases area <;> cases d <;>
    simp [spaceStress, Hel.piolaStress, stressOfF, sum3_exact, rcg_real, det_exact, FloatOps.div, FloatOps.sqrt]

theorem inv_real (C : Vec6 ℝ) (d : ℝ) : Rnd.inv (fun x => FloatOps.div x d) C = Hel.inv C (some d) := inv_exact C d

theorem spaceElasticity_real (cfg : SpaceCfg) (F : Full2 ℝ) (S : Vec6 ℝ) (d : Option ℝ) (C4 : Mat6 ℝ) (v : Option (Vec6 ℝ)) :
    elasticityOfF (spaceElasticity cfg F S d C4 v) = Hel.piolaElasticity cfg F S d C4 v := by
  have e1 : ∀ a b c : ℝ, a * (b * c) = a * b * c := fun a b c => (mul_assoc a b c).symm
  rcases cfg with ⟨fin, force, area⟩
  cases fin <;> cases force <;> cases area <;> cases d <;> cases v <;>
    simp [spaceElasticity, Hel.piolaElasticity, elasticityOfF, sum33_exact, rcg_real, det_exact, inv_real, cdya_ik_exact,
      eye_exact, e1] <;> rfl

theorem pow_real (n : ℤ) (q : ℝ) (h : (n : ℝ) / 3 = q) (x : ℝ) : powThird n x = x ^ q := by
  rw [← h]; rfl

theorem def_st_real (m : FMaterial ℝ) (F : Full2 ℝ) :
    DeformationF.S m F = fun a => 2 * m.gradient (rightCauchyGreen F) a := by
  funext a; simp only [DeformationF.S, rcg_real]; rfl

theorem dist_cu_real (F : Full2 ℝ) : DistortionalF.Cu F = Distortional.cu F := by
  funext a
  simp only [DistortionalF.Cu, DistortionalF.I3, Distortional.cu, rcg_real, det_exact,
    pow_real (-1) (-1 / 3) (by norm_num)]

theorem dist_sb_real (m : FMaterial ℝ) (F : Full2 ℝ) : DistortionalF.Sb m F = Distortional.sb F (m.gradient (Distortional.cu F)) := by
  funext a
  simp only [DistortionalF.Sb, DistortionalF.I3, Distortional.sb, rcg_real, det_exact, dist_cu_real,
    pow_real (-1) (-1 / 3) (by norm_num)]
  rfl

theorem dist_ic_real (F : Full2 ℝ) : DistortionalF.invC F = Distortional.ic F := by
  simp only [DistortionalF.invC, DistortionalF.I3, Distortional.ic, rcg_real, det_exact, inv_real]

theorem dist_st_real (m : FMaterial ℝ) (F : Full2 ℝ) : DistortionalF.S m F = Distortional.st F (m.gradient (Distortional.cu F)) := by
  funext a
  simp only [DistortionalF.S, DistortionalF.SbC, Distortional.st, dist_sb_real, dist_ic_real, ddot_exact, rcg_real]
  rfl

open Classical in
theorem dist_c4_real (m : FMaterial ℝ) (F : Full2 ℝ) : DistortionalF.C4 m F (fun X => decide (¬ Distortional.allclose0 X)) =
    Distortional.c4 F (m.gradient (Distortional.cu F)) (m.hessian (Distortional.cu F)) := by
  have e0 : ∀ a b, DistortionalF.C4b m F a b = 4 * Hel.det (rightCauchyGreen F) ^ (-2 / 3 : ℝ) * m.hessian (Distortional.cu F) a b := by
    intro a b
    simp only [DistortionalF.C4b, DistortionalF.I3, rcg_real, det_exact, dist_cu_real, pow_real (-2) (-2 / 3) (by norm_num)]
    rfl
  have e1 : DistortionalF.C4b m F = fun a b => 4 * Hel.det (rightCauchyGreen F) ^ (-2 / 3 : ℝ) * m.hessian (Distortional.cu F) a b := by
    funext a b; exact e0 a b
  have e2 : DistortionalF.P4 F = fun a b => Hel.cdyaSelf Hel.eye a b - Hel.dya (Distortional.ic F) (rightCauchyGreen F) a b / 3 := by
    funext a b
    simp only [DistortionalF.P4, cdyaSelf_exact, eye_exact, dist_ic_real, dya_exact, rcg_real]
    rfl
  funext a b
  simp only [DistortionalF.C4, DistortionalF.geo, DistortionalF.SbC, Distortional.c4, e1, e2, dist_sb_real, dist_ic_real,
    ddot_exact, rcg_real, ddot44_exact, cdyaSelf_exact, dya_exact]
  by_cases h : Distortional.allclose0 fun a b => 4 * Hel.det (rightCauchyGreen F) ^ (-2 / 3 : ℝ) * m.hessian (Distortional.cu F) a b
  · simp only [h, not_true_eq_false, decide_false, if_false, Bool.false_eq_true]
    rfl
  · simp only [h, not_false_eq_true, decide_true, if_true]
    rfl

theorem dil_co_real (F : Full2 ℝ) : DilatationalF.Co F = Dilatational.co F := by
  funext a
  simp only [DilatationalF.Co, DilatationalF.I3, Dilatational.co, rcg_real, det_exact,
    pow_real 1 (1 / 3) (by norm_num)]

theorem dil_sb_real (m : FMaterial ℝ) (F : Full2 ℝ) : DilatationalF.Sb m F = Dilatational.sb F (m.gradient (Dilatational.co F)) := by
  funext a
  simp only [DilatationalF.Sb, DilatationalF.I3, Dilatational.sb, rcg_real, det_exact, dil_co_real,
    pow_real 1 (1 / 3) (by norm_num)]
  rfl

theorem dil_ic_real (F : Full2 ℝ) : DilatationalF.invC F = Dilatational.ic F := by
  simp only [DilatationalF.invC, DilatationalF.I3, Dilatational.ic, rcg_real, det_exact, inv_real]

theorem dil_st_real (m : FMaterial ℝ) (F : Full2 ℝ) : DilatationalF.S m F = Dilatational.st F (m.gradient (Dilatational.co F)) := by
  funext a
  simp only [DilatationalF.S, DilatationalF.trSb, Dilatational.st, dil_sb_real, dil_ic_real, trace_exact]
  rfl

theorem dil_c4_real (m : FMaterial ℝ) (F : Full2 ℝ) : DilatationalF.C4 m F =
    Dilatational.c4 F (m.gradient (Dilatational.co F)) (m.hessian (Dilatational.co F)) := by
  have e1 : DilatationalF.C4b m F = fun a b => 4 * Hel.det (rightCauchyGreen F) ^ (2 / 3 : ℝ) * m.hessian (Dilatational.co F) a b := by
    funext a b
    simp only [DilatationalF.C4b, DilatationalF.I3, rcg_real, det_exact, dil_co_real, pow_real 2 (2 / 3) (by norm_num)]
    rfl
  funext a b
  simp only [DilatationalF.C4, DilatationalF.trSb, Dilatational.c4, e1, dil_sb_real, dil_ic_real, trace_exact,
    ddot_exact, ddot24_exact, eye_exact, cdyaSelf_exact, dya_exact]
  rfl

end Proofs.NonFin
