import Verif.Spec.Batch
import Verif.Proofs.PyM
import Verif.Proofs.SpaceConfig
import Verif.Proofs.Stretches

/-! One point of a batch: every operation of `math/_voigt.py` acts on every point separately. -/

namespace Hel
open Spec

variable {ι : Type} (i : ι)

theorem pt_apply {n : ℕ} (v : Fin n → Arr ι) (a : Fin n) : pt i v a = v a i := rfl
theorem pt2_apply {m n : ℕ} (v : Fin m → Fin n → Arr ι) (a : Fin m) (b : Fin n) : pt2 i v a b = v a b i := rfl

theorem trace_pt (A : Vec6 (Arr ι)) : trace A i = trace (pt i A) := rfl
theorem det_pt (A : Vec6 (Arr ι)) : det A i = det (pt i A) := rfl

theorem eye_pt : pt i (eye : Vec6 (Arr ι)) = eye := by
  funext a; fin_cases a <;> rfl

theorem eye_at (a : Fin 6) : (eye : Vec6 (Arr ι)) a i = eye a := congrFun (eye_pt i) a

theorem weights_at (a : Fin 6) : (weights : Vec6 (Arr ι)) a i = weights a := by
  fin_cases a <;> rfl

theorem inv_pt (A : Vec6 (Arr ι)) (d : Option (Arr ι)) : pt i (inv A d) = inv (pt i A) (d.map (· i)) := by
  funext a
  rcases d with _ | d <;> fin_cases a <;> rfl

theorem ddot_pt (A B : Vec6 (Arr ι)) : ddot A B i = ddot (pt i A) (pt i B) := by
  simp only [ddot, Finset.sum_apply, Pi.mul_apply, weights_at, pt_apply]

theorem ddot44_pt (A B : Mat6 (Arr ι)) : pt2 i (ddot44 A B) = ddot44 (pt2 i A) (pt2 i B) := by
  funext a b
  simp only [ddot44, Finset.sum_apply, Pi.mul_apply, weights_at, pt2_apply]

theorem ddot24_pt (A : Vec6 (Arr ι)) (B : Mat6 (Arr ι)) : pt i (ddot24 A B) = ddot24 (pt i A) (pt2 i B) := by
  funext a
  simp only [ddot24, Finset.sum_apply, Pi.mul_apply, weights_at, pt2_apply, pt_apply]

theorem dya_pt (A B : Vec6 (Arr ι)) : pt2 i (dya A B) = dya (pt i A) (pt i B) := rfl

theorem writes_pt {n : ℕ} (ws : List (Fin n × Fin n × Arr ι)) (B : Fin n → Fin n → Arr ι) :
    pt2 i (writes B ws) = writes (pt2 i B) (ws.map fun w => (w.1, w.2.1, w.2.2 i)) := by
  induction ws generalizing B with
  | nil => rfl
  | cons w ws ih =>
    change pt2 i (writes (setEntry B w.1 w.2.1 w.2.2) ws) = _
    rw [ih]
    change _ = writes (setEntry (pt2 i B) w.1 w.2.1 (w.2.2 i)) _
    congr 1
    funext a b
    simp only [setEntry, pt2_apply]
    split_ifs <;> rfl

theorem cdyaValue_pt (same : Bool) (A B : Vec6 (Arr ι)) (p : Fin 6 × Fin 6) :
    cdyaValue same A B p i = cdyaValue same (pt i A) (pt i B) p := by
  cases same <;> rfl

theorem cdyaOut_pt (same : Bool) (A B : Vec6 (Arr ι)) :
    pt2 i (cdyaOut same A B none) = cdyaOut same (pt i A) (pt i B) none := by
  simp only [cdyaOut, writes_pt, List.map_map, Option.getD_none, Function.comp_def, cdyaValue_pt]
  rfl

theorem cdya_pt (A B : Vec6 (Arr ι)) : pt2 i (cdya A B) = cdya (pt i A) (pt i B) := cdyaOut_pt i false A B
theorem cdyaSelf_pt (A : Vec6 (Arr ι)) : pt2 i (cdyaSelf A) = cdyaSelf (pt i A) := cdyaOut_pt i true A A

theorem rightCauchyGreen_pt (F : Full2 (Arr ι)) :
    pt i (Batch.rightCauchyGreen F) = rightCauchyGreen (pt2 i F) := by
  funext a
  simp only [Batch.rightCauchyGreen, rightCauchyGreen, asvoigt, pt_apply, Finset.sum_apply, Pi.mul_apply, pt2_apply]

theorem piolaStress_pt (cfg : SpaceCfg) (F : Full2 (Arr ι)) (S : Vec6 (Arr ι)) (d : Option (Arr ι)) :
    Stress.at i (Batch.piolaStress cfg F S d) = piolaStress cfg (pt2 i F) (pt i S) (d.map (· i)) := by
  rcases cfg with ⟨_ | _, _ | f, _ | r⟩ <;> rcases d with _ | d <;>
    simp only [Batch.piolaStress, piolaStress, if_true, Bool.false_eq_true, if_false, Stress.at, Option.map] <;>
    congr 1 <;> funext a b <;>
    simp only [pt2_apply, Finset.sum_apply, Pi.mul_apply, Pi.div_apply, Arr.sqrt, det_pt, rightCauchyGreen_pt] <;> rfl

theorem piolaElasticity_pt (cfg : SpaceCfg) (F : Full2 (Arr ι)) (S : Vec6 (Arr ι)) (d : Option (Arr ι))
    (C4 : Mat6 (Arr ι)) (v : Option (Vec6 (Arr ι))) :
    Elasticity.at i (Batch.piolaElasticity cfg F S d C4 v) =
      piolaElasticity cfg (pt2 i F) (pt i S) (d.map (· i)) (pt2 i C4) (v.map (pt i)) := by
  have hi : ∀ (C : Vec6 (Arr ι)) (d : Arr ι) (a : Fin 6), inv C (some d) a i = inv (pt i C) (some (d i)) a := fun C d a =>
    congrFun (inv_pt i C (some d)) a
  rcases cfg with ⟨_ | _, _ | f, _ | r⟩ <;> rcases d with _ | d <;> rcases v with _ | v <;>
    simp only [Batch.piolaElasticity, piolaElasticity, if_true, Bool.false_eq_true, if_false, Elasticity.at,
      Option.map] <;>
    congr 1 <;> funext a b c e <;>
    simp only [pt2_apply, pt4, Finset.sum_apply, Pi.mul_apply, Pi.add_apply, Pi.div_apply, Arr.sqrt, det_pt,
      rightCauchyGreen_pt, cdya_ik, swap12, astensor4, dya, eye_at, hi] <;> rfl

end Hel
