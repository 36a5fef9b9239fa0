import Verif.Proofs.RoundingStretches
import Verif.Props.RoundingSplit

/-! Rounded Ogden materials in the distortional and in the dilatational space. -/

namespace Hel.Rnd
open Spec Matrix

namespace IsHom

variable {K L : Type} [Arith K] [Arith L] {f : K → L} (hf : IsHom f)

include hf

theorem distStress {d : K → K} {d' : L → L} (hd : ∀ x, f (d x) = d' (f x)) (t : K) (X C : Vec6 K) (a : Fin 6) :
    f (Rnd.distStress t d X C a) = Rnd.distStress (f t) d' (fun a => f (X a)) (fun a => f (C a)) a := by
  simp only [Rnd.distStress, hf.sub, hf.mul, hf.lit, hf.divNat, hf.ddot, hf.inv hd]

theorem dilStress {d : K → K} {d' : L → L} (hd : ∀ x, f (d x) = d' (f x)) (t : K) (X C : Vec6 K) (a : Fin 6) :
    f (Rnd.dilStress t d X C a) = Rnd.dilStress (f t) d' (fun a => f (X a)) (fun a => f (C a)) a := by
  simp only [Rnd.dilStress, hf.mul, hf.lit, hf.divNat, hf.trace, hf.inv hd]

end IsHom

/-! ### exact values -/

theorem distStress_exact (X C : Vec6 ℝ) {d t : ℝ} (hd : d = (T2 C).det) (h : d ≠ 0)
    (ht : t = (T2 C).det ^ (-1 / 3 : ℝ)) : T2 (Rnd.distStress t (fun x => x / d) X C) = Spec.distS (T2 C) (T2 X) := by
  have e : Rnd.distStress t (fun x => x / d) X C = fun a => (2 * t) * X a -
      (ddot (fun a => (2 * t) * X a) C / 3) * inv (fun x => x / d) C a := rfl
  rw [e, T2_sub, T2_smul, T2_smul, T2_inv_exact hd h, ddot_exact, T2_ddot, T2_smul, ht]
  rfl

theorem dilStress_exact (X C : Vec6 ℝ) {d t : ℝ} (hd : d = (T2 C).det) (h : d ≠ 0)
    (ht : t = (T2 C).det ^ (1 / 3 : ℝ)) : T2 (Rnd.dilStress t (fun x => x / d) X C) = Spec.dilS (T2 C) (T2 X) := by
  have e : Rnd.dilStress t (fun x => x / d) X C = fun a =>
      (trace (fun a => (2 * t) * X a) / 3) * inv (fun x => x / d) C a := rfl
  rw [e, T2_smul, T2_inv_exact hd h, trace_exact, T2_trace, T2_smul, ht]
  rfl

/-! ### majorants -/

namespace Maj

theorem val_Sb (t : Maj) (X : Vec6 Maj) : T2 (val6 fun a => (lit 2 : Maj) * t * X a) = (2 * t.val) • T2 (val6 X) := by
  have e : (val6 fun a => (lit 2 : Maj) * t * X a) = fun a => (2 * t.val) * val6 X a := by
    funext a; simp [val6]
  rw [e, T2_smul]

theorem val_distStress (X C : Vec6 Maj) (t : Maj) (d : ℝ) :
    T2 (val6 (Rnd.distStress t (fun x => ⟨x.val / d⟩) X C)) =
      (2 * t.val) • T2 (val6 X) + (contract22 ((2 * t.val) • T2 (val6 X)) (T2 (val6 C)) / 3 / d) • cofP (T2 (val6 C)) := by
  have hS := val_Sb t X
  ext i j
  have h1 := congrFun (congrFun hS i) j
  have h2 := val_inv d C i j
  have h3 : (ddot (fun a => (lit 2 : Maj) * t * X a) C).val = contract22 ((2 * t.val) • T2 (val6 X)) (T2 (val6 C)) := by
    rw [val_ddot, T2_ddot, hS]
  rw [Matrix.add_apply, ← h1, Matrix.smul_apply, smul_eq_mul, ← h3]
  change (_ : ℝ) + (_ / ((3 : ℕ+) : ℕ)) * (inv (fun x => ⟨x.val / d⟩) C (tab i j)).val = _
  rw [h2]
  push_cast
  change (_ : ℝ) + _ = (_ : ℝ) + _
  congr 1
  ring

theorem val_dilStress (X C : Vec6 Maj) (t : Maj) (d : ℝ) :
    T2 (val6 (Rnd.dilStress t (fun x => ⟨x.val / d⟩) X C)) =
      (((2 * t.val) • T2 (val6 X)).trace / 3 / d) • cofP (T2 (val6 C)) := by
  have hS := val_Sb t X
  ext i j
  have h2 := val_inv d C i j
  have h3 : (trace (fun a => (lit 2 : Maj) * t * X a)).val = ((2 * t.val) • T2 (val6 X)).trace := by
    rw [val_trace, T2_trace, hS]
  rw [Matrix.smul_apply, smul_eq_mul, ← h3]
  change (_ / ((3 : ℕ+) : ℕ) : ℝ) * (inv (fun x => ⟨x.val / d⟩) C (tab i j)).val = _
  rw [h2]
  push_cast
  ring

end Maj

/-! ### numbers of roundings -/

namespace Cnt

theorem le_distStress {X C : Vec6 Cnt} {a b : ℕ} (hX : ∀ i, Le (X i) 0 0) (h : ∀ i, Le (C i) a b) (i : Fin 6) :
    Le (Rnd.distStress ⟨1, 0⟩ divQ X C i) (3 * a + 2) (3 * b + 17) := by
  have h1 : ∀ i, Le ((lit 2 : Cnt) * ⟨1, 0⟩ * X i) 1 2 := fun i => by
    have := hX i
    simp only [Le, a_mul, b_mul, a_lit, b_lit] at this ⊢
    omega
  have h2 := le_ddot h1 h
  have h3 := le_inv h i
  have h4 := h1 i
  simp only [Le, Rnd.distStress, a_sub, b_sub, a_mul, b_mul, a_divNat, b_divNat] at h4 h2 h3 ⊢
  omega

theorem le_dilStress {X C : Vec6 Cnt} {a b : ℕ} (hX : ∀ i, Le (X i) 0 0) (h : ∀ i, Le (C i) a b) (i : Fin 6) :
    Le (Rnd.dilStress ⟨1, 0⟩ divQ X C i) (3 * a + 2) (3 * b + 17) := by
  have h1 : ∀ i, Le ((lit 2 : Cnt) * ⟨1, 0⟩ * X i) 1 2 := fun i => by
    have := hX i
    simp only [Le, a_mul, b_mul, a_lit, b_lit] at this ⊢
    omega
  have h2 := le_trace h1
  have h3 := le_inv h i
  simp only [Le, Rnd.dilStress, a_mul, b_mul, a_divNat, b_divNat] at h2 h3 ⊢
  omega

end Cnt

/-! ### certified stresses for a given derivative of the energy -/

/-- A certified deformation gradient: the numbers `F'` instead of `F`, with the relative accuracy `q ^ k - 1`. -/
structure DataFor (T : Ctx) (A : Full2 (Cert T)) (F F' : Ten2 ℝ) (k : ℕ) : Prop where
  fl : ∀ i j, (A i j).fl = F' i j
  ex : ∀ i j, (A i j).ex = F i j
  m : ∀ i j, (A i j).m = |F i j|
  cnt : ∀ i j, Cnt.Le (A i j).cnt k 0

theorem dataFor_lit (T : Ctx) (F : Ten2 ℝ) : DataFor T (fun i j => lit (F i j)) F F 0 :=
  ⟨fun _ _ => rfl, fun _ _ => rfl, fun _ _ => rfl, fun _ _ => ⟨le_rfl, le_rfl⟩⟩

theorem dataFor_rel (T : Ctx) {F F' : Ten2 ℝ} (h : ∀ i j, |F' i j - F i j| ≤ (T.q - 1) * |F i j|) :
    DataFor T (relData T h) F F' 1 :=
  ⟨fun _ _ => rfl, fun _ _ => rfl, fun _ _ => rfl, fun _ _ => ⟨le_rfl, le_rfl⟩⟩

section
variable {T : Ctx} {A : Full2 (Cert T)} {F F' : Ten2 ℝ} {k : ℕ} (hA : DataFor T A F F' k)
include hA

theorem DataFor.flc : (fun i j => (A i j).flc) = T.R.arr33 F' := by
  funext i j; exact congrArg Fl.mk (hA.fl i j)

theorem DataFor.exc : (fun i j => (A i j).ex) = F := by
  funext i j; exact hA.ex i j

theorem DataFor.mc : (fun i j => (A i j).mc) = fun i j => (lit (F i j) : Maj) := by
  funext i j; exact congrArg Maj.mk (hA.m i j)

/-- The computed tensor `t C`. -/
theorem DataFor.scaled {s s' : ℝ} (hs : 0 < s) (hs' : |s' - s| ≤ (T.q - 1) * |s|) (a : Fin 6) :
    ∃ x : Cert T, x.fl = ((⟨s'⟩ : Fl T.R) * Rnd.cauchyGreen (T.R.arr33 F') a).val ∧
      x.ex = s * Rnd.cauchyGreen F a ∧ x.m = s * (Rnd.cauchyGreen (fun i j => (lit (F i j) : Maj)) a).val ∧
      Cnt.Le x.cnt (2 * k + 1) 6 := by
  refine ⟨Cert.rel s s' hs' * Rnd.cauchyGreen A a, ?_, ?_, ?_, ?_⟩
  · have h := Cert.hom_fl.mul (Cert.rel s s' hs') (Rnd.cauchyGreen A a)
    rw [Cert.hom_fl.cauchyGreen, hA.flc] at h
    exact congrArg Fl.val h
  · have h := Cert.hom_ex.mul (Cert.rel s s' hs') (Rnd.cauchyGreen A a)
    rw [Cert.hom_ex.cauchyGreen, hA.exc] at h
    exact h
  · have h := Cert.hom_m.mul (Cert.rel s s' hs') (Rnd.cauchyGreen A a)
    rw [Cert.hom_m.cauchyGreen, hA.mc] at h
    refine (congrArg Maj.val h).trans ?_
    change |s| * _ = _
    rw [abs_of_pos hs]
  · rw [Cert.hom_cnt.mul, Cert.hom_cnt.cauchyGreen]
    obtain ⟨h1, h2⟩ := Cnt.le_cauchyGreen_of hA.cnt a
    constructor
    · rw [Cnt.a_mul]; change 1 + _ ≤ _; omega
    · rw [Cnt.b_mul]; change 0 + _ + 1 ≤ _; omega

/-- The distortional stress of the given derivative `X` of the energy. -/
theorem DataFor.distortional (hd : 0 < (Spec.cauchyGreen F).det) {d' s' : ℝ}
    (hdet : |d' - (Spec.cauchyGreen F).det| ≤ (1 - 1 / T.q) * |(Spec.cauchyGreen F).det|)
    (hs' : |s' - (Spec.cauchyGreen F).det ^ (-1 / 3 : ℝ)| ≤ (T.q - 1) * |(Spec.cauchyGreen F).det ^ (-1 / 3 : ℝ)|)
    (X : Vec6 ℝ) (i J : Fin 3) :
    ∃ x : Cert T, x.fl = (piolaStress (T.R.arr33 F')
        (distStress ⟨s'⟩ (T.R.divBy ⟨d'⟩) (T.R.arr6 X) (Rnd.cauchyGreen (T.R.arr33 F'))) i J).val ∧
      x.ex = (F * Spec.distS (Spec.cauchyGreen F) (T2 X)) i J ∧
      (∀ N, (∀ a, |X a| ≤ N) → x.m ≤ N * distortionalUnit F i J) ∧ Cnt.Le x.cnt (7 * k + 2) 37 := by
  let t : Cert T := Cert.rel _ _ hs'
  let D : Cert T → Cert T := Cert.divBy _ _ hd.ne' hdet
  let S : Vec6 (Cert T) := Rnd.distStress t D (fun a => lit (X a)) (Rnd.cauchyGreen A)
  have hsp := Real.rpow_pos_of_pos hd (-1 / 3)
  refine ⟨Rnd.piolaStress A S i J, ?_, ?_, ?_, ?_⟩
  · have h1 := Cert.hom_fl.piolaStress A S i J
    have h2 := fun a => Cert.hom_fl.distStress (d := D) (d' := T.R.divBy ⟨d'⟩) (fun x => rfl) t (fun a => lit (X a))
      (Rnd.cauchyGreen A) a
    simp only [S, h2, Cert.hom_fl.cauchyGreen, hA.flc] at h1
    exact congrArg Fl.val h1
  · have h1 := Cert.hom_ex.piolaStress A S i J
    have h2 := fun a => Cert.hom_ex.distStress (d := D) (d' := fun x => x / (Spec.cauchyGreen F).det) (fun x => rfl) t
      (fun a => lit (X a)) (Rnd.cauchyGreen A) a
    simp only [S, h2, Cert.hom_ex.cauchyGreen, hA.exc] at h1
    refine h1.trans ?_
    change Rnd.piolaStress F (Rnd.distStress ((Spec.cauchyGreen F).det ^ (-1 / 3 : ℝ))
      (fun x => x / (Spec.cauchyGreen F).det) X (Rnd.cauchyGreen F)) i J = _
    rw [piolaStress_exact, distStress_exact _ _ (by rw [cauchyGreen_exact]) hd.ne' (by rw [cauchyGreen_exact]),
      cauchyGreen_exact]
  · intro N hN
    have h1 := Cert.hom_m.piolaStress A S i J
    have h2 := fun a => Cert.hom_m.distStress (d := D) (d' := fun x => ⟨x.val / |(Spec.cauchyGreen F).det|⟩) (fun x => rfl) t
      (fun a => lit (X a)) (Rnd.cauchyGreen A) a
    simp only [S, h2, Cert.hom_m.cauchyGreen, hA.mc] at h1
    refine (congrArg Maj.val h1).le.trans ?_
    change (Rnd.piolaStress (K := Maj) (fun i j => lit (F i j)) (Rnd.distStress (⟨|(Spec.cauchyGreen F).det ^ (-1 / 3 : ℝ)|⟩)
      (fun x => ⟨x.val / |(Spec.cauchyGreen F).det|⟩) (fun a => lit (X a)) (Rnd.cauchyGreen fun i j => lit (F i j))) i J).val ≤ _
    rw [Maj.val_piolaStress, Maj.val_distStress, Maj.val_cauchyGreen, cauchyGreen_exact, abs_of_pos hd, abs_of_pos hsp]
    rw [distortionalUnit, Matrix.mul_apply, Matrix.mul_apply, Finset.mul_sum]
    set C := Spec.cauchyGreen (abs2 F) with hC
    have hC0 : ∀ i j, 0 ≤ C i j := cauchyGreen_abs_nonneg F
    have hX : ∀ i j, T2 (Maj.val6 fun a => (lit (X a) : Maj)) i j ≤ N := fun i j => hN (tab i j)
    have hcof : ∀ i j, 0 ≤ cofP C i j := fun i j => by
      unfold cofP
      exact add_nonneg (mul_nonneg (hC0 _ _) (hC0 _ _)) (mul_nonneg (hC0 _ _) (hC0 _ _))
    have hcon : contract22 ((2 * (Spec.cauchyGreen F).det ^ (-1 / 3 : ℝ)) • T2 (Maj.val6 fun a => (lit (X a) : Maj))) C ≤
        N * contract22 (fun _ _ => 2 * (Spec.cauchyGreen F).det ^ (-1 / 3 : ℝ)) C := by
      unfold contract22
      rw [Finset.mul_sum]
      refine Finset.sum_le_sum fun p _ => ?_
      rw [Finset.mul_sum]
      refine Finset.sum_le_sum fun r _ => ?_
      rw [Matrix.smul_apply, smul_eq_mul]
      have h3 := mul_le_mul_of_nonneg_left (hX p r) (mul_nonneg (by positivity : 0 ≤ 2 * (Spec.cauchyGreen F).det ^ (-1 / 3 : ℝ)) (hC0 p r))
      linarith
    refine Finset.sum_le_sum fun I _ => ?_
    rw [mul_left_comm]
    refine mul_le_mul_of_nonneg_left ?_ (abs_nonneg _)
    change (2 * (Spec.cauchyGreen F).det ^ (-1 / 3 : ℝ)) * T2 (Maj.val6 fun a => (lit (X a) : Maj)) I J +
      contract22 ((2 * (Spec.cauchyGreen F).det ^ (-1 / 3 : ℝ)) • T2 (Maj.val6 fun a => (lit (X a) : Maj))) C / 3 /
        (Spec.cauchyGreen F).det * cofP C I J ≤ N * (2 * (Spec.cauchyGreen F).det ^ (-1 / 3 : ℝ) +
      contract22 (fun _ _ => 2 * (Spec.cauchyGreen F).det ^ (-1 / 3 : ℝ)) C / 3 / (Spec.cauchyGreen F).det * cofP C I J)
    rw [mul_add]
    refine add_le_add ?_ ?_
    · have := mul_le_mul_of_nonneg_left (hX I J) (by positivity : 0 ≤ 2 * (Spec.cauchyGreen F).det ^ (-1 / 3 : ℝ))
      linarith
    · rw [← mul_assoc]
      refine mul_le_mul_of_nonneg_right ?_ (hcof I J)
      rw [← mul_div_assoc, ← mul_div_assoc]
      gcongr
  · have h1 := Cert.hom_cnt.piolaStress A S i J
    have h2 := fun a => Cert.hom_cnt.distStress (d := D) (d' := Cnt.divQ) (fun x => rfl) t (fun a => lit (X a))
      (Rnd.cauchyGreen A) a
    simp only [S, h2, Cert.hom_cnt.cauchyGreen] at h1
    rw [h1]
    exact (Cnt.le_piolaStress_of hA.cnt (Cnt.le_distStress (fun _ => ⟨le_rfl, le_rfl⟩) (Cnt.le_cauchyGreen_of hA.cnt)) i J).mono
      (by omega) (by omega)

/-- The dilatational stress of the given derivative `X` of the energy. -/
theorem DataFor.dilatational (hd : 0 < (Spec.cauchyGreen F).det) {d' s' : ℝ}
    (hdet : |d' - (Spec.cauchyGreen F).det| ≤ (1 - 1 / T.q) * |(Spec.cauchyGreen F).det|)
    (hs' : |s' - (Spec.cauchyGreen F).det ^ (1 / 3 : ℝ)| ≤ (T.q - 1) * |(Spec.cauchyGreen F).det ^ (1 / 3 : ℝ)|)
    (X : Vec6 ℝ) (i J : Fin 3) :
    ∃ x : Cert T, x.fl = (piolaStress (T.R.arr33 F')
        (dilStress ⟨s'⟩ (T.R.divBy ⟨d'⟩) (T.R.arr6 X) (Rnd.cauchyGreen (T.R.arr33 F'))) i J).val ∧
      x.ex = (F * Spec.dilS (Spec.cauchyGreen F) (T2 X)) i J ∧
      (∀ N, (∀ a, |X a| ≤ N) → x.m ≤ N * dilatationalUnit F i J) ∧ Cnt.Le x.cnt (7 * k + 2) 37 := by
  let t : Cert T := Cert.rel _ _ hs'
  let D : Cert T → Cert T := Cert.divBy _ _ hd.ne' hdet
  let S : Vec6 (Cert T) := Rnd.dilStress t D (fun a => lit (X a)) (Rnd.cauchyGreen A)
  have hsp := Real.rpow_pos_of_pos hd (1 / 3)
  refine ⟨Rnd.piolaStress A S i J, ?_, ?_, ?_, ?_⟩
  · have h1 := Cert.hom_fl.piolaStress A S i J
    have h2 := fun a => Cert.hom_fl.dilStress (d := D) (d' := T.R.divBy ⟨d'⟩) (fun x => rfl) t (fun a => lit (X a))
      (Rnd.cauchyGreen A) a
    simp only [S, h2, Cert.hom_fl.cauchyGreen, hA.flc] at h1
    exact congrArg Fl.val h1
  · have h1 := Cert.hom_ex.piolaStress A S i J
    have h2 := fun a => Cert.hom_ex.dilStress (d := D) (d' := fun x => x / (Spec.cauchyGreen F).det) (fun x => rfl) t
      (fun a => lit (X a)) (Rnd.cauchyGreen A) a
    simp only [S, h2, Cert.hom_ex.cauchyGreen, hA.exc] at h1
    refine h1.trans ?_
    change Rnd.piolaStress F (Rnd.dilStress ((Spec.cauchyGreen F).det ^ (1 / 3 : ℝ))
      (fun x => x / (Spec.cauchyGreen F).det) X (Rnd.cauchyGreen F)) i J = _
    rw [piolaStress_exact, dilStress_exact _ _ (by rw [cauchyGreen_exact]) hd.ne' (by rw [cauchyGreen_exact]),
      cauchyGreen_exact]
  · intro N hN
    have h1 := Cert.hom_m.piolaStress A S i J
    have h2 := fun a => Cert.hom_m.dilStress (d := D) (d' := fun x => ⟨x.val / |(Spec.cauchyGreen F).det|⟩) (fun x => rfl) t
      (fun a => lit (X a)) (Rnd.cauchyGreen A) a
    simp only [S, h2, Cert.hom_m.cauchyGreen, hA.mc] at h1
    refine (congrArg Maj.val h1).le.trans ?_
    change (Rnd.piolaStress (K := Maj) (fun i j => lit (F i j)) (Rnd.dilStress (⟨|(Spec.cauchyGreen F).det ^ (1 / 3 : ℝ)|⟩)
      (fun x => ⟨x.val / |(Spec.cauchyGreen F).det|⟩) (fun a => lit (X a)) (Rnd.cauchyGreen fun i j => lit (F i j))) i J).val ≤ _
    rw [Maj.val_piolaStress, Maj.val_dilStress, Maj.val_cauchyGreen, cauchyGreen_exact, abs_of_pos hd, abs_of_pos hsp]
    rw [dilatationalUnit, Matrix.mul_apply, Matrix.mul_apply, Finset.mul_sum]
    set C := Spec.cauchyGreen (abs2 F) with hC
    have hC0 : ∀ i j, 0 ≤ C i j := cauchyGreen_abs_nonneg F
    have hX : ∀ i j, T2 (Maj.val6 fun a => (lit (X a) : Maj)) i j ≤ N := fun i j => hN (tab i j)
    have hcof : ∀ i j, 0 ≤ cofP C i j := fun i j => by
      unfold cofP
      exact add_nonneg (mul_nonneg (hC0 _ _) (hC0 _ _)) (mul_nonneg (hC0 _ _) (hC0 _ _))
    have hcon : ((2 * (Spec.cauchyGreen F).det ^ (1 / 3 : ℝ)) • T2 (Maj.val6 fun a => (lit (X a) : Maj))).trace ≤
        N * Matrix.trace (fun _ _ => 2 * (Spec.cauchyGreen F).det ^ (1 / 3 : ℝ) : Ten2 ℝ) := by
      unfold Matrix.trace
      rw [Finset.mul_sum]
      refine Finset.sum_le_sum fun p _ => ?_
      change (2 * (Spec.cauchyGreen F).det ^ (1 / 3 : ℝ)) * T2 (Maj.val6 fun a => (lit (X a) : Maj)) p p ≤
        N * (2 * (Spec.cauchyGreen F).det ^ (1 / 3 : ℝ))
      have h3 := mul_le_mul_of_nonneg_left (hX p p) (by positivity : 0 ≤ 2 * (Spec.cauchyGreen F).det ^ (1 / 3 : ℝ))
      linarith
    refine Finset.sum_le_sum fun I _ => ?_
    rw [mul_left_comm]
    refine mul_le_mul_of_nonneg_left ?_ (abs_nonneg _)
    change ((2 * (Spec.cauchyGreen F).det ^ (1 / 3 : ℝ)) • T2 (Maj.val6 fun a => (lit (X a) : Maj))).trace / 3 /
        (Spec.cauchyGreen F).det * cofP C I J ≤ N * (Matrix.trace (fun _ _ => 2 * (Spec.cauchyGreen F).det ^ (1 / 3 : ℝ) : Ten2 ℝ) / 3 /
          (Spec.cauchyGreen F).det * cofP C I J)
    rw [← mul_assoc]
    refine mul_le_mul_of_nonneg_right ?_ (hcof I J)
    rw [← mul_div_assoc, ← mul_div_assoc]
    gcongr
  · have h1 := Cert.hom_cnt.piolaStress A S i J
    have h2 := fun a => Cert.hom_cnt.dilStress (d := D) (d' := Cnt.divQ) (fun x => rfl) t (fun a => lit (X a))
      (Rnd.cauchyGreen A) a
    simp only [S, h2, Cert.hom_cnt.cauchyGreen] at h1
    rw [h1]
    exact (Cnt.le_piolaStress_of hA.cnt (Cnt.le_dilStress (fun _ => ⟨le_rfl, le_rfl⟩) (Cnt.le_cauchyGreen_of hA.cnt)) i J).mono
      (by omega) (by omega)

theorem DataFor.scaled_frob {s s' : ℝ} (hs : 0 < s) (hs' : |s' - s| ≤ (T.q - 1) * |s|) :
    frob (T2 (fun a => ((⟨s'⟩ : Fl T.R) * Rnd.cauchyGreen (T.R.arr33 F') a).val) - s • Spec.cauchyGreen F) ≤
      (T.E (2 * k + 1) 6 - 1) * (s * frob F ^ 2) := by
  have h0 : 0 ≤ T.E (2 * k + 1) 6 - 1 := sub_nonneg.2 (T.one_le_E _ _)
  have h : ∀ i j, |T2 (fun a => ((⟨s'⟩ : Fl T.R) * Rnd.cauchyGreen (T.R.arr33 F') a).val) i j - (s • Spec.cauchyGreen F) i j| ≤
      (T.E (2 * k + 1) 6 - 1) * (s • Spec.cauchyGreen (abs2 F)) i j := fun i j => by
    obtain ⟨x, h1, h2, h3, h4⟩ := hA.scaled hs hs' (tab i j)
    have h5 := x.err_mono h4.1 h4.2
    have e1 : Rnd.cauchyGreen F (tab i j) = Spec.cauchyGreen F i j := by
      rw [← cauchyGreen_exact]; rfl
    have e2 : (Rnd.cauchyGreen (fun i j => (lit (F i j) : Maj)) (tab i j)).val = Spec.cauchyGreen (abs2 F) i j := by
      have : T2 (Maj.val6 (Rnd.cauchyGreen fun i j => (lit (F i j) : Maj))) = Spec.cauchyGreen (abs2 F) := by
        rw [Maj.val_cauchyGreen, cauchyGreen_exact]; rfl
      rw [← this]; rfl
    rw [h1, h2, h3, e1, e2] at h5
    exact h5
  refine (frob_of_within h0 h fun i j => ?_).trans (mul_le_mul_of_nonneg_left ?_ h0)
  · rw [Matrix.smul_apply, smul_eq_mul]
    exact mul_nonneg hs.le (cauchyGreen_abs_nonneg F i j)
  · rw [frob_smul, abs_of_pos hs]
    exact mul_le_mul_of_nonneg_left (frob_cauchyGreen_abs F) hs.le

theorem DataFor.scaled_le {s s' : ℝ} (hs : 0 < s) (hs' : |s' - s| ≤ (T.q - 1) * |s|) :
    frob (T2 (fun a => ((⟨s'⟩ : Fl T.R) * Rnd.cauchyGreen (T.R.arr33 F') a).val)) ≤ T.E (2 * k + 1) 6 * (s * frob F ^ 2) := by
  have h1 := frob_add_le (T2 (fun a => ((⟨s'⟩ : Fl T.R) * Rnd.cauchyGreen (T.R.arr33 F') a).val) - s • Spec.cauchyGreen F)
    (s • Spec.cauchyGreen F)
  rw [sub_add_cancel, frob_smul, abs_of_pos hs] at h1
  have h2 := frob_mul_le Fᵀ F
  rw [frob_transpose, ← pow_two] at h2
  have h3 : frob (Spec.cauchyGreen F) ≤ frob F ^ 2 := h2
  have h4 := mul_le_mul_of_nonneg_left h3 hs.le
  linarith [hA.scaled_frob hs hs']

end

/-- Errors of the data of a certified linear function. -/
theorem Cert.perturbed {T : Ctx} {f : Ten2 ℝ → ℝ} {U fl : ℝ} {a b : ℕ} {g : Vec6 ℝ} {E : Ten2 ℝ} {N δ : ℝ}
    (hf : ∀ A B, f (A - B) = f A - f B) (hE : E.IsSymm)
    (hx : ∀ X : Vec6 ℝ, ∃ x : Cert T, (X = g → x.fl = fl) ∧ x.ex = f (T2 X) ∧ (∀ N, (∀ a, |X a| ≤ N) → x.m ≤ N * U) ∧
      Cnt.Le x.cnt a b)
    (hN : ∀ i j, |E i j| ≤ N) (hg : ∀ i, |g i - asvoigt E i| ≤ δ) :
    |fl - f E| ≤ (T.E a b * (N + δ) - N) * U := by
  obtain ⟨x, h1, h2, h3, h4⟩ := hx g
  obtain ⟨y, -, k2, k3, -⟩ := hx fun i => g i - asvoigt E i
  have hE' : T2 (asvoigt E) = E := T2_eq (Props.C01_asvoigt_stores hE)
  rw [T2_sub, hf, hE'] at k2
  have e1 := x.err_mono h4.1 h4.2
  have e2 := h3 (N + δ) fun i => by
    have := abs_sub_abs_le_abs_sub (g i) (asvoigt E i)
    have h5 : |asvoigt E i| ≤ N := hN _ _
    linarith [hg i]
  have e3 := y.maj.trans (k3 δ hg)
  rw [h1 rfl, h2] at e1
  rw [k2] at e3
  have e4 := e1.trans (mul_le_mul_of_nonneg_left e2 (sub_nonneg.2 (T.one_le_E a b)))
  refine (abs_sub_le _ (f (T2 g)) _).trans ((add_le_add e4 e3).trans_eq ?_)
  ring

theorem distS_sub (C A B : Ten2 ℝ) : Spec.distS C (A - B) = Spec.distS C A - Spec.distS C B := by
  ext i j
  simp only [Spec.distS, contract22, Matrix.sub_apply, Matrix.smul_apply, smul_eq_mul, Fin.sum_univ_three]
  ring

theorem dilS_sub (C A B : Ten2 ℝ) : Spec.dilS C (A - B) = Spec.dilS C A - Spec.dilS C B := by
  ext i j
  simp only [Spec.dilS, Matrix.trace, Matrix.diag_apply, Matrix.sub_apply, Matrix.smul_apply, smul_eq_mul, Fin.sum_univ_three]
  ring

section
variable {Z : Type} (R : RoundingSqrt) (lapack solver : Eigh) {q Q : ℝ} (hQ : 1 ≤ Q) {A : Full2 (Cert (ctxQ R hQ))} {F F' : Ten2 ℝ}
  {k : ℕ}

/-- The computed distortional stress of an Ogden material. -/
theorem rounded_ogden_distortional (hA : DataFor (ctxQ R hQ) A F F' k) (hl : EighValid lapack) {ε a b L G η : ℝ} (hε : 0 ≤ ε)
    {mu alpha : List ℝ} (hα : ∀ p ∈ alpha, p ≠ 0) (hF : F.det ≠ 0)
    (hdet : |(Rnd.det (Rnd.cauchyGreen (R.arr33 F'))).val - (Spec.cauchyGreen F).det| ≤ (1 - 1 / Q) * |(Spec.cauchyGreen F).det|)
    (hpow : |R.pow (Rnd.det (Rnd.cauchyGreen (R.arr33 F'))).val (R.div (-1) 3) - (Spec.cauchyGreen F).det ^ (-1 / 3 : ℝ)| ≤
      (Q - 1) * |(Spec.cauchyGreen F).det ^ (-1 / 3 : ℝ)|)
    (hη : η = ((1 + ε) * (Q ^ (2 * k + 1) * (1 + R.u) ^ 6) - 1) * ((Spec.cauchyGreen F).det ^ (-1 / 3 : ℝ) * frob F ^ 2))
    (hB : OgdenBounds R.u ε mu alpha (a - η) (b + η) L G q) (z : Z) {P : Ten2 ℝ}
    (hC : SpectrumIn (unimodular (Spec.cauchyGreen F)) a b)
    (hs : ∀ C : Ten2 ℝ, C.IsSymm → EighAccurate ε C (solver C).1 (solver C).2)
    (hP : SpaceObj.Grad (Distortional.obj {} (Stretches.material lapack (Ogden.mat ⟨mu, alpha⟩))) z F P) (i J : Fin 3) :
    |R.ogdenDistortional solver ⟨mu, alpha⟩ F' i J - P i J| ≤
      ((Q ^ (7 * k + 2) * q ^ 4 * (1 + R.u) ^ ((mu.zip alpha).length + 49) - 1) * (3 * G) +
        Q ^ (7 * k + 2) * (1 + R.u) ^ 37 * L * η) * distortionalUnit F i J := by
  obtain ⟨E, hE, rfl⟩ := (Distortional.grad_iff _ _ hF).1 hP
  have hd := det_cauchyGreen_pos hF
  have hsp := Real.rpow_pos_of_pos hd (-1 / 3)
  have h1 := (ctxQ R hQ).one_le_E (2 * k + 1) 6
  have hf := sq_nonneg (frob F)
  set s := (Spec.cauchyGreen F).det ^ (-1 / 3 : ℝ) with hsdef
  have hE1 : (ctxQ R hQ).E (2 * k + 1) 6 = Q ^ (2 * k + 1) * (1 + R.u) ^ 6 := rfl
  obtain ⟨hsym, hM, hg⟩ := rounded_gradient_at R lapack solver hl hε hα (η := η)
    (c := fun a => ((⟨R.pow (Rnd.det (Rnd.cauchyGreen (R.arr33 F'))).val (R.div (-1) 3)⟩ : Fl R.toRounding) *
      Rnd.cauchyGreen (R.arr33 F') a).val)
    (η1 := ((ctxQ R hQ).E (2 * k + 1) 6 - 1) * (s * frob F ^ 2)) (η2 := ε * ((ctxQ R hQ).E (2 * k + 1) 6 * (s * frob F ^ 2)))
    (by rw [hη, ← hE1]; ring) (mul_nonneg (by linarith) (by positivity)) (by positivity) hB z hC
    (hA.scaled_frob hsp hpow) (mul_le_mul_of_nonneg_left (hA.scaled_le hsp hpow) hε) (hs _ (T2_stores _).symm) hE
  have := Cert.perturbed (T := ctxQ R hQ) (f := fun X => (F * Spec.distS (Spec.cauchyGreen F) X) i J)
    (U := distortionalUnit F i J) (fl := R.ogdenDistortional solver ⟨mu, alpha⟩ F' i J) (a := 7 * k + 2) (b := 37)
    (fun A B => by rw [distS_sub, Matrix.mul_sub, Matrix.sub_apply]) hsym (fun X => by
      obtain ⟨x, k1, k2, k3, k4⟩ := hA.distortional hd hdet hpow X i J
      exact ⟨x, fun h => by rw [k1, h]; rfl, k2, k3, k4⟩) hM hg
  refine this.trans_eq ?_
  congr 1
  rw [show (ctxQ R hQ).E (7 * k + 2) 37 = Q ^ (7 * k + 2) * (1 + R.u) ^ 37 from rfl]
  ring

/-- The computed dilatational stress of an Ogden material. -/
theorem rounded_ogden_dilatational (hA : DataFor (ctxQ R hQ) A F F' k) (hl : EighValid lapack) {ε a b L G η : ℝ} (hε : 0 ≤ ε)
    {mu alpha : List ℝ} (hα : ∀ p ∈ alpha, p ≠ 0) (hF : F.det ≠ 0)
    (hdet : |(Rnd.det (Rnd.cauchyGreen (R.arr33 F'))).val - (Spec.cauchyGreen F).det| ≤ (1 - 1 / Q) * |(Spec.cauchyGreen F).det|)
    (hpow : |R.pow (Rnd.det (Rnd.cauchyGreen (R.arr33 F'))).val (R.div 1 3) - (Spec.cauchyGreen F).det ^ (1 / 3 : ℝ)| ≤
      (Q - 1) * |(Spec.cauchyGreen F).det ^ (1 / 3 : ℝ)|)
    (hη : η = ((1 + ε) * (Q ^ (2 * k + 1) * (1 + R.u) ^ 6) - 1) * ((Spec.cauchyGreen F).det ^ (1 / 3 : ℝ) * frob F ^ 2))
    (hB : OgdenBounds R.u ε mu alpha (a - η) (b + η) L G q) (z : Z) {P : Ten2 ℝ}
    (hC : SpectrumIn ((Spec.cauchyGreen F).det ^ (1 / 3 : ℝ) • Spec.cauchyGreen F) a b)
    (hs : ∀ C : Ten2 ℝ, C.IsSymm → EighAccurate ε C (solver C).1 (solver C).2)
    (hP : SpaceObj.Grad (Dilatational.obj {} (Stretches.material lapack (Ogden.mat ⟨mu, alpha⟩))) z F P) (i J : Fin 3) :
    |R.ogdenDilatational solver ⟨mu, alpha⟩ F' i J - P i J| ≤
      ((Q ^ (7 * k + 2) * q ^ 4 * (1 + R.u) ^ ((mu.zip alpha).length + 49) - 1) * (3 * G) +
        Q ^ (7 * k + 2) * (1 + R.u) ^ 37 * L * η) * dilatationalUnit F i J := by
  obtain ⟨E, hE, rfl⟩ := (Dilatational.grad_iff _ _ hF).1 hP
  have hd := det_cauchyGreen_pos hF
  have hsp := Real.rpow_pos_of_pos hd (1 / 3)
  have h1 := (ctxQ R hQ).one_le_E (2 * k + 1) 6
  have hf := sq_nonneg (frob F)
  set s := (Spec.cauchyGreen F).det ^ (1 / 3 : ℝ) with hsdef
  have hE1 : (ctxQ R hQ).E (2 * k + 1) 6 = Q ^ (2 * k + 1) * (1 + R.u) ^ 6 := rfl
  obtain ⟨hsym, hM, hg⟩ := rounded_gradient_at R lapack solver hl hε hα (η := η)
    (c := fun a => ((⟨R.pow (Rnd.det (Rnd.cauchyGreen (R.arr33 F'))).val (R.div 1 3)⟩ : Fl R.toRounding) *
      Rnd.cauchyGreen (R.arr33 F') a).val)
    (η1 := ((ctxQ R hQ).E (2 * k + 1) 6 - 1) * (s * frob F ^ 2)) (η2 := ε * ((ctxQ R hQ).E (2 * k + 1) 6 * (s * frob F ^ 2)))
    (by rw [hη, ← hE1]; ring) (mul_nonneg (by linarith) (by positivity)) (by positivity) hB z hC
    (hA.scaled_frob hsp hpow) (mul_le_mul_of_nonneg_left (hA.scaled_le hsp hpow) hε) (hs _ (T2_stores _).symm) hE
  have := Cert.perturbed (T := ctxQ R hQ) (f := fun X => (F * Spec.dilS (Spec.cauchyGreen F) X) i J)
    (U := dilatationalUnit F i J) (fl := R.ogdenDilatational solver ⟨mu, alpha⟩ F' i J) (a := 7 * k + 2) (b := 37)
    (fun A B => by rw [dilS_sub, Matrix.mul_sub, Matrix.sub_apply]) hsym (fun X => by
      obtain ⟨x, k1, k2, k3, k4⟩ := hA.dilatational hd hdet hpow X i J
      exact ⟨x, fun h => by rw [k1, h]; rfl, k2, k3, k4⟩) hM hg
  refine this.trans_eq ?_
  congr 1
  rw [show (ctxQ R hQ).E (7 * k + 2) 37 = Q ^ (7 * k + 2) * (1 + R.u) ^ 37 from rfl]
  ring

end

end Hel.Rnd
