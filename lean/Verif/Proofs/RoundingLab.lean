import Verif.Spec.RoundingLab
import Verif.Proofs.RoundingPow
import Verif.Props.RoundingSplit

/-! Rounded curves: data which are known with a relative accuracy. -/

namespace Hel.Rnd
open Spec

namespace Cert

variable {T : Ctx}

/-- The division by given data. -/
noncomputable def divData (d : ℝ) (hd : d ≠ 0) (x : Cert T) : Cert T where
  fl := T.R.div x.fl d
  ex := x.ex / d
  m := x.m / |d|
  a := x.a
  b := x.b + 1
  maj := by
    rw [abs_div]
    exact div_le_div_of_nonneg_right x.maj (abs_nonneg _)
  err := by
    have hn : (0 : ℝ) < |d| := abs_pos.2 hd
    refine round1 (T.R.div_error _ _ hd) ?_ ?_
    · rw [abs_div, ← mul_div_assoc]
      exact div_le_div_of_nonneg_right x.fl_le hn.le
    · rw [← sub_div, abs_div, ← mul_div_assoc]
      exact div_le_div_of_nonneg_right x.err hn.le

end Cert

namespace IsHom

variable {K L : Type} [Arith K] [Arith L] {f : K → L} (hf : IsHom f)

include hf

theorem loadStress {d : K → K} {d' : L → L} (hd : ∀ x, f (d x) = d' (f x)) (F P : Full2 K) :
    f (Rnd.loadStress d F P) = Rnd.loadStress d' (fun i j => f (F i j)) fun i j => f (P i j) := by
  simp only [Rnd.loadStress, hf.sub, hd, hf.mul]

end IsHom

namespace Cnt

theorem le_cauchyGreen_of {F : Full2 Cnt} {a b : ℕ} (hF : ∀ i j, Le (F i j) a b) (i : Fin 6) :
    Le (Rnd.cauchyGreen F i) (2 * a) (2 * b + 5) := by
  refine (le_sum3 (p := 2) (a := 2 * a) (b := 2 * b) (fun k => ?_) fun k => le_rfl).mono le_rfl le_rfl
  exact (le_prod (a := a) (b := b) (by simp [hF])).mono (by simp) (by simp)

theorem le_piolaStress_of {F : Full2 Cnt} {a b a' b' : ℕ} (hF : ∀ i j, Le (F i j) a' b') {S : Vec6 Cnt} (hS : ∀ i, Le (S i) a b)
    (i j : Fin 3) : Le (Rnd.piolaStress F S i j) (a' + a) (b' + b + 5) := by
  refine le_sum3 (p := 2) (b := b' + b) (fun k => ?_) fun k => le_rfl
  obtain ⟨h1, h2⟩ := hF i k
  obtain ⟨h3, h4⟩ := hS (tab k j)
  exact ⟨by change (F i k).a + ((S (tab k j)).a + 0) ≤ _; omega, by change (F i k).b + ((S (tab k j)).b + 0) ≤ _; omega⟩

theorem le_defGradient_of (p : TOD ℝ) {F : Full2 Cnt} (hF : ∀ i j, Le (F i j) 1 0) (i j : Fin 3) :
    Le (defGradient p F i j) 5 36 := by
  refine le_piolaStress_of hF (a := 4) (b := 31) (fun k => ?_) i j
  obtain ⟨h1, h2⟩ := le_invGrad p (le_cauchyGreen_of hF) k
  exact ⟨by simp only [defS, a_mul, a_lit]; omega, by simp only [defS, b_mul, b_lit]; omega⟩

theorem le_Sb_of (p : TOD ℝ) {C : Vec6 Cnt} {a b : ℕ} (h : ∀ i, Le (C i) a b) (i : Fin 6) :
    Le ((lit 2 : Cnt) * ⟨1, 0⟩ * invGrad p (fun a => (⟨1, 0⟩ : Cnt) * C a) i) (2 * a + 3) (2 * b + 24) := by
  have h1 : ∀ i, Le ((⟨1, 0⟩ : Cnt) * C i) (a + 1) (b + 1) := fun i => by
    have := h i
    simp only [Le] at this ⊢
    simp only [a_mul, b_mul]
    omega
  have h2 := le_invGrad p h1 i
  simp only [Le, a_mul, b_mul, a_lit, b_lit] at h2 ⊢
  omega

theorem le_distS_of (p : TOD ℝ) {C : Vec6 Cnt} {a b : ℕ} (h : ∀ i, Le (C i) a b) (i : Fin 6) :
    Le (Rnd.distS ⟨1, 0⟩ divQ p C i) (5 * a + 4) (5 * b + 39) := by
  have h1 := le_Sb_of p h i
  have h2 := le_ddot (le_Sb_of p h) h
  have h3 := le_inv h i
  simp only [Le, Rnd.distS, a_sub, b_sub, a_mul, b_mul, a_divNat, b_divNat] at h1 h2 h3 ⊢
  omega

/-- One more rounding. -/
def divU (x : Cnt) : Cnt := ⟨x.a, x.b + 1⟩

theorem le_loadStress {F P : Full2 Cnt} {a b : ℕ} (hF : ∀ i j, Le (F i j) 1 0) (hP : ∀ i j, Le (P i j) a b) :
    Le (Rnd.loadStress divU F P) (a + 1) (b + 3) := by
  have h1 := hF 2 2
  have h2 := hP 2 2
  have h3 := hP 0 0
  simp only [Le, Rnd.loadStress, divU, a_sub, b_sub, a_mul, b_mul] at h1 h2 h3 ⊢
  omega

end Cnt

/-- Data which are known with the relative accuracy `q - 1`. -/
noncomputable def relData (T : Ctx) {F F' : Ten2 ℝ} (h : ∀ i j, |F' i j - F i j| ≤ (T.q - 1) * |F i j|) : Full2 (Cert T) :=
  fun i j => Cert.rel (F i j) (F' i j) (h i j)

/-- The normal force with plus signs only. -/
theorem Maj.val_loadStress (d : ℝ) (F P : Full2 Maj) :
    (Rnd.loadStress (fun x => ⟨x.val / d⟩) F P).val = val33 P 0 0 + val33 P 2 2 * val33 F 2 2 / d := rfl

/-- The computed normal force of a computed stress. -/
theorem rounded_force (T : Ctx) {F F' : Ten2 ℝ} (h : ∀ i j, |F' i j - F i j| ≤ (T.q - 1) * |F i j|)
    (h0 : F' 0 0 = F 0 0) (hne : F 0 0 ≠ 0) (P : Full2 (Cert T)) {P' M E : Ten2 ℝ} (hP : ∀ i j, (P i j).fl = P' i j)
    (hE : ∀ i j, (P i j).ex = E i j) (hM : ∀ i j, (P i j).m = M i j) {a b : ℕ}
    (hc : ∀ i j, Cnt.Le (P i j).cnt a b) :
    |(Rnd.loadStress (T.R.divBy ⟨F' 0 0⟩) (T.R.arr33 F') (T.R.arr33 P')).val - normalForce F E| ≤
      (T.q ^ (a + 1) * (1 + T.R.u) ^ (b + 3) - 1) * normalForceP (abs2 F) M ∧ 0 ≤ normalForceP (abs2 F) M := by
  let x : Cert T := Rnd.loadStress (Cert.divData (F 0 0) hne) (relData T h) P
  have hfl : x.fl = (Rnd.loadStress (T.R.divBy ⟨F' 0 0⟩) (T.R.arr33 F') (T.R.arr33 P')).val := by
    have hh := Cert.hom_fl.loadStress (d := Cert.divData (F 0 0) hne) (d' := T.R.divBy ⟨F' 0 0⟩)
      (fun x => by rw [h0]; rfl) (relData T h) P
    refine (congrArg Fl.val hh).trans ?_
    have : (fun i j => (P i j).flc) = T.R.arr33 P' := by
      funext i j
      exact congrArg Fl.mk (hP i j)
    rw [this]
    rfl
  have hex : x.ex = normalForce F E := by
    have hh := Cert.hom_ex.loadStress (d := Cert.divData (F 0 0) hne) (d' := fun x => x / F 0 0)
      (fun x => rfl) (relData T h) P
    refine hh.trans ?_
    simp only [hE]
    rfl
  have hm : x.m = normalForceP (abs2 F) M := by
    have hh := Cert.hom_m.loadStress (d := Cert.divData (F 0 0) hne) (d' := fun x => ⟨x.val / |F 0 0|⟩)
      (fun x => rfl) (relData T h) P
    refine (congrArg Maj.val hh).trans ?_
    rw [Maj.val_loadStress]
    simp only [Maj.val33, Cert.mc, hM]
    rfl
  have hcnt : Cnt.Le x.cnt (a + 1) (b + 3) := by
    have hh := Cert.hom_cnt.loadStress (d := Cert.divData (F 0 0) hne) (d' := Cnt.divU)
      (fun x => rfl) (relData T h) P
    rw [show x.cnt = _ from hh]
    exact Cnt.le_loadStress (fun _ _ => ⟨le_rfl, le_rfl⟩) hc
  have h1 := x.err_mono hcnt.1 hcnt.2
  have h2 := x.m_nonneg
  rw [hm] at h2
  rw [hfl, hex, hm] at h1
  exact ⟨h1, h2⟩

/-- The computed curve of the deformation space. -/
theorem rounded_deformation_force (T : Ctx) (p : TOD ℝ) {F F' : Ten2 ℝ} (h : ∀ i j, |F' i j - F i j| ≤ (T.q - 1) * |F i j|)
    (h0 : F' 0 0 = F 0 0) (hne : F 0 0 ≠ 0) :
    |(Rnd.loadStress (T.R.divBy ⟨F' 0 0⟩) (T.R.arr33 F') (T.R.arr33 (T.R.deformationGradient p F'))).val -
        normalForce F (F * ((2 : ℝ) • Props.todGradT p (Spec.cauchyGreen F)))| ≤
      (T.q ^ 6 * (1 + T.R.u) ^ 39 - 1) * normalForceP (abs2 F) ((Maj.par p).stressP F) ∧
      0 ≤ normalForceP (abs2 F) ((Maj.par p).stressP F) := by
  refine rounded_force T h h0 hne (Rnd.defGradient p (relData T h)) (fun i j => ?_) (fun i j => ?_) (fun i j => ?_)
    (fun i j => ?_)
  · exact congrArg Fl.val (Cert.hom_fl.defGradient p (relData T h) i j)
  · refine (Cert.hom_ex.defGradient p (relData T h) i j).trans ?_
    exact congrFun (congrFun (defGradient_exact p F) i) j
  · refine (congrArg Maj.val (Cert.hom_m.defGradient p (relData T h) i j)).trans ?_
    exact Maj.val_defGradient p F i j
  · rw [Cert.hom_cnt.defGradient p (relData T h) i j]
    exact Cnt.le_defGradient_of p (fun _ _ => ⟨le_rfl, le_rfl⟩) i j

/-- The determinant of the right Cauchy-Green tensor of data which are known with the relative accuracy `q - 1`. -/
theorem rounded_det_of (T : Ctx) {F F' : Ten2 ℝ} (h : ∀ i j, |F' i j - F i j| ≤ (T.q - 1) * |F i j|) :
    |(Rnd.det (Rnd.cauchyGreen (T.R.arr33 F'))).val - (Spec.cauchyGreen F).det| ≤
      (T.q ^ 6 * (1 + T.R.u) ^ 22 - 1) * detP (Spec.cauchyGreen (abs2 F)) := by
  let x : Cert T := Rnd.det (Rnd.cauchyGreen (relData T h))
  have hfl : x.fl = (Rnd.det (Rnd.cauchyGreen (T.R.arr33 F'))).val := by
    have hh := Cert.hom_fl.det (Rnd.cauchyGreen (relData T h))
    simp only [Cert.hom_fl.cauchyGreen] at hh
    exact congrArg Fl.val hh
  have hex : x.ex = (Spec.cauchyGreen F).det := by
    have hh := Cert.hom_ex.det (Rnd.cauchyGreen (relData T h))
    simp only [Cert.hom_ex.cauchyGreen] at hh
    refine hh.trans ?_
    change Rnd.det (Rnd.cauchyGreen (K := ℝ) F) = _
    rw [det_exact, T2_det, cauchyGreen_exact]
  have hm : x.m = detP (Spec.cauchyGreen (abs2 F)) := by
    have hh := Cert.hom_m.det (Rnd.cauchyGreen (relData T h))
    simp only [Cert.hom_m.cauchyGreen] at hh
    refine (congrArg Maj.val hh).trans ?_
    rw [Maj.val_det, Maj.val_cauchyGreen, cauchyGreen_exact]
    rfl
  have hc : Cnt.Le x.cnt 6 22 := by
    have hh := Cert.hom_cnt.det (Rnd.cauchyGreen (relData T h))
    simp only [Cert.hom_cnt.cauchyGreen] at hh
    rw [show x.cnt = _ from hh]
    exact Cnt.le_det (Cnt.le_cauchyGreen_of (a := 1) (b := 0) fun _ _ => ⟨le_rfl, le_rfl⟩)
  have := x.err_mono hc.1 hc.2
  rwa [hfl, hex, hm] at this

/-- The computed curve of the distortional space. -/
theorem rounded_distortional_force (T : Ctx) (p : TOD ℝ) {F F' : Ten2 ℝ} (h : ∀ i j, |F' i j - F i j| ≤ (T.q - 1) * |F i j|)
    (h0 : F' 0 0 = F 0 0) (hne : F 0 0 ≠ 0) (hd : (Spec.cauchyGreen F).det ≠ 0)
    (hpos : 0 < (Spec.cauchyGreen F).det)
    (hdet : |(Rnd.det (Rnd.cauchyGreen (T.R.arr33 F'))).val - (Spec.cauchyGreen F).det| ≤
      (1 - 1 / T.q) * |(Spec.cauchyGreen F).det|)
    (hpow : |T.R.pow (Rnd.det (Rnd.cauchyGreen (T.R.arr33 F'))).val (T.R.div (-1) 3) -
      (Spec.cauchyGreen F).det ^ (-1 / 3 : ℝ)| ≤ (T.q - 1) * |(Spec.cauchyGreen F).det ^ (-1 / 3 : ℝ)|) :
    |(Rnd.loadStress (T.R.divBy ⟨F' 0 0⟩) (T.R.arr33 F') (T.R.arr33 (T.R.distortionalGradient p F'))).val -
        normalForce F (F * Spec.distS (Spec.cauchyGreen F) (Props.todGradT p (unimodular (Spec.cauchyGreen F))))| ≤
      (T.q ^ 16 * (1 + T.R.u) ^ 72 - 1) * normalForceP (abs2 F) ((Maj.par p).distortionalP F) ∧
      0 ≤ normalForceP (abs2 F) ((Maj.par p).distortionalP F) := by
  let t : Cert T := Cert.rel _ _ hpow
  let D : Cert T → Cert T := Cert.divBy _ _ hd hdet
  refine rounded_force T h h0 hne (Rnd.piolaStress (relData T h) (Rnd.distS t D p (Rnd.cauchyGreen (relData T h))))
    (fun i j => ?_) (fun i j => ?_) (fun i j => ?_) (fun i j => ?_)
  · have h1 := Cert.hom_fl.piolaStress (relData T h) (Rnd.distS t D p (Rnd.cauchyGreen (relData T h))) i j
    have h2 := fun a => Cert.hom_fl.distS (d := D) (d' := T.R.divBy (Rnd.det (Rnd.cauchyGreen (T.R.arr33 F')))) (fun x => rfl)
      t p (Rnd.cauchyGreen (relData T h)) a
    simp only [h2, Cert.hom_fl.cauchyGreen] at h1
    exact congrArg Fl.val h1
  · have h1 := Cert.hom_ex.piolaStress (relData T h) (Rnd.distS t D p (Rnd.cauchyGreen (relData T h))) i j
    have h2 := fun a => Cert.hom_ex.distS (d := D) (d' := fun x => x / (Spec.cauchyGreen F).det) (fun x => rfl) t p
      (Rnd.cauchyGreen (relData T h)) a
    simp only [h2, Cert.hom_ex.cauchyGreen] at h1
    refine h1.trans ?_
    change Rnd.piolaStress F (Rnd.distS ((Spec.cauchyGreen F).det ^ (-1 / 3 : ℝ)) (fun x => x / (Spec.cauchyGreen F).det) p
      (Rnd.cauchyGreen F)) i j = _
    rw [piolaStress_exact, distS_exact p _ (by rw [cauchyGreen_exact]) hd (by rw [cauchyGreen_exact]), cauchyGreen_exact]
  · have h1 := Cert.hom_m.piolaStress (relData T h) (Rnd.distS t D p (Rnd.cauchyGreen (relData T h))) i j
    have h2 := fun a => Cert.hom_m.distS (d := D) (d' := fun x => ⟨x.val / |(Spec.cauchyGreen F).det|⟩) (fun x => rfl) t p
      (Rnd.cauchyGreen (relData T h)) a
    simp only [h2, Cert.hom_m.cauchyGreen] at h1
    refine (congrArg Maj.val h1).trans ?_
    change (Rnd.piolaStress (K := Maj) (fun i j => lit (F i j)) (Rnd.distS (⟨|(Spec.cauchyGreen F).det ^ (-1 / 3 : ℝ)|⟩)
      (fun x => ⟨x.val / |(Spec.cauchyGreen F).det|⟩) p (Rnd.cauchyGreen fun i j => lit (F i j))) i j).val = _
    rw [Maj.val_piolaStress, Maj.val_distS, Maj.val_cauchyGreen, cauchyGreen_exact, abs_of_pos hpos,
      abs_of_pos (Real.rpow_pos_of_pos hpos _)]
    rfl
  · have h1 := Cert.hom_cnt.piolaStress (relData T h) (Rnd.distS t D p (Rnd.cauchyGreen (relData T h))) i j
    have h2 := fun a => Cert.hom_cnt.distS (d := D) (d' := Cnt.divQ) (fun x => rfl) t p
      (Rnd.cauchyGreen (relData T h)) a
    simp only [h2, Cert.hom_cnt.cauchyGreen] at h1
    rw [h1]
    exact Cnt.le_piolaStress_of (a' := 1) (b' := 0) (fun _ _ => ⟨le_rfl, le_rfl⟩)
      (Cnt.le_distS_of p (Cnt.le_cauchyGreen_of (a := 1) (b := 0) fun _ _ => ⟨le_rfl, le_rfl⟩)) i j

end Hel.Rnd
