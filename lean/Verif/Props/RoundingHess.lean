import Verif.Proofs.RoundingHess
import Verif.Props.RoundingSplit
import Verif.Props.DistortionalBound
import Verif.Props.Initial

/-!
# Floating-point rounding: elasticity tensors of the distortional and the dilatational space (C66)

The elasticity tensors of third-order-deformation materials, as computed in floating-point
arithmetic.  The distortional space decides with `np.allclose` on the computed fictitious elasticity
whether the projected part is added.
-/

namespace Props
open Spec Hel Rnd

variable {Z : Type}

/-! ### the computed numbers and their majorants -/

/-- The certificates of the power `±1/3` of the determinant. -/
theorem pow_third (R : Rounding) {F : Ten2 ℝ} (hF : F.det ≠ 0) (he : detError R.u F < 1) {n : ℝ} (hn : |n| = 1) :
    |R.pow (Rnd.det (Rnd.cauchyGreen (R.arr33 F))).val (R.div n 3) -
      (Spec.cauchyGreen F).det ^ (n / 3 : ℝ)| ≤ ((powCtx R hF he).q - 1) * |(Spec.cauchyGreen F).det ^ (n / 3 : ℝ)| :=
  pow_accuracy R (det_cauchyGreen_pos hF) (rounded_det R hF) (detError_nonneg R hF) he (by rw [abs_div, hn]; norm_num)
    (R.div_error _ _ (by norm_num))

theorem pow_two_thirds (R : Rounding) {F : Ten2 ℝ} (hF : F.det ≠ 0) (he : detError R.u F < 1) {n : ℝ} (hn : |n| = 2) :
    |R.pow (Rnd.det (Rnd.cauchyGreen (R.arr33 F))).val (R.div n 3) -
      (Spec.cauchyGreen F).det ^ (n / 3 : ℝ)| ≤ ((powCtx R hF he).q ^ 2 - 1) * |(Spec.cauchyGreen F).det ^ (n / 3 : ℝ)| :=
  pow_accuracy2 R (det_cauchyGreen_pos hF) (rounded_det R hF) (detError_nonneg R hF) he (by rw [abs_div, hn]; norm_num)
    (R.div_error _ _ (by norm_num))

theorem two_exp (x : ℝ) : x ^ (2 * (-1 / 3) : ℝ) = x ^ (-2 / 3 : ℝ) ∧ x ^ (2 * (1 / 3) : ℝ) = x ^ (2 / 3 : ℝ) := by
  constructor <;> norm_num

theorem fictitious_neg (p : TodPar) (F : Ten2 ℝ) : p.fictitiousP (-1 / 3) F = fun i j k l =>
    4 * (Spec.cauchyGreen F).det ^ (-2 / 3 : ℝ) *
      p.hessP ((Spec.cauchyGreen F).det ^ (-1 / 3 : ℝ) • Spec.cauchyGreen (abs2 F)) i j k l := by
  funext i j k l
  simp only [TodPar.fictitiousP, (two_exp _).1]

theorem fictitious_pos (p : TodPar) (F : Ten2 ℝ) : p.fictitiousP (1 / 3) F = fun i j k l =>
    4 * (Spec.cauchyGreen F).det ^ (2 / 3 : ℝ) *
      p.hessP ((Spec.cauchyGreen F).det ^ (1 / 3 : ℝ) • Spec.cauchyGreen (abs2 F)) i j k l := by
  funext i j k l
  simp only [TodPar.fictitiousP, (two_exp _).2]

/-- The factor of the errors is not negative. -/
theorem error_nonneg (R : Rounding) {F : Ten2 ℝ} (hF : F.det ≠ 0) (he : detError R.u F < 1) {a b a' b' : ℕ} (ha : a ≤ a')
    (hb : b ≤ b') : 0 ≤ powFactor R.u F ^ a * (1 + R.u) ^ b - 1 ∧
      powFactor R.u F ^ a * (1 + R.u) ^ b - 1 ≤ powFactor R.u F ^ a' * (1 + R.u) ^ b' - 1 := by
  have h1 : 1 ≤ powFactor R.u F := (powCtx R hF he).one_le
  have h2 : 1 ≤ 1 + R.u := by linarith [R.u_nonneg]
  constructor
  · have := one_le_mul_of_one_le_of_one_le (one_le_pow₀ h1 (n := a)) (one_le_pow₀ h2 (n := b))
    linarith
  · have h3 := pow_le_pow_right₀ h1 ha
    have h4 := pow_le_pow_right₀ h2 hb
    have := mul_le_mul h3 h4 (by positivity) (by positivity)
    linarith

/-- The computed fictitious elasticity of both spaces. -/
theorem rounded_C4b (R : Rounding) (p : TOD ℝ) {F : Ten2 ℝ} (hF : F.det ≠ 0) (he : detError R.u F < 1) {n : ℝ}
    (hn : |n| = 1) (i j k l : Fin 3) :
    0 ≤ (Maj.par p).fictitiousP (n / 3) F i j k l ∧
    |4 * (Spec.cauchyGreen F).det ^ (2 * n / 3) * todHessT p ((Spec.cauchyGreen F).det ^ (n / 3) • Spec.cauchyGreen F) i j k l| ≤
      (Maj.par p).fictitiousP (n / 3) F i j k l ∧
    |(Rnd.splitC4b (⟨R.pow (Rnd.det (Rnd.cauchyGreen (R.arr33 F))).val (R.div n 3)⟩ : Fl R)
        ⟨R.pow (Rnd.det (Rnd.cauchyGreen (R.arr33 F))).val (R.div (2 * n) 3)⟩ p (Rnd.cauchyGreen (R.arr33 F))
        (tab i j) (tab k l)).val -
      4 * (Spec.cauchyGreen F).det ^ (2 * n / 3) *
        todHessT p ((Spec.cauchyGreen F).det ^ (n / 3) • Spec.cauchyGreen F) i j k l| ≤
      (powFactor R.u F ^ 3 * (1 + R.u) ^ 23 - 1) * (Maj.par p).fictitiousP (n / 3) F i j k l := by
  have hd := det_cauchyGreen_pos hF
  have hn2 : |2 * n| = 2 := by rw [abs_mul, hn]; norm_num
  let t : Cert (powCtx R hF he) := Cert.rel _ _ (pow_third R hF he hn)
  let s : Cert (powCtx R hF he) := Cert.rel2 _ _ (pow_two_thirds R hF he hn2)
  let x : Cert (powCtx R hF he) := Rnd.splitC4b t s p (Rnd.cauchyGreen fun i j => lit (F i j)) (tab i j) (tab k l)
  have hfl : x.fl = (Rnd.splitC4b (⟨R.pow (Rnd.det (Rnd.cauchyGreen (R.arr33 F))).val (R.div n 3)⟩ : Fl R)
        ⟨R.pow (Rnd.det (Rnd.cauchyGreen (R.arr33 F))).val (R.div (2 * n) 3)⟩ p (Rnd.cauchyGreen (R.arr33 F))
        (tab i j) (tab k l)).val := by
    have h := Cert.hom_fl.splitC4b t s p (Rnd.cauchyGreen fun i j => lit (F i j)) (tab i j) (tab k l)
    simp only [Cert.hom_fl.cauchyGreen] at h
    exact congrArg Fl.val h
  have hex : x.ex = 4 * (Spec.cauchyGreen F).det ^ (2 * n / 3) *
        todHessT p ((Spec.cauchyGreen F).det ^ (n / 3) • Spec.cauchyGreen F) i j k l := by
    have h := Cert.hom_ex.splitC4b t s p (Rnd.cauchyGreen fun i j => lit (F i j)) (tab i j) (tab k l)
    simp only [Cert.hom_ex.cauchyGreen] at h
    refine h.trans ?_
    have h2 := splitC4b_exact p (Rnd.cauchyGreen F) ((Spec.cauchyGreen F).det ^ (n / 3)) ((Spec.cauchyGreen F).det ^ (2 * n / 3))
      i j k l
    rw [cauchyGreen_exact] at h2
    exact h2
  have hm : x.m = (Maj.par p).fictitiousP (n / 3) F i j k l := by
    have h := Cert.hom_m.splitC4b t s p (Rnd.cauchyGreen fun i j => lit (F i j)) (tab i j) (tab k l)
    simp only [Cert.hom_m.cauchyGreen] at h
    refine (congrArg Maj.val h).trans ?_
    have h2 := Maj.val_splitC4b p (Rnd.cauchyGreen fun i j => lit (F i j)) ⟨|(Spec.cauchyGreen F).det ^ (n / 3)|⟩
      ⟨|(Spec.cauchyGreen F).det ^ (2 * n / 3)|⟩ i j k l
    rw [Maj.val_cauchyGreen, cauchyGreen_exact, abs_of_pos (Real.rpow_pos_of_pos hd _),
      abs_of_pos (Real.rpow_pos_of_pos hd _)] at h2
    unfold TodPar.fictitiousP
    rw [mul_div_assoc] at h2
    refine Eq.trans ?_ h2
    simp only [astensor4, Maj.val66]
    rw [← abs_of_pos (Real.rpow_pos_of_pos hd (n / 3)), ← abs_of_pos (Real.rpow_pos_of_pos hd (2 * (n / 3))), ← mul_div_assoc]
    rfl
  have hc : Cnt.Le x.cnt 3 23 := by
    have h := Cert.hom_cnt.splitC4b t s p (Rnd.cauchyGreen fun i j => lit (F i j)) (tab i j) (tab k l)
    simp only [Cert.hom_cnt.cauchyGreen] at h
    rw [show x.cnt = _ from h]
    exact Cnt.le_splitC4b p (Cnt.le_cauchyGreen _ fun _ _ => ⟨le_rfl, le_rfl⟩) _ _
  have h1 := x.err_mono hc.1 hc.2
  have h0 := x.m_nonneg
  have h2 := x.maj
  rw [hm] at h0
  rw [hex, hm] at h2
  rw [hfl, hex, hm] at h1
  exact ⟨h0, h2, h1⟩

/-- The majorant of the elasticity tensor of the distortional space, with or without the projected part. -/
noncomputable def distEP (keep : Prop) [Decidable keep] (p : TodPar) (F : Ten2 ℝ) : Ten4 ℝ := fun i J k L =>
  let C := Spec.cauchyGreen (abs2 F)
  let d := (Spec.cauchyGreen F).det
  let S := (2 * d ^ (-1 / 3 : ℝ)) • p.gradP (d ^ (-1 / 3 : ℝ) • C)
  pushP F (fun I J K L =>
      2 / 3 * (contract22 S C * dyadSym (invP F) (invP F) I J K L + dyad S (invP F) I J K L +
        dyad (invP F) S I J K L + contract22 S C / 3 * dyad (invP F) (invP F) I J K L) +
      if keep then projectP F (p.fictitiousP (-1 / 3) F) I J K L else 0) i J k L +
    dyadIK (1 : Ten2 ℝ) (S + (contract22 S C / 3) • invP F) i J k L

theorem distEP_false (p : TodPar) (F : Ten2 ℝ) (i J k L : Fin 3) :
    distEP True p F i J k L = distEP False p F i J k L + pushP F (projectP F (p.fictitiousP (-1 / 3) F)) i J k L := by
  simp only [distEP, pushP, if_true, if_false, add_zero, mul_add, Finset.sum_add_distrib]
  ring

/-- The computed elasticity tensor of the distortional space for a given decision. -/
noncomputable def distHessWith (R : Rounding) (keep : Prop) [Decidable keep] (p : TOD ℝ) (F : Ten2 ℝ) : Ten4 ℝ :=
  fun i j k l =>
  let C := Rnd.cauchyGreen (R.arr33 F)
  let I3 := Rnd.det C
  let t : Fl R := ⟨R.pow I3.val (R.div (-1) 3)⟩
  let s : Fl R := ⟨R.pow I3.val (R.div (-2) 3)⟩
  (Rnd.piolaElasticity (R.arr33 F) (Rnd.distS t (R.divBy I3) p C)
    (Rnd.distC4 keep t s (R.divBy I3) p C) i j k l).val

/-- The exact elasticity tensor for a given decision. -/
noncomputable def distExact (keep : Prop) [Decidable keep] (p : TOD ℝ) (F : Ten2 ℝ) : Ten4 ℝ :=
  let C := Spec.cauchyGreen F
  piolaT F (Spec.distS C (todGradT p (unimodular C))) (if keep then
        fun i j k l => Distortional.geoT C (todGradT p (unimodular C)) i j k l +
          contract44 (contract44 (Distortional.projT C) (Distortional.c4bT C (todHessT p (unimodular C))))
            (Distortional.projTt C) i j k l
        else Distortional.geoT C (todGradT p (unimodular C)))

theorem rounded_distWith (R : Rounding) (keep : Prop) [Decidable keep] (p : TOD ℝ) {F : Ten2 ℝ} (hF : F.det ≠ 0)
    (he : detError R.u F < 1) (i J k L : Fin 3) :
    0 ≤ distEP keep (Maj.par p) F i J k L ∧
    |distHessWith R keep p F i J k L - distExact keep p F i J k L| ≤
      (powFactor R.u F ^ 5 * (1 + R.u) ^ 97 - 1) * distEP keep (Maj.par p) F i J k L := by
  have hd := det_cauchyGreen_pos hF
  let t : Cert (powCtx R hF he) := Cert.rel _ _ (pow_third R hF he (n := -1) (by norm_num))
  let s : Cert (powCtx R hF he) := Cert.rel2 _ _ (pow_two_thirds R hF he (n := -2) (by norm_num))
  let D : Cert (powCtx R hF he) → Cert (powCtx R hF he) := Cert.divBy _ _ hd.ne' (det_accuracy R hF he)
  let x : Cert (powCtx R hF he) := Rnd.piolaElasticity (fun i j => lit (F i j))
    (Rnd.distS t D p (Rnd.cauchyGreen fun i j => lit (F i j)))
    (Rnd.distC4 keep t s D p (Rnd.cauchyGreen fun i j => lit (F i j))) i J k L
  have hfl : x.fl = distHessWith R keep p F i J k L := by
    have h := Cert.hom_fl.piolaElasticity (fun i j => lit (F i j)) (Rnd.distS t D p (Rnd.cauchyGreen fun i j => lit (F i j)))
      (Rnd.distC4 keep t s D p (Rnd.cauchyGreen fun i j => lit (F i j))) i J k L
    have h2 := fun a => Cert.hom_fl.distS (d := D) (d' := R.divBy (Rnd.det (Rnd.cauchyGreen (R.arr33 F)))) (fun x => rfl) t p
      (Rnd.cauchyGreen fun i j => lit (F i j)) a
    have h3 := fun a b => Cert.hom_fl.distC4 (d := D) (d' := R.divBy (Rnd.det (Rnd.cauchyGreen (R.arr33 F)))) (fun x => rfl)
      keep t s p (Rnd.cauchyGreen fun i j => lit (F i j)) a b
    simp only [h2, h3, Cert.hom_fl.cauchyGreen] at h
    exact congrArg Fl.val h
  have hex : x.ex = distExact keep p F i J k L := by
    have h := Cert.hom_ex.piolaElasticity (fun i j => lit (F i j)) (Rnd.distS t D p (Rnd.cauchyGreen fun i j => lit (F i j)))
      (Rnd.distC4 keep t s D p (Rnd.cauchyGreen fun i j => lit (F i j))) i J k L
    have h2 := fun a => Cert.hom_ex.distS (d := D) (d' := fun x => x / (Spec.cauchyGreen F).det) (fun x => rfl) t p
      (Rnd.cauchyGreen fun i j => lit (F i j)) a
    have h3 := fun a b => Cert.hom_ex.distC4 (d := D) (d' := fun x => x / (Spec.cauchyGreen F).det) (fun x => rfl)
      keep t s p (Rnd.cauchyGreen fun i j => lit (F i j)) a b
    simp only [h2, h3, Cert.hom_ex.cauchyGreen] at h
    refine h.trans ?_
    change Rnd.piolaElasticity F (Rnd.distS ((Spec.cauchyGreen F).det ^ (-1 / 3 : ℝ)) (fun x => x / (Spec.cauchyGreen F).det) p
      (Rnd.cauchyGreen F)) (Rnd.distC4 keep ((Spec.cauchyGreen F).det ^ (-1 / 3 : ℝ)) ((Spec.cauchyGreen F).det ^ (-2 / 3 : ℝ))
        (fun x => x / (Spec.cauchyGreen F).det) p (Rnd.cauchyGreen F)) i J k L = _
    rw [piolaElasticity_exact, distS_exact p _ (by rw [cauchyGreen_exact]) hd.ne' (by rw [cauchyGreen_exact])]
    unfold distExact
    have hg := distGeo_exact p (Rnd.cauchyGreen F) (d := (Spec.cauchyGreen F).det) (t := (Spec.cauchyGreen F).det ^ (-1 / 3 : ℝ))
      (by rw [cauchyGreen_exact]) hd.ne' (by rw [cauchyGreen_exact])
    have hq := distMat_exact p (Rnd.cauchyGreen F) (d := (Spec.cauchyGreen F).det) (t := (Spec.cauchyGreen F).det ^ (-1 / 3 : ℝ))
      (s := (Spec.cauchyGreen F).det ^ (-2 / 3 : ℝ)) (by rw [cauchyGreen_exact]) hd.ne' (by rw [cauchyGreen_exact])
    rw [cauchyGreen_exact] at hg hq ⊢
    unfold Rnd.distC4
    split_ifs
    · rw [← hg]
      change _ = piolaT F _ (fun i j k l => _ + contract44 (contract44 _ (Distortional.c4bT _ (todHessT p
        ((Spec.cauchyGreen F).det ^ (-1 / 3 : ℝ) • Spec.cauchyGreen F)))) _ i j k l) i J k L
      rw [← hq]
      rfl
    · rw [hg]
  have hm : x.m = distEP keep (Maj.par p) F i J k L := by
    have h := Cert.hom_m.piolaElasticity (fun i j => lit (F i j)) (Rnd.distS t D p (Rnd.cauchyGreen fun i j => lit (F i j)))
      (Rnd.distC4 keep t s D p (Rnd.cauchyGreen fun i j => lit (F i j))) i J k L
    have h2 := fun a => Cert.hom_m.distS (d := D) (d' := fun x => ⟨x.val / |(Spec.cauchyGreen F).det|⟩) (fun x => rfl) t p
      (Rnd.cauchyGreen fun i j => lit (F i j)) a
    have h3 := fun a b => Cert.hom_m.distC4 (d := D) (d' := fun x => ⟨x.val / |(Spec.cauchyGreen F).det|⟩) (fun x => rfl)
      keep t s p (Rnd.cauchyGreen fun i j => lit (F i j)) a b
    simp only [h2, h3, Cert.hom_m.cauchyGreen] at h
    refine (congrArg Maj.val h).trans ?_
    change (Rnd.piolaElasticity (K := Maj) (fun i j => lit (F i j)) (Rnd.distS (⟨|(Spec.cauchyGreen F).det ^ (-1 / 3 : ℝ)|⟩)
      (fun x => ⟨x.val / |(Spec.cauchyGreen F).det|⟩) p (Rnd.cauchyGreen fun i j => lit (F i j)))
      (Rnd.distC4 keep (⟨|(Spec.cauchyGreen F).det ^ (-1 / 3 : ℝ)|⟩) (⟨|(Spec.cauchyGreen F).det ^ (-2 / 3 : ℝ)|⟩)
        (fun x => ⟨x.val / |(Spec.cauchyGreen F).det|⟩) p (Rnd.cauchyGreen fun i j => lit (F i j))) i J k L).val = _
    rw [abs_of_pos hd, abs_of_pos (Real.rpow_pos_of_pos hd _), abs_of_pos (Real.rpow_pos_of_pos hd _)]
    rw [Maj.val_piolaElasticity, Maj.val_distS, Maj.val_cauchyGreen, cauchyGreen_exact]
    have hg := fun I J K L => Maj.val_distGeo p (Rnd.cauchyGreen fun i j => lit (F i j)) ⟨(Spec.cauchyGreen F).det ^ (-1 / 3 : ℝ)⟩
      (Spec.cauchyGreen F).det I J K L
    have hq := Maj.val_distMat p (Rnd.cauchyGreen fun i j => lit (F i j)) ⟨(Spec.cauchyGreen F).det ^ (-1 / 3 : ℝ)⟩
      ⟨(Spec.cauchyGreen F).det ^ (-2 / 3 : ℝ)⟩ (Spec.cauchyGreen F).det
    rw [Maj.val_cauchyGreen, cauchyGreen_exact] at hg hq
    have hi : ∀ x : ℝ, (x / 3 / (Spec.cauchyGreen F).det) • cofP (Spec.cauchyGreen (abs2 F)) = (x / 3) • invP F := fun x => by
      rw [invP, smul_smul]; congr 1; ring
    unfold distEP
    rw [Maj.val33_lit] at *
    rw [hi]
    dsimp only at hg ⊢
    congr 2
    funext I J K L
    unfold Rnd.distC4
    split_ifs
    · change astensor4 (Maj.val66 _) I J K L + astensor4 (Maj.val66 _) I J K L = _
      rw [hg, hq]
      rw [fictitious_neg]
      rfl
    · rw [hg, add_zero]
      rfl
  have hc : Cnt.Le x.cnt 5 97 := by
    have h := Cert.hom_cnt.piolaElasticity (fun i j => lit (F i j)) (Rnd.distS t D p (Rnd.cauchyGreen fun i j => lit (F i j)))
      (Rnd.distC4 keep t s D p (Rnd.cauchyGreen fun i j => lit (F i j))) i J k L
    have h2 := fun a => Cert.hom_cnt.distS (d := D) (d' := Cnt.divQ) (fun x => rfl) t p
      (Rnd.cauchyGreen fun i j => lit (F i j)) a
    have h3 := fun a b => Cert.hom_cnt.distC4 (d := D) (d' := Cnt.divQ) (fun x => rfl) keep t s p
      (Rnd.cauchyGreen fun i j => lit (F i j)) a b
    simp only [h2, h3, Cert.hom_cnt.cauchyGreen] at h
    rw [show x.cnt = _ from h]
    exact Cnt.le_piolaElasticity (fun _ _ => ⟨le_rfl, le_rfl⟩)
      (Cnt.le_distS p (Cnt.le_cauchyGreen _ fun _ _ => ⟨le_rfl, le_rfl⟩))
      (Cnt.le_distC4 keep p (Cnt.le_cauchyGreen _ fun _ _ => ⟨le_rfl, le_rfl⟩)) i J k L
  have := x.err_mono hc.1 hc.2
  have h0 := x.m_nonneg
  rw [hm] at h0
  rw [hfl, hex, hm] at this
  exact ⟨h0, this⟩

/-- The computed elasticity tensor of the dilatational space. -/
theorem rounded_dilatational_elasticity (R : Rounding) (p : TOD ℝ) (z : Z) {F : Ten2 ℝ} {A : Ten4 ℝ} (hF : F.det ≠ 0)
    (he : detError R.u F < 1)
    (hA : SpaceObj.Hess (Dilatational.obj {} (Invariants.material p.mat)) z F A) (i J k L : Fin 3) :
    0 ≤ (Maj.par p).dilatationalElasticityP F i J k L ∧
    |R.dilatationalHessian p F i J k L - A i J k L| ≤
      (powFactor R.u F ^ 5 * (1 + R.u) ^ 85 - 1) * (Maj.par p).dilatationalElasticityP F i J k L := by
  obtain ⟨G, H, hG, hH, rfl⟩ := Dilatational.hess_elim hF hA
  have hS : SymInv ((Spec.cauchyGreen F).det ^ (1 / 3 : ℝ) • Spec.cauchyGreen F) := symInv_argOf .dilatational hF
  rw [(tod_grad p z hS).1 hG, (tod_hess p z hS).1 hH]
  have hd := det_cauchyGreen_pos hF
  let t : Cert (powCtx R hF he) := Cert.rel _ _ (pow_third R hF he (n := 1) (by norm_num))
  let s : Cert (powCtx R hF he) := Cert.rel2 _ _ (pow_two_thirds R hF he (n := 2) (by norm_num))
  let D : Cert (powCtx R hF he) → Cert (powCtx R hF he) := Cert.divBy _ _ hd.ne' (det_accuracy R hF he)
  let x : Cert (powCtx R hF he) := Rnd.piolaElasticity (fun i j => lit (F i j))
    (Rnd.dilS t D p (Rnd.cauchyGreen fun i j => lit (F i j)))
    (Rnd.dilC4 t s D p (Rnd.cauchyGreen fun i j => lit (F i j))) i J k L
  have hfl : x.fl = R.dilatationalHessian p F i J k L := by
    have h := Cert.hom_fl.piolaElasticity (fun i j => lit (F i j)) (Rnd.dilS t D p (Rnd.cauchyGreen fun i j => lit (F i j)))
      (Rnd.dilC4 t s D p (Rnd.cauchyGreen fun i j => lit (F i j))) i J k L
    have h2 := fun a => Cert.hom_fl.dilS (d := D) (d' := R.divBy (Rnd.det (Rnd.cauchyGreen (R.arr33 F)))) (fun x => rfl) t p
      (Rnd.cauchyGreen fun i j => lit (F i j)) a
    have h3 := fun a b => Cert.hom_fl.dilC4 (d := D) (d' := R.divBy (Rnd.det (Rnd.cauchyGreen (R.arr33 F)))) (fun x => rfl)
      t s p (Rnd.cauchyGreen fun i j => lit (F i j)) a b
    simp only [h2, h3, Cert.hom_fl.cauchyGreen] at h
    exact congrArg Fl.val h
  have hex : x.ex = piolaT F (Spec.dilS (Spec.cauchyGreen F) (todGradT p ((Spec.cauchyGreen F).det ^ (1 / 3 : ℝ) • Spec.cauchyGreen F)))
      (Dilatational.c4T (Spec.cauchyGreen F) (todGradT p ((Spec.cauchyGreen F).det ^ (1 / 3 : ℝ) • Spec.cauchyGreen F))
        (todHessT p ((Spec.cauchyGreen F).det ^ (1 / 3 : ℝ) • Spec.cauchyGreen F))) i J k L := by
    have h := Cert.hom_ex.piolaElasticity (fun i j => lit (F i j)) (Rnd.dilS t D p (Rnd.cauchyGreen fun i j => lit (F i j)))
      (Rnd.dilC4 t s D p (Rnd.cauchyGreen fun i j => lit (F i j))) i J k L
    have h2 := fun a => Cert.hom_ex.dilS (d := D) (d' := fun x => x / (Spec.cauchyGreen F).det) (fun x => rfl) t p
      (Rnd.cauchyGreen fun i j => lit (F i j)) a
    have h3 := fun a b => Cert.hom_ex.dilC4 (d := D) (d' := fun x => x / (Spec.cauchyGreen F).det) (fun x => rfl)
      t s p (Rnd.cauchyGreen fun i j => lit (F i j)) a b
    simp only [h2, h3, Cert.hom_ex.cauchyGreen] at h
    refine h.trans ?_
    change Rnd.piolaElasticity F (Rnd.dilS ((Spec.cauchyGreen F).det ^ (1 / 3 : ℝ)) (fun x => x / (Spec.cauchyGreen F).det) p
      (Rnd.cauchyGreen F)) (Rnd.dilC4 ((Spec.cauchyGreen F).det ^ (1 / 3 : ℝ)) ((Spec.cauchyGreen F).det ^ (2 / 3 : ℝ))
        (fun x => x / (Spec.cauchyGreen F).det) p (Rnd.cauchyGreen F)) i J k L = _
    rw [piolaElasticity_exact, dilS_exact p _ (by rw [cauchyGreen_exact]) hd.ne' (by rw [cauchyGreen_exact]),
      dilC4_exact p _ (by rw [cauchyGreen_exact]) hd.ne' (by rw [cauchyGreen_exact]) (by rw [cauchyGreen_exact]),
      cauchyGreen_exact]
  have hm : x.m = (Maj.par p).dilatationalElasticityP F i J k L := by
    have h := Cert.hom_m.piolaElasticity (fun i j => lit (F i j)) (Rnd.dilS t D p (Rnd.cauchyGreen fun i j => lit (F i j)))
      (Rnd.dilC4 t s D p (Rnd.cauchyGreen fun i j => lit (F i j))) i J k L
    have h2 := fun a => Cert.hom_m.dilS (d := D) (d' := fun x => ⟨x.val / |(Spec.cauchyGreen F).det|⟩) (fun x => rfl) t p
      (Rnd.cauchyGreen fun i j => lit (F i j)) a
    have h3 := fun a b => Cert.hom_m.dilC4 (d := D) (d' := fun x => ⟨x.val / |(Spec.cauchyGreen F).det|⟩) (fun x => rfl)
      t s p (Rnd.cauchyGreen fun i j => lit (F i j)) a b
    simp only [h2, h3, Cert.hom_m.cauchyGreen] at h
    refine (congrArg Maj.val h).trans ?_
    change (Rnd.piolaElasticity (K := Maj) (fun i j => lit (F i j)) (Rnd.dilS (⟨|(Spec.cauchyGreen F).det ^ (1 / 3 : ℝ)|⟩)
      (fun x => ⟨x.val / |(Spec.cauchyGreen F).det|⟩) p (Rnd.cauchyGreen fun i j => lit (F i j)))
      (Rnd.dilC4 (⟨|(Spec.cauchyGreen F).det ^ (1 / 3 : ℝ)|⟩) (⟨|(Spec.cauchyGreen F).det ^ (2 / 3 : ℝ)|⟩)
        (fun x => ⟨x.val / |(Spec.cauchyGreen F).det|⟩) p (Rnd.cauchyGreen fun i j => lit (F i j))) i J k L).val = _
    rw [abs_of_pos hd, abs_of_pos (Real.rpow_pos_of_pos hd _), abs_of_pos (Real.rpow_pos_of_pos hd _)]
    rw [Maj.val_piolaElasticity, Maj.val_dilS, Maj.val_cauchyGreen, cauchyGreen_exact]
    have hg := fun I J K L => Maj.val_dilC4 p (Rnd.cauchyGreen fun i j => lit (F i j)) ⟨(Spec.cauchyGreen F).det ^ (1 / 3 : ℝ)⟩
      ⟨(Spec.cauchyGreen F).det ^ (2 / 3 : ℝ)⟩ (Spec.cauchyGreen F).det I J K L
    rw [Maj.val_cauchyGreen, cauchyGreen_exact] at hg
    have hi : ∀ x : ℝ, (x / 3 / (Spec.cauchyGreen F).det) • cofP (Spec.cauchyGreen (abs2 F)) = (x / 3) • invP F := fun x => by
      rw [invP, smul_smul]; congr 1; ring
    unfold TodPar.dilatationalElasticityP
    rw [Maj.val33_lit] at *
    rw [hi]
    dsimp only at hg ⊢
    congr 2
    funext I J K L
    rw [hg, fictitious_pos]
    rfl
  have hc : Cnt.Le x.cnt 5 85 := by
    have h := Cert.hom_cnt.piolaElasticity (fun i j => lit (F i j)) (Rnd.dilS t D p (Rnd.cauchyGreen fun i j => lit (F i j)))
      (Rnd.dilC4 t s D p (Rnd.cauchyGreen fun i j => lit (F i j))) i J k L
    have h2 := fun a => Cert.hom_cnt.dilS (d := D) (d' := Cnt.divQ) (fun x => rfl) t p
      (Rnd.cauchyGreen fun i j => lit (F i j)) a
    have h3 := fun a b => Cert.hom_cnt.dilC4 (d := D) (d' := Cnt.divQ) (fun x => rfl) t s p
      (Rnd.cauchyGreen fun i j => lit (F i j)) a b
    simp only [h2, h3, Cert.hom_cnt.cauchyGreen] at h
    rw [show x.cnt = _ from h]
    exact Cnt.le_piolaElasticity (fun _ _ => ⟨le_rfl, le_rfl⟩)
      (Cnt.le_dilS p (Cnt.le_cauchyGreen _ fun _ _ => ⟨le_rfl, le_rfl⟩))
      (Cnt.le_dilC4 p le_rfl (Cnt.le_cauchyGreen _ fun _ _ => ⟨le_rfl, le_rfl⟩)) i J k L
  have := x.err_mono hc.1 hc.2
  have h0 := x.m_nonneg
  rw [hm] at h0
  rw [hfl, hex, hm] at this
  exact ⟨h0, this⟩

/-! ### the projected part -/

/-- The projection tensor is bounded by the one with plus signs. -/
theorem proj_le (R : Rounding) {F : Ten2 ℝ} (hF : F.det ≠ 0) (he : detError R.u F < 1) (i j k l : Fin 3) :
    |Distortional.projT (Spec.cauchyGreen F) i j k l| ≤
      dyadSym (1 : Ten2 ℝ) 1 i j k l + 1 / 3 * dyad (invP F) (Spec.cauchyGreen (abs2 F)) i j k l ∧
    |Distortional.projTt (Spec.cauchyGreen F) i j k l| ≤
      dyadSym (1 : Ten2 ℝ) 1 i j k l + 1 / 3 * dyad (Spec.cauchyGreen (abs2 F)) (invP F) i j k l := by
  have hd := det_cauchyGreen_pos hF
  let D : Cert (powCtx R hF he) → Cert (powCtx R hF he) := Cert.divBy _ _ hd.ne' (det_accuracy R hF he)
  have key : ∀ a b, |(Rnd.distP4 (fun x => x / (Spec.cauchyGreen F).det) (Rnd.cauchyGreen F) a b : ℝ)| ≤
      (Rnd.distP4 (K := Maj) (fun x => ⟨x.val / (Spec.cauchyGreen F).det⟩) (Rnd.cauchyGreen fun i j => lit (F i j)) a b).val := by
    intro a b
    let x : Cert (powCtx R hF he) := Rnd.distP4 D (Rnd.cauchyGreen fun i j => lit (F i j)) a b
    have h := x.maj
    have h1 := Cert.hom_ex.distP4 (d := D) (d' := fun x => x / (Spec.cauchyGreen F).det) (fun x => rfl)
      (Rnd.cauchyGreen fun i j => lit (F i j)) a b
    have h2 := Cert.hom_m.distP4 (d := D) (d' := fun x => ⟨x.val / |(Spec.cauchyGreen F).det|⟩) (fun x => rfl)
      (Rnd.cauchyGreen fun i j => lit (F i j)) a b
    simp only [Cert.hom_ex.cauchyGreen] at h1
    simp only [Cert.hom_m.cauchyGreen, abs_of_pos hd] at h2
    have h3 := congrArg Maj.val h2
    rw [show x.ex = _ from h1, show x.m = _ from h3] at h
    exact h
  have e1 := distP4_exact (Rnd.cauchyGreen F) (d := (Spec.cauchyGreen F).det) (by rw [cauchyGreen_exact]) hd.ne'
  have e2 := distP4t_exact (Rnd.cauchyGreen F) (d := (Spec.cauchyGreen F).det) (by rw [cauchyGreen_exact]) hd.ne'
  have m1 := Maj.val_distP4 (Rnd.cauchyGreen fun i j => lit (F i j)) (Spec.cauchyGreen F).det i j k l
  have m2 := Maj.val_distP4t (Rnd.cauchyGreen fun i j => lit (F i j)) (Spec.cauchyGreen F).det i j k l
  rw [cauchyGreen_exact] at e1 e2
  rw [Maj.val_cauchyGreen, cauchyGreen_exact] at m1 m2
  rw [← e1, ← e2]
  constructor
  · refine le_trans ?_ m1.le
    exact key _ _
  · refine le_trans ?_ m2.le
    exact key _ _

theorem contract44_le {X Y X' Y' : Ten4 ℝ} (hX : ∀ i j k l, |X i j k l| ≤ X' i j k l)
    (hY : ∀ i j k l, |Y i j k l| ≤ Y' i j k l) (i j k l : Fin 3) :
    |contract44 X Y i j k l| ≤ contract44 X' Y' i j k l := by
  refine (Finset.abs_sum_le_sum_abs _ _).trans (Finset.sum_le_sum fun m _ => ?_)
  refine (Finset.abs_sum_le_sum_abs _ _).trans (Finset.sum_le_sum fun n _ => ?_)
  rw [abs_mul]
  exact mul_le_mul (hX ..) (hY ..) (abs_nonneg _) ((abs_nonneg _).trans (hX ..))

theorem pushP_le {F : Ten2 ℝ} {X Y : Ten4 ℝ} (h : ∀ i j k l, |X i j k l| ≤ Y i j k l) (i J k L : Fin 3) :
    |∑ I, ∑ K, F i I * F k K * X I J K L| ≤ pushP F Y i J k L := by
  refine (Finset.abs_sum_le_sum_abs _ _).trans (Finset.sum_le_sum fun m _ => ?_)
  refine (Finset.abs_sum_le_sum_abs _ _).trans (Finset.sum_le_sum fun n _ => ?_)
  rw [abs_mul, abs_mul]
  exact mul_le_mul_of_nonneg_left (h ..) (by positivity)

/-- The exact projected part. -/
noncomputable def projected (F : Ten2 ℝ) (X : Ten4 ℝ) : Ten4 ℝ := fun i J k L =>
  ∑ I, ∑ K, F i I * F k K * contract44 (contract44 (Distortional.projT (Spec.cauchyGreen F)) X)
    (Distortional.projTt (Spec.cauchyGreen F)) I J K L

theorem projected_le (R : Rounding) {F : Ten2 ℝ} (hF : F.det ≠ 0) (he : detError R.u F < 1) {X Y : Ten4 ℝ}
    (h : ∀ i j k l, |X i j k l| ≤ Y i j k l) (i J k L : Fin 3) :
    |projected F X i J k L| ≤ pushP F (projectP F Y) i J k L :=
  pushP_le (contract44_le (contract44_le (fun i j k l => (proj_le R hF he i j k l).1) h)
    fun i j k l => (proj_le R hF he i j k l).2) i J k L

theorem projectP_add (F : Ten2 ℝ) (c e : ℝ) (Y : Ten4 ℝ) (i J k L : Fin 3) :
    pushP F (projectP F fun i j k l => c + e * Y i j k l) i J k L =
      c * pushP F (projectP F fun _ _ _ _ => 1) i J k L + e * pushP F (projectP F Y) i J k L := by
  simp only [pushP, projectP, contract44, Finset.mul_sum, ← Finset.sum_add_distrib, Finset.sum_mul]
  refine Finset.sum_congr rfl fun _ _ => Finset.sum_congr rfl fun _ _ => Finset.sum_congr rfl fun _ _ =>
    Finset.sum_congr rfl fun _ _ => Finset.sum_congr rfl fun _ _ => Finset.sum_congr rfl fun _ _ => ?_
  ring

theorem distExact_true (p : TOD ℝ) (F : Ten2 ℝ) (i J k L : Fin 3) :
    distExact True p F i J k L = distExact False p F i J k L +
      projected F (Distortional.c4bT (Spec.cauchyGreen F) (todHessT p (unimodular (Spec.cauchyGreen F)))) i J k L := by
  simp only [distExact, projected, piolaT, if_true, if_false, mul_add, Finset.sum_add_distrib]
  ring

/-! ### the decision -/

/-- The machine number `1e-8`. -/
theorem atol_bounds (R : Rounding) : (1 - R.u) / 10 ^ 8 ≤ R.div 1 (10 ^ 8) ∧ R.div 1 (10 ^ 8) ≤ (1 + R.u) / 10 ^ 8 := by
  have h := R.div_error 1 (10 ^ 8) (by norm_num)
  rw [abs_of_pos (by norm_num : (0 : ℝ) < 1 / 10 ^ 8)] at h
  obtain ⟨h1, h2⟩ := abs_le.1 h
  constructor <;> ring_nf at h1 h2 ⊢ <;> linarith

/-- The decision made with the computed numbers. -/
def dropsFl (R : Rounding) (p : TOD ℝ) (F : Ten2 ℝ) : Prop :=
  R.allclose0 (Rnd.splitC4b (⟨R.pow (Rnd.det (Rnd.cauchyGreen (R.arr33 F))).val (R.div (-1) 3)⟩ : Fl R)
        ⟨R.pow (Rnd.det (Rnd.cauchyGreen (R.arr33 F))).val (R.div (-2) 3)⟩ p (Rnd.cauchyGreen (R.arr33 F)))

open Classical in
theorem distortionalHessian_eq (R : Rounding) (p : TOD ℝ) (F : Ten2 ℝ) :
    R.distortionalHessian p F = distHessWith R (¬ dropsFl R p F) p F := rfl

theorem rounded_c4b (R : Rounding) (p : TOD ℝ) {F : Ten2 ℝ} (hF : F.det ≠ 0) (he : detError R.u F < 1) (i j k l : Fin 3) :
    |(Rnd.splitC4b (⟨R.pow (Rnd.det (Rnd.cauchyGreen (R.arr33 F))).val (R.div (-1) 3)⟩ : Fl R)
        ⟨R.pow (Rnd.det (Rnd.cauchyGreen (R.arr33 F))).val (R.div (-2) 3)⟩ p (Rnd.cauchyGreen (R.arr33 F))
        (tab i j) (tab k l)).val -
      Distortional.c4bT (Spec.cauchyGreen F) (todHessT p (unimodular (Spec.cauchyGreen F))) i j k l| ≤
      (powFactor R.u F ^ 3 * (1 + R.u) ^ 23 - 1) * (Maj.par p).fictitiousP (-1 / 3) F i j k l := by
  have h := (rounded_C4b R p hF he (n := -1) (by norm_num) i j k l).2.2
  rw [show (2 * -1 : ℝ) = -2 by norm_num] at h
  exact h

/-- The decision is `drop` in floating point: the exact numbers are small as well. -/
theorem dropsFl_le (R : Rounding) (p : TOD ℝ) {F : Ten2 ℝ} (hF : F.det ≠ 0) (he : detError R.u F < 1)
    (h : dropsFl R p F) (i j k l : Fin 3) :
    |Distortional.c4bT (Spec.cauchyGreen F) (todHessT p (unimodular (Spec.cauchyGreen F))) i j k l| ≤
      (1 + R.u) / 10 ^ 8 + (powFactor R.u F ^ 3 * (1 + R.u) ^ 23 - 1) * (Maj.par p).fictitiousP (-1 / 3) F i j k l := by
  have h1 := rounded_c4b R p hF he i j k l
  have h2 := (h (tab i j) (tab k l)).trans (atol_bounds R).2
  rw [abs_sub_comm] at h1
  have := abs_sub_abs_le_abs_sub (Distortional.c4bT (Spec.cauchyGreen F) (todHessT p (unimodular (Spec.cauchyGreen F))) i j k l)
    ((Rnd.splitC4b (⟨R.pow (Rnd.det (Rnd.cauchyGreen (R.arr33 F))).val (R.div (-1) 3)⟩ : Fl R)
        ⟨R.pow (Rnd.det (Rnd.cauchyGreen (R.arr33 F))).val (R.div (-2) 3)⟩ p (Rnd.cauchyGreen (R.arr33 F))
        (tab i j) (tab k l)).val)
  linarith

theorem dropsFl_of (R : Rounding) (p : TOD ℝ) {F : Ten2 ℝ} (hF : F.det ≠ 0) (he : detError R.u F < 1)
    (h : ∀ i j k l, |Distortional.c4bT (Spec.cauchyGreen F) (todHessT p (unimodular (Spec.cauchyGreen F))) i j k l| +
      (powFactor R.u F ^ 3 * (1 + R.u) ^ 23 - 1) * (Maj.par p).fictitiousP (-1 / 3) F i j k l ≤ (1 - R.u) / 10 ^ 8) :
    dropsFl R p F := by
  intro a b
  have h1 := rounded_c4b R p hF he (pos a).1 (pos a).2 (pos b).1 (pos b).2
  have h2 := h (pos a).1 (pos a).2 (pos b).1 (pos b).2
  have h3 := (atol_bounds R).1
  have e : ∀ a : Fin 6, tab (pos a).1 (pos a).2 = a := by decide
  rw [e, e] at h1
  have := abs_sub_abs_le_abs_sub ((Rnd.splitC4b (⟨R.pow (Rnd.det (Rnd.cauchyGreen (R.arr33 F))).val (R.div (-1) 3)⟩ : Fl R)
        ⟨R.pow (Rnd.det (Rnd.cauchyGreen (R.arr33 F))).val (R.div (-2) 3)⟩ p (Rnd.cauchyGreen (R.arr33 F)) a b).val)
      (Distortional.c4bT (Spec.cauchyGreen F) (todHessT p (unimodular (Spec.cauchyGreen F)))
        (pos a).1 (pos a).2 (pos b).1 (pos b).2)
  exact (sub_le_iff_le_add'.1 (this.trans h1)).trans (h2.trans h3)

open Classical in
/-- What the exact arithmetic returns. -/
theorem dist_exact (p : TOD ℝ) (z : Z) {F : Ten2 ℝ} {A : Ten4 ℝ} (hF : F.det ≠ 0)
    (hA : SpaceObj.Hess (Distortional.obj {} (Invariants.material p.mat)) z F A) :
    A = distExact (¬ Distortional.Dropped F (todHessT p (unimodular (Spec.cauchyGreen F)))) p F := by
  obtain ⟨G, H, hG, hH, rfl⟩ := Distortional.hess_elim hF hA
  rw [(tod_grad p z (symInv_unimodular hF)).1 hG, (tod_hess p z (symInv_unimodular hF)).1 hH]
  rfl

theorem distExact_congr {c c' : Prop} [Decidable c] [Decidable c'] (h : c ↔ c') (p : TOD ℝ) (F : Ten2 ℝ) :
    distExact c p F = distExact c' p F := by
  unfold distExact
  by_cases hc : c
  · simp only [if_pos hc, if_pos (h.1 hc)]
  · simp only [if_neg hc, if_neg (fun hc' => hc (h.2 hc'))]

theorem distEP_congr {c c' : Prop} [Decidable c] [Decidable c'] (h : c ↔ c') (p : TodPar) (F : Ten2 ℝ) :
    distEP c p F = distEP c' p F := by
  unfold distEP
  by_cases hc : c
  · simp only [if_pos hc, if_pos (h.1 hc)]
  · simp only [if_neg hc, if_neg (fun hc' => hc (h.2 hc'))]

theorem distHessWith_congr (R : Rounding) {c c' : Prop} [Decidable c] [Decidable c'] (h : c ↔ c') (p : TOD ℝ) (F : Ten2 ℝ) :
    distHessWith R c p F = distHessWith R c' p F := by
  unfold distHessWith Rnd.distC4
  by_cases hc : c
  · simp only [if_pos hc, if_pos (h.1 hc)]
  · simp only [if_neg hc, if_neg (fun hc' => hc (h.2 hc'))]

theorem distEP_le (R : Rounding) (p : TOD ℝ) {F : Ten2 ℝ} (hF : F.det ≠ 0) (he : detError R.u F < 1) (c : Prop) [Decidable c]
    (i J k L : Fin 3) : distEP c (Maj.par p) F i J k L ≤ (Maj.par p).distortionalElasticityP F i J k L := by
  change _ ≤ distEP True (Maj.par p) F i J k L
  by_cases h : c
  · rw [distEP_congr (c' := True) (by simp [h])]
  · rw [distEP_congr (c := c) (c' := False) (by simp [h]), distEP_false]
    refine le_add_of_nonneg_right ?_
    refine (abs_nonneg _).trans (projected_le R hF he (X := fun _ _ _ _ => 0) (fun i j k l => ?_) i J k L)
    rw [abs_zero]
    exact (rounded_C4b R p hF he (n := -1) (by norm_num) i j k l).1

open Classical in
/-- The computed elasticity tensor of the distortional space: the same decision. -/
theorem rounded_distortional_same (R : Rounding) (p : TOD ℝ) (z : Z) {F : Ten2 ℝ} {A : Ten4 ℝ} (hF : F.det ≠ 0)
    (he : detError R.u F < 1) (hA : SpaceObj.Hess (Distortional.obj {} (Invariants.material p.mat)) z F A)
    (h : dropsFl R p F ↔ Distortional.Dropped F (todHessT p (unimodular (Spec.cauchyGreen F)))) (i J k L : Fin 3) :
    |R.distortionalHessian p F i J k L - A i J k L| ≤
      (powFactor R.u F ^ 5 * (1 + R.u) ^ 97 - 1) * (Maj.par p).distortionalElasticityP F i J k L := by
  rw [dist_exact p z hF hA, distortionalHessian_eq]
  have hE := (error_nonneg R hF he (a := 5) (b := 97) le_rfl le_rfl).1
  rw [distExact_congr (not_congr h.symm)]
  exact (rounded_distWith R _ p hF he i J k L).2.trans (mul_le_mul_of_nonneg_left (distEP_le R p hF he _ i J k L) hE)

open Classical in
/-- The computed elasticity tensor of the distortional space, for any decision. -/
theorem rounded_distortional_any (R : Rounding) (p : TOD ℝ) (z : Z) {F : Ten2 ℝ} {A : Ten4 ℝ} (hF : F.det ≠ 0)
    (he : detError R.u F < 1) (hA : SpaceObj.Hess (Distortional.obj {} (Invariants.material p.mat)) z F A) (i J k L : Fin 3) :
    0 ≤ (Maj.par p).distortionalElasticityP F i J k L ∧
    |R.distortionalHessian p F i J k L - A i J k L| ≤
      (powFactor R.u F ^ 5 * (1 + R.u) ^ 97 - 1) * (Maj.par p).distortionalElasticityP F i J k L +
        (1 + R.u) / 10 ^ 8 * pushP F (projectP F fun _ _ _ _ => 1) i J k L := by
  have hT : (Maj.par p).distortionalElasticityP F i J k L = distEP True (Maj.par p) F i J k L := rfl
  have hu := R.u_nonneg
  have h0 : 0 ≤ pushP F (projectP F fun _ _ _ _ => 1) i J k L :=
    (abs_nonneg _).trans (projected_le R hF he (X := fun _ _ _ _ => 0) (fun i j k l => by simp) i J k L)
  have h0' : 0 ≤ (1 + R.u) / 10 ^ 8 * pushP F (projectP F fun _ _ _ _ => 1) i J k L := by positivity
  have hm0 : 0 ≤ (Maj.par p).distortionalElasticityP F i J k L := by rw [hT]; exact (rounded_distWith R _ p hF he i J k L).1
  refine ⟨hm0, ?_⟩
  by_cases h : dropsFl R p F ↔ Distortional.Dropped F (todHessT p (unimodular (Spec.cauchyGreen F)))
  · exact (rounded_distortional_same R p z hF he hA h i J k L).trans (le_add_of_nonneg_right h0')
  · have hE := error_nonneg R hF he (a := 3) (b := 23) (a' := 5) (b' := 97) (by norm_num) (by norm_num)
    rw [dist_exact p z hF hA, distortionalHessian_eq]
    by_cases hd : dropsFl R p F
    · have hx : ¬ Distortional.Dropped F (todHessT p (unimodular (Spec.cauchyGreen F))) := fun hx => h (by simp [hd, hx])
      rw [distHessWith_congr R (c' := False) (by simp [hd]), distExact_congr (c' := True) (by simp [hx]), distExact_true]
      have h1 := (rounded_distWith R False p hF he i J k L).2
      have h2 := projected_le R hF he (dropsFl_le R p hF he hd) i J k L
      rw [projectP_add] at h2
      have h3 : 0 ≤ pushP F (projectP F ((Maj.par p).fictitiousP (-1 / 3) F)) i J k L := by
        have := distEP_le R p hF he False i J k L
        rw [hT, distEP_false] at this
        linarith
      have h4 := mul_le_mul_of_nonneg_right hE.2 h3
      rw [hT, distEP_false, mul_add]
      obtain ⟨h5, h6⟩ := abs_le.1 h1
      obtain ⟨h7, h8⟩ := abs_le.1 h2
      refine (abs_sub_le_iff.2 ⟨?_, ?_⟩) <;> linarith
    · have hx : Distortional.Dropped F (todHessT p (unimodular (Spec.cauchyGreen F))) := by
        by_contra hx; exact h (by simp [hd, hx])
      rw [distHessWith_congr R (c' := True) (by simp [hd]), distExact_congr (c' := False) (by simp [hx])]
      have h1 := (rounded_distWith R True p hF he i J k L).2
      rw [distExact_true] at h1
      have h2 := projected_le R hF he
        (X := Distortional.c4bT (Spec.cauchyGreen F) (todHessT p (unimodular (Spec.cauchyGreen F))))
        (Y := fun _ _ _ _ => 1 / 10 ^ 8 + 0 * 1) (fun i j k l => by
        rw [zero_mul, add_zero]; exact hx i j k l) i J k L
      rw [projectP_add F _ _ fun _ _ _ _ => 1] at h2
      have h3 : 1 / 10 ^ 8 * pushP F (projectP F fun _ _ _ _ => 1) i J k L ≤
          (1 + R.u) / 10 ^ 8 * pushP F (projectP F fun _ _ _ _ => 1) i J k L := by
        gcongr; linarith
      rw [hT]
      obtain ⟨h5, h6⟩ := abs_le.1 h1
      obtain ⟨h7, h8⟩ := abs_le.1 h2
      refine (abs_sub_le_iff.2 ⟨?_, ?_⟩) <;> linarith

/-- The decision is the same in floating point and in exact arithmetic. -/
theorem same_decision (R : Rounding) (p : TOD ℝ) {F : Ten2 ℝ} (hF : F.det ≠ 0) (he : detError R.u F < 1)
    (h : (∃ i j k l, (1 + R.u) / 10 ^ 8 + (powFactor R.u F ^ 3 * (1 + R.u) ^ 23 - 1) * (Maj.par p).fictitiousP (-1 / 3) F i j k l <
        |4 * (Spec.cauchyGreen F).det ^ (-2 / 3 : ℝ) * todHessT p (unimodular (Spec.cauchyGreen F)) i j k l|) ∨
      ∀ i j k l, |4 * (Spec.cauchyGreen F).det ^ (-2 / 3 : ℝ) * todHessT p (unimodular (Spec.cauchyGreen F)) i j k l| +
        (powFactor R.u F ^ 3 * (1 + R.u) ^ 23 - 1) * (Maj.par p).fictitiousP (-1 / 3) F i j k l ≤ (1 - R.u) / 10 ^ 8) :
    dropsFl R p F ↔ Distortional.Dropped F (todHessT p (unimodular (Spec.cauchyGreen F))) := by
  have hu := R.u_nonneg
  have hE := (error_nonneg R hF he (a := 3) (b := 23) le_rfl le_rfl).1
  have hm : ∀ i j k l, 0 ≤ (powFactor R.u F ^ 3 * (1 + R.u) ^ 23 - 1) * (Maj.par p).fictitiousP (-1 / 3) F i j k l :=
    fun i j k l => mul_nonneg hE (rounded_C4b R p hF he (n := -1) (by norm_num) i j k l).1
  rcases h with ⟨i, j, k, l, h⟩ | h
  · constructor
    · intro hd
      exact absurd (dropsFl_le R p hF he hd i j k l) (not_le.2 h)
    · intro hd
      have h1 := hd i j k l
      have h2 := hm i j k l
      have h3 : 1 / 10 ^ 8 ≤ (1 + R.u) / 10 ^ 8 := by gcongr; linarith
      linarith
  · refine iff_of_true (dropsFl_of R p hF he h) fun i j k l => ?_
    have h1 := h i j k l
    have h2 := hm i j k l
    have h3 : (1 - R.u) / 10 ^ 8 ≤ 1 / 10 ^ 8 := by gcongr; linarith
    linarith

/-! ### C66 -/

/-- The computed elasticity tensor of the distortional space: the rounding errors, and the tolerance of
`np.allclose`, on which the computed and the exact numbers may be on different sides. -/
theorem C66_distortional_elasticity (R : Rounding) (C10 C01 C11 C20 C30 : ℝ) (strain : Bool) (z : Z) {F : Ten2 ℝ} {A : Ten4 ℝ}
    (hF : F.det ≠ 0) (he : detError R.u F < 1)
    (hA : SpaceObj.Hess (Distortional.obj {} (Invariants.material (TOD.init C10 C01 C11 C20 C30 strain).mat)) z F A)
    (i J k L : Fin 3) :
    |R.distortionalHessian (TOD.init C10 C01 C11 C20 C30 strain) F i J k L - A i J k L| ≤
      (powFactor R.u F ^ 5 * (1 + R.u) ^ 97 - 1) *
        TodPar.distortionalElasticityP ⟨C10, C01, C11, C20, C30, undeformed strain⟩ F i J k L +
      (1 + R.u) / 10 ^ 8 * pushP F (projectP F fun _ _ _ _ => 1) i J k L :=
  (rounded_distortional_any R _ z hF he hA i J k L).2

/-- The computed elasticity tensor of the distortional space, if the fictitious elasticity is clearly above or below
the tolerance of `np.allclose`: the rounding errors only. -/
theorem C66_distortional_elasticity_clear (R : Rounding) (C10 C01 C11 C20 C30 : ℝ) (strain : Bool) (z : Z) {F : Ten2 ℝ}
    {A H : Ten4 ℝ} (hF : F.det ≠ 0) (he : detError R.u F < 1)
    (hA : SpaceObj.Hess (Distortional.obj {} (Invariants.material (TOD.init C10 C01 C11 C20 C30 strain).mat)) z F A)
    (hH : Material.Hess (Invariants.material (TOD.init C10 C01 C11 C20 C30 strain).mat) z (unimodular (Spec.cauchyGreen F)) H)
    (hc : (∃ i j k l, (1 + R.u) / 10 ^ 8 + (powFactor R.u F ^ 3 * (1 + R.u) ^ 23 - 1) *
          TodPar.fictitiousP ⟨C10, C01, C11, C20, C30, undeformed strain⟩ (-1 / 3) F i j k l <
        |4 * (Spec.cauchyGreen F).det ^ (-2 / 3 : ℝ) * H i j k l|) ∨
      ∀ i j k l, |4 * (Spec.cauchyGreen F).det ^ (-2 / 3 : ℝ) * H i j k l| + (powFactor R.u F ^ 3 * (1 + R.u) ^ 23 - 1) *
          TodPar.fictitiousP ⟨C10, C01, C11, C20, C30, undeformed strain⟩ (-1 / 3) F i j k l ≤ (1 - R.u) / 10 ^ 8)
    (i J k L : Fin 3) :
    |R.distortionalHessian (TOD.init C10 C01 C11 C20 C30 strain) F i J k L - A i J k L| ≤
      (powFactor R.u F ^ 5 * (1 + R.u) ^ 97 - 1) *
        TodPar.distortionalElasticityP ⟨C10, C01, C11, C20, C30, undeformed strain⟩ F i J k L := by
  rw [(tod_hess _ z (symInv_unimodular hF)).1 hH] at hc
  exact rounded_distortional_same R _ z hF he hA (same_decision R _ hF he hc) i J k L

/-- The computed elasticity tensor of the dilatational space. -/
theorem C66_dilatational_elasticity (R : Rounding) (C10 C01 C11 C20 C30 : ℝ) (strain : Bool) (z : Z) {F : Ten2 ℝ} {A : Ten4 ℝ}
    (hF : F.det ≠ 0) (he : detError R.u F < 1)
    (hA : SpaceObj.Hess (Dilatational.obj {} (Invariants.material (TOD.init C10 C01 C11 C20 C30 strain).mat)) z F A)
    (i J k L : Fin 3) :
    |R.dilatationalHessian (TOD.init C10 C01 C11 C20 C30 strain) F i J k L - A i J k L| ≤
      (powFactor R.u F ^ 5 * (1 + R.u) ^ 85 - 1) *
        TodPar.dilatationalElasticityP ⟨C10, C01, C11, C20, C30, undeformed strain⟩ F i J k L :=
  (rounded_dilatational_elasticity R _ z hF he hA i J k L).2

/-- The computed elasticity tensors of both spaces converge to the exact ones if the precision is increased; that of
the distortional space unless the largest component of the fictitious elasticity is exactly the tolerance. -/
theorem C66_elasticity_converges (R : ℕ → Rounding) (hR : Filter.Tendsto (fun n => (R n).u) .atTop (nhds 0))
    (C10 C01 C11 C20 C30 : ℝ) (strain : Bool) (z : Z) {F : Ten2 ℝ} {A A' H : Ten4 ℝ} (hF : F.det ≠ 0)
    (hA : SpaceObj.Hess (Distortional.obj {} (Invariants.material (TOD.init C10 C01 C11 C20 C30 strain).mat)) z F A)
    (hA' : SpaceObj.Hess (Dilatational.obj {} (Invariants.material (TOD.init C10 C01 C11 C20 C30 strain).mat)) z F A')
    (hH : Material.Hess (Invariants.material (TOD.init C10 C01 C11 C20 C30 strain).mat) z (unimodular (Spec.cauchyGreen F)) H)
    (hc : (∃ i j k l, 1 / 10 ^ 8 < |4 * (Spec.cauchyGreen F).det ^ (-2 / 3 : ℝ) * H i j k l|) ∨
      ∀ i j k l, |4 * (Spec.cauchyGreen F).det ^ (-2 / 3 : ℝ) * H i j k l| < 1 / 10 ^ 8) (i J k L : Fin 3) :
    Filter.Tendsto (fun n => (R n).distortionalHessian (TOD.init C10 C01 C11 C20 C30 strain) F i J k L) .atTop
      (nhds (A i J k L)) ∧
    Filter.Tendsto (fun n => (R n).dilatationalHessian (TOD.init C10 C01 C11 C20 C30 strain) F i J k L) .atTop
      (nhds (A' i J k L)) := by
  obtain ⟨h1, h2⟩ := tendsto_powFactor F hR
  have hev : ∀ᶠ n in Filter.atTop, detError (R n).u F < 1 := h1.eventually (gt_mem_nhds one_pos)
  have hlim : ∀ (a N : ℕ) (m : ℝ), Filter.Tendsto (fun n => (powFactor (R n).u F ^ a * (1 + (R n).u) ^ N - 1) * m) .atTop
      (nhds 0) := by
    intro a N m
    have h0 : Filter.Tendsto (fun n => (powFactor (R n).u F ^ a * (1 + (R n).u) ^ N - 1) * m) .atTop
        (nhds ((1 ^ a * (1 + 0) ^ N - 1) * m)) :=
      (((h2.pow a).mul ((hR.const_add 1).pow N)).sub_const 1).mul_const m
    rwa [add_zero, one_pow, one_pow, one_mul, sub_self, zero_mul] at h0
  have key : ∀ (N : ℕ) (m x : ℝ) (y : ℕ → ℝ),
      (∀ᶠ n in Filter.atTop, |y n - x| ≤ (powFactor (R n).u F ^ 5 * (1 + (R n).u) ^ N - 1) * m) →
      Filter.Tendsto y .atTop (nhds x) := by
    intro N m x y h
    rw [tendsto_iff_dist_tendsto_zero]
    exact squeeze_zero' (.of_forall fun _ => dist_nonneg) h (hlim 5 N m)
  refine ⟨key 97 (TodPar.distortionalElasticityP ⟨C10, C01, C11, C20, C30, undeformed strain⟩ F i J k L) _ _ ?_, key 85 _ _ _ (hev.mono fun n hn => C66_dilatational_elasticity (R n) _ _ _ _ _ _ z hF hn hA' i J k L)⟩
  have hb := fun i j k l => hlim 3 23 (TodPar.fictitiousP ⟨C10, C01, C11, C20, C30, undeformed strain⟩ (-1 / 3) F i j k l)
  rcases hc with ⟨a, b, c, d, hc⟩ | hc
  · have h3 : Filter.Tendsto (fun n => (1 + (R n).u) / 10 ^ 8 + (powFactor (R n).u F ^ 3 * (1 + (R n).u) ^ 23 - 1) *
        TodPar.fictitiousP ⟨C10, C01, C11, C20, C30, undeformed strain⟩ (-1 / 3) F a b c d) .atTop
        (nhds ((1 + 0) / 10 ^ 8 + 0)) := ((hR.const_add 1).div_const _).add (hb a b c d)
    rw [add_zero, add_zero] at h3
    filter_upwards [hev, h3.eventually (gt_mem_nhds hc)] with n hn h4
    exact C66_distortional_elasticity_clear (R n) _ _ _ _ _ _ z hF hn hA hH (Or.inl ⟨a, b, c, d, h4⟩) i J k L
  · have h3 : ∀ a b c d, ∀ᶠ n in Filter.atTop, |4 * (Spec.cauchyGreen F).det ^ (-2 / 3 : ℝ) * H a b c d| +
        (powFactor (R n).u F ^ 3 * (1 + (R n).u) ^ 23 - 1) *
          TodPar.fictitiousP ⟨C10, C01, C11, C20, C30, undeformed strain⟩ (-1 / 3) F a b c d ≤ (1 - (R n).u) / 10 ^ 8 := by
      intro a b c d
      have h4 : Filter.Tendsto (fun n => |4 * (Spec.cauchyGreen F).det ^ (-2 / 3 : ℝ) * H a b c d| +
        (powFactor (R n).u F ^ 3 * (1 + (R n).u) ^ 23 - 1) *
          TodPar.fictitiousP ⟨C10, C01, C11, C20, C30, undeformed strain⟩ (-1 / 3) F a b c d - (1 - (R n).u) / 10 ^ 8) .atTop
          (nhds (|4 * (Spec.cauchyGreen F).det ^ (-2 / 3 : ℝ) * H a b c d| + 0 - (1 - 0) / 10 ^ 8)) :=
        ((hb a b c d).const_add _).sub ((hR.const_sub 1).div_const _)
      have h5 : |4 * (Spec.cauchyGreen F).det ^ (-2 / 3 : ℝ) * H a b c d| + 0 - (1 - 0) / 10 ^ 8 < 0 := by
        have := hc a b c d
        rw [add_zero, sub_zero]; linarith
      filter_upwards [h4.eventually (gt_mem_nhds h5)] with n hn
      linarith
    have h4 : ∀ᶠ n in Filter.atTop, ∀ a b c d, |4 * (Spec.cauchyGreen F).det ^ (-2 / 3 : ℝ) * H a b c d| +
        (powFactor (R n).u F ^ 3 * (1 + (R n).u) ^ 23 - 1) *
          TodPar.fictitiousP ⟨C10, C01, C11, C20, C30, undeformed strain⟩ (-1 / 3) F a b c d ≤ (1 - (R n).u) / 10 ^ 8 := by
      simp only [Filter.eventually_all]
      exact h3
    filter_upwards [hev, h4] with n hn h5
    exact C66_distortional_elasticity_clear (R n) _ _ _ _ _ _ z hF hn hA hH (Or.inr h5) i J k L

/-- In double precision, for a condition number of the determinant of at most `2¹⁰` and volume ratios between
`e⁻¹⁶` and `e¹⁶`, the errors are at most `2⁻³⁶` times the majorants; in the distortional space, the tolerance is added. -/
theorem C66_elasticity_double (R : Rounding) (hR : R.u ≤ 2 ^ (-53 : ℤ)) (C10 C01 C11 C20 C30 : ℝ) (strain : Bool) (z : Z)
    {F : Ten2 ℝ} {A A' : Ten4 ℝ} (hF : F.det ≠ 0)
    (hk : detP (Spec.cauchyGreen (abs2 F)) ≤ 2 ^ 10 * (Spec.cauchyGreen F).det)
    (hl : |Real.log (Spec.cauchyGreen F).det| ≤ 2 ^ 5)
    (hA : SpaceObj.Hess (Distortional.obj {} (Invariants.material (TOD.init C10 C01 C11 C20 C30 strain).mat)) z F A)
    (hA' : SpaceObj.Hess (Dilatational.obj {} (Invariants.material (TOD.init C10 C01 C11 C20 C30 strain).mat)) z F A')
    (i J k L : Fin 3) :
    |R.distortionalHessian (TOD.init C10 C01 C11 C20 C30 strain) F i J k L - A i J k L| ≤
      2 ^ (-36 : ℤ) * TodPar.distortionalElasticityP ⟨C10, C01, C11, C20, C30, undeformed strain⟩ F i J k L +
        (1 + R.u) / 10 ^ 8 * pushP F (projectP F fun _ _ _ _ => 1) i J k L ∧
    |R.dilatationalHessian (TOD.init C10 C01 C11 C20 C30 strain) F i J k L - A' i J k L| ≤
      2 ^ (-36 : ℤ) * TodPar.dilatationalElasticityP ⟨C10, C01, C11, C20, C30, undeformed strain⟩ F i J k L := by
  have hu := R.u_nonneg
  obtain ⟨h1, h2, h3⟩ := powFactor_le hu hR (detError_nonneg R hF) hk (det_cauchyGreen_pos hF) hl
  have h4 : ∀ N ≤ 97, powFactor R.u F ^ 5 * (1 + R.u) ^ N - 1 ≤ 2 ^ (-36 : ℤ) := by
    intro N hN
    have h5 : powFactor R.u F ^ 5 * (1 + R.u) ^ N ≤ (1 + 25 * 2 ^ (-43 : ℤ)) ^ 5 * (1 + (2 : ℝ) ^ (-53 : ℤ)) ^ 97 := by
      have h6 : (1 + R.u) ^ N ≤ (1 + R.u) ^ 97 := pow_le_pow_right₀ (by linarith) hN
      have h7 : (1 + R.u) ^ 97 ≤ (1 + (2 : ℝ) ^ (-53 : ℤ)) ^ 97 := by gcongr
      have h8 := h6.trans h7
      gcongr
    have h9 : (1 + 25 * 2 ^ (-43 : ℤ)) ^ 5 * (1 + (2 : ℝ) ^ (-53 : ℤ)) ^ 97 - 1 ≤ 2 ^ (-36 : ℤ) := by norm_num
    linarith
  obtain ⟨h5, h6⟩ := rounded_distortional_any R _ z hF h1 hA i J k L
  obtain ⟨h7, h8⟩ := rounded_dilatational_elasticity R _ z hF h1 hA' i J k L
  exact ⟨h6.trans (add_le_add_left (mul_le_mul_of_nonneg_right (h4 97 le_rfl) h5) _),
    h8.trans (mul_le_mul_of_nonneg_right (h4 85 (by norm_num)) h7)⟩

/-- An elasticity tensor of the dilatational space is returned at every deformation gradient, by every object. -/
theorem tod_dil_hess_total (m : TOD ℝ) (F : Ten2 ℝ) (z : Z) (s : DilSt (InvSt ℝ Unit)) :
    ∃ A, Returns ((Dilatational.obj {} (Invariants.material m.mat)).hessian F z) s (.full A) := by
  obtain ⟨g, z', m', hg⟩ : ∃ g z' m', (Invariants.material (Z := Z) m.mat).gradient
      (Dilatational.co F) z s.material = (.ok (g, z'), m') := by
    change ∃ g z' m', Invariants.gradient _ _ _ _ = (.ok (g, z'), m')
    rw [Invariants.gradient_run]
    simp only [TOD.mat, PyM.lift_run, TOD.gradient_eq]
    exact ⟨_, _, _, rfl⟩
  obtain ⟨h, hh⟩ := tod_hess_total m (Dilatational.co F) z m'
  exact ⟨_, (Dilatational.returns_hessian ..).2 ⟨g, z', m', h, hg, hh, (piolaElasticity_default ..).symm⟩⟩

/-- The hypotheses are met, including that the fictitious elasticity is clearly above the tolerance: double precision
and a Mooney-Rivlin material, at a simple shear. -/
example : ∃ (R : Rounding) (A A' H : Ten4 ℝ), 0 < R.u ∧ R.u ≤ 2 ^ (-53 : ℤ) ∧
    let F : Ten2 ℝ := !![1, 2, 0; 0, 1, 0; 0, 0, 1]
    F.det ≠ 0 ∧ detError R.u F < 1 ∧ detP (Spec.cauchyGreen (abs2 F)) ≤ 2 ^ 10 * (Spec.cauchyGreen F).det ∧
    |Real.log (Spec.cauchyGreen F).det| ≤ 2 ^ 5 ∧
    SpaceObj.Hess (Distortional.obj {} (Invariants.material (TOD.init 1 1 0 0 0 false).mat)) () F A ∧
    SpaceObj.Hess (Dilatational.obj {} (Invariants.material (TOD.init 1 1 0 0 0 false).mat)) () F A' ∧
    Material.Hess (Invariants.material (TOD.init 1 1 0 0 0 false).mat) () (unimodular (Spec.cauchyGreen F)) H ∧
    ∃ i j k l, (1 + R.u) / 10 ^ 8 + (powFactor R.u F ^ 3 * (1 + R.u) ^ 23 - 1) *
          TodPar.fictitiousP ⟨1, 1, 0, 0, 0, undeformed false⟩ (-1 / 3) F i j k l <
        |4 * (Spec.cauchyGreen F).det ^ (-2 / 3 : ℝ) * H i j k l| := by
  have hF : (!![1, 2, 0; 0, 1, 0; 0, 0, (1 : ℝ)] : Ten2 ℝ).det = 1 := by simp [Matrix.det_fin_three]
  have hF0 : (!![1, 2, 0; 0, 1, 0; 0, 0, (1 : ℝ)] : Ten2 ℝ).det ≠ 0 := by rw [hF]; norm_num
  have hC : (Spec.cauchyGreen !![1, 2, 0; 0, 1, 0; 0, 0, 1]).det = 1 := by
    rw [Spec.cauchyGreen, Matrix.det_mul, Matrix.det_transpose, hF]; norm_num
  have hk : detP (Spec.cauchyGreen (abs2 !![1, 2, 0; 0, 1, 0; 0, 0, 1])) ≤
      2 ^ 10 * (Spec.cauchyGreen !![1, 2, 0; 0, 1, 0; 0, 0, 1]).det := by
    rw [hC]
    simp [detP, Spec.cauchyGreen, abs2, Matrix.mul_apply, Fin.sum_univ_three]
    norm_num
  have hl : |Real.log (Spec.cauchyGreen !![1, 2, 0; 0, 1, 0; 0, 0, 1]).det| ≤ 2 ^ 5 := by rw [hC]; simp
  have hu : Binary64.rounding.u ≤ 2 ^ (-53 : ℤ) := le_rfl
  have hu0 := Binary64.rounding.u_nonneg
  obtain ⟨h1, h2, h3⟩ := powFactor_le hu0 hu (detError_nonneg _ hF0) hk (det_cauchyGreen_pos hF0) hl
  obtain ⟨A, hA⟩ := tod_dist_hess_total (TOD.init 1 1 0 0 0 false) !![1, 2, 0; 0, 1, 0; 0, 0, 1] ()
    ({ material := { material := () } } : DistSt (InvSt ℝ Unit))
  obtain ⟨A', hA'⟩ := tod_dil_hess_total (TOD.init 1 1 0 0 0 false) !![1, 2, 0; 0, 1, 0; 0, 0, 1] ()
    ({ material := { material := () } } : DilSt (InvSt ℝ Unit))
  refine ⟨Binary64.rounding, A, A', _, by rw [Binary64.rounding_u]; positivity, hu, hF0, h1, hk, hl, ⟨_, hA⟩, ⟨_, hA'⟩,
    (tod_hess _ () (symInv_unimodular hF0)).2 rfl, 0, 0, 1, 1, ?_⟩
  have h4 : powFactor Binary64.rounding.u !![1, 2, 0; 0, 1, 0; 0, 0, 1] ^ 3 * (1 + Binary64.rounding.u) ^ 23 - 1 ≤ 1 / 2 := by
    have h5 : powFactor Binary64.rounding.u !![1, 2, 0; 0, 1, 0; 0, 0, 1] ^ 3 * (1 + Binary64.rounding.u) ^ 23 ≤
        (1 + 25 * 2 ^ (-43 : ℤ)) ^ 3 * (1 + (2 : ℝ) ^ (-53 : ℤ)) ^ 23 := by gcongr
    have h6 : (1 + 25 * 2 ^ (-43 : ℤ)) ^ 3 * (1 + (2 : ℝ) ^ (-53 : ℤ)) ^ 23 - 1 ≤ 1 / 2 := by norm_num
    exact (sub_le_sub_right h5 1).trans h6
  have h5 : TodPar.fictitiousP ⟨1, 1, 0, 0, 0, undeformed false⟩ (-1 / 3) !![1, 2, 0; 0, 1, 0; 0, 0, 1] 0 0 1 1 = 4 := by
    simp [TodPar.fictitiousP, TodPar.hessP, TodPar.w2, TodPar.w11, hC, dyad, dyadSym]
  have h6 : |4 * (Spec.cauchyGreen !![1, 2, 0; 0, 1, 0; 0, 0, 1]).det ^ (-2 / 3 : ℝ) *
      todHessT (TOD.init 1 1 0 0 0 false) (unimodular (Spec.cauchyGreen !![1, 2, 0; 0, 1, 0; 0, 0, 1])) 0 0 1 1| = 4 := by
    simp [todHessT, TOD.init, hC, dyad, dyadSym]
  rw [h5, h6]
  have h7 : (2 : ℝ) ^ (-53 : ℤ) ≤ 1 := by norm_num
  linarith

end Props
