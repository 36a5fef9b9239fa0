import Verif.Proofs.RoundingPow
import Verif.Props.RoundingSpace

/-!
# Floating-point rounding: the distortional and the dilatational space (C66)

The stress of third-order-deformation materials, as computed in floating-point arithmetic.  The
determinant of the right Cauchy-Green tensor is computed as well: its relative error and that of its
powers are bounded by the condition number of the determinant.
-/

namespace Props
open Spec Hel Rnd

variable {Z : Type}

/-- The computed determinant of the right Cauchy-Green tensor. -/
theorem rounded_det (R : Rounding) {F : Ten2 ℝ} (hF : F.det ≠ 0) :
    |(Rnd.det (Rnd.cauchyGreen (R.arr33 F))).val - (Spec.cauchyGreen F).det| ≤
      detError R.u F * (Spec.cauchyGreen F).det := by
  have hd := det_cauchyGreen_pos hF
  have h : Within R.u 22 (Rnd.det (Rnd.cauchyGreen (R.arr33 F))).val (Rnd.det (Rnd.cauchyGreen (K := ℝ) F))
      (Rnd.det (Rnd.cauchyGreen (K := Maj) fun i j => lit (F i j))).val := by
    refine within_of (Rnd.det (Rnd.cauchyGreen (K := Cert (ctx R)) fun i j => lit (F i j))) ?_ ?_ ?_ (Cert.hom_cnt.det _) ?_
    · rw [Cert.hom_fl.det]; simp only [Cert.hom_fl.cauchyGreen]; rfl
    · rw [Cert.hom_ex.det]; simp only [Cert.hom_ex.cauchyGreen]; rfl
    · rw [Cert.hom_m.det]; simp only [Cert.hom_m.cauchyGreen]; rfl
    · simp only [Cert.hom_cnt.cauchyGreen]
      exact (Cnt.le_det (Cnt.le_cauchyGreen _ fun _ _ => ⟨le_rfl, le_rfl⟩)).2
  rw [Maj.val_det, Maj.val_cauchyGreen, cauchyGreen_exact, det_exact, T2_det, cauchyGreen_exact] at h
  refine h.trans (le_of_eq ?_)
  rw [detError, mul_assoc, div_mul_cancel₀ _ hd.ne']
  rfl

theorem detError_nonneg (R : Rounding) {F : Ten2 ℝ} (hF : F.det ≠ 0) : 0 ≤ detError R.u F := by
  have h := (abs_nonneg _).trans (rounded_det R hF)
  exact nonneg_of_mul_nonneg_left h (det_cauchyGreen_pos hF)

/-- The certified arithmetic with the factor of the powers of the determinant. -/
noncomputable abbrev powCtx (R : Rounding) {F : Ten2 ℝ} (hF : F.det ≠ 0) (he : detError R.u F < 1) : Ctx :=
  ⟨R, powFactor R.u F, by
    have h0 := detError_nonneg R hF
    have := le_powQ (d := (Spec.cauchyGreen F).det) R.u_nonneg h0 he
    refine le_trans ?_ this
    rw [le_div_iff₀] <;> linarith⟩

theorem det_accuracy (R : Rounding) {F : Ten2 ℝ} (hF : F.det ≠ 0) (he : detError R.u F < 1) :
    |(Rnd.det (Rnd.cauchyGreen (R.arr33 F))).val - (Spec.cauchyGreen F).det| ≤
      (1 - 1 / (powCtx R hF he).q) * |(Spec.cauchyGreen F).det| := by
  have hd := det_cauchyGreen_pos hF
  refine (rounded_det R hF).trans ?_
  rw [abs_of_pos hd]
  have h0 := detError_nonneg R hF
  have h1 := le_powQ (d := (Spec.cauchyGreen F).det) R.u_nonneg h0 he
  have h2 : (0 : ℝ) < 1 / (1 - detError R.u F) := by apply one_div_pos.2; linarith
  have h3 : 1 / (powCtx R hF he).q ≤ 1 - detError R.u F :=
    (one_div_le (lt_of_lt_of_le h2 h1) (by linarith)).2 h1
  gcongr
  linarith

/-- The computed stress of the distortional space. -/
theorem rounded_distortional (R : Rounding) (p : TOD ℝ) (z : Z) {F P : Ten2 ℝ} (hF : F.det ≠ 0)
    (he : detError R.u F < 1)
    (hP : SpaceObj.Grad (Distortional.obj {} (Invariants.material p.mat)) z F P) (i J : Fin 3) :
    0 ≤ (Maj.par p).distortionalP F i J ∧
    |R.distortionalGradient p F i J - P i J| ≤
      (powFactor R.u F ^ 4 * (1 + R.u) ^ 69 - 1) * (Maj.par p).distortionalP F i J := by
  obtain ⟨G, hG, rfl⟩ := (Distortional.grad_iff _ _ hF).1 hP
  rw [(tod_grad p z (symInv_unimodular hF)).1 hG]
  have hd := det_cauchyGreen_pos hF
  have hpow : |R.pow (Rnd.det (Rnd.cauchyGreen (R.arr33 F))).val (R.div (-1) 3) -
      (Spec.cauchyGreen F).det ^ (-1 / 3 : ℝ)| ≤ ((powCtx R hF he).q - 1) * |(Spec.cauchyGreen F).det ^ (-1 / 3 : ℝ)| :=
    pow_accuracy R hd (rounded_det R hF) (detError_nonneg R hF) he (by norm_num [abs_div])
      (R.div_error _ _ (by norm_num))
  let t : Cert (powCtx R hF he) := Cert.rel _ _ hpow
  let D : Cert (powCtx R hF he) → Cert (powCtx R hF he) := Cert.divBy _ _ hd.ne' (det_accuracy R hF he)
  let x : Cert (powCtx R hF he) := Rnd.piolaStress (fun i j => lit (F i j))
    (Rnd.distS t D p (Rnd.cauchyGreen fun i j => lit (F i j))) i J
  have hfl : x.fl = R.distortionalGradient p F i J := by
    have h := Cert.hom_fl.piolaStress (fun i j => lit (F i j)) (Rnd.distS t D p (Rnd.cauchyGreen fun i j => lit (F i j))) i J
    have h2 := fun a => Cert.hom_fl.distS (d := D) (d' := R.divBy (Rnd.det (Rnd.cauchyGreen (R.arr33 F)))) (fun x => rfl) t p
      (Rnd.cauchyGreen fun i j => lit (F i j)) a
    simp only [h2, Cert.hom_fl.cauchyGreen] at h
    exact congrArg Fl.val h
  have hex : x.ex = (F * Spec.distS (Spec.cauchyGreen F) (todGradT p (unimodular (Spec.cauchyGreen F)))) i J := by
    have h := Cert.hom_ex.piolaStress (fun i j => lit (F i j)) (Rnd.distS t D p (Rnd.cauchyGreen fun i j => lit (F i j))) i J
    have h2 := fun a => Cert.hom_ex.distS (d := D) (d' := fun x => x / (Spec.cauchyGreen F).det) (fun x => rfl) t p
      (Rnd.cauchyGreen fun i j => lit (F i j)) a
    simp only [h2, Cert.hom_ex.cauchyGreen] at h
    refine h.trans ?_
    change Rnd.piolaStress F (Rnd.distS ((Spec.cauchyGreen F).det ^ (-1 / 3 : ℝ)) (fun x => x / (Spec.cauchyGreen F).det) p
      (Rnd.cauchyGreen F)) i J = _
    rw [piolaStress_exact, distS_exact p _ (by rw [cauchyGreen_exact]) hd.ne' (by rw [cauchyGreen_exact]), cauchyGreen_exact]
  have hm : x.m = (Maj.par p).distortionalP F i J := by
    have h := Cert.hom_m.piolaStress (fun i j => lit (F i j)) (Rnd.distS t D p (Rnd.cauchyGreen fun i j => lit (F i j))) i J
    have h2 := fun a => Cert.hom_m.distS (d := D) (d' := fun x => ⟨x.val / |(Spec.cauchyGreen F).det|⟩) (fun x => rfl) t p
      (Rnd.cauchyGreen fun i j => lit (F i j)) a
    simp only [h2, Cert.hom_m.cauchyGreen] at h
    refine (congrArg Maj.val h).trans ?_
    change (Rnd.piolaStress (K := Maj) (fun i j => lit (F i j)) (Rnd.distS (⟨|(Spec.cauchyGreen F).det ^ (-1 / 3 : ℝ)|⟩)
      (fun x => ⟨x.val / |(Spec.cauchyGreen F).det|⟩) p (Rnd.cauchyGreen fun i j => lit (F i j))) i J).val = _
    rw [Maj.val_piolaStress, Maj.val_distS, Maj.val_cauchyGreen, cauchyGreen_exact, abs_of_pos hd,
      abs_of_pos (Real.rpow_pos_of_pos hd _)]
    rfl
  have hc : Cnt.Le x.cnt 4 69 := by
    have h := Cert.hom_cnt.piolaStress (fun i j => lit (F i j)) (Rnd.distS t D p (Rnd.cauchyGreen fun i j => lit (F i j))) i J
    have h2 := fun a => Cert.hom_cnt.distS (d := D) (d' := Cnt.divQ) (fun x => rfl) t p
      (Rnd.cauchyGreen fun i j => lit (F i j)) a
    simp only [h2, Cert.hom_cnt.cauchyGreen] at h
    rw [show x.cnt = _ from h]
    exact Cnt.le_piolaStress (fun _ _ => ⟨le_rfl, le_rfl⟩)
      (Cnt.le_distS p (Cnt.le_cauchyGreen _ fun _ _ => ⟨le_rfl, le_rfl⟩)) i J
  have := x.err_mono hc.1 hc.2
  have h0 := x.m_nonneg
  rw [hm] at h0
  rw [hfl, hex, hm] at this
  exact ⟨h0, this⟩

/-- The computed stress of the dilatational space. -/
theorem rounded_dilatational (R : Rounding) (p : TOD ℝ) (z : Z) {F P : Ten2 ℝ} (hF : F.det ≠ 0)
    (he : detError R.u F < 1)
    (hP : SpaceObj.Grad (Dilatational.obj {} (Invariants.material p.mat)) z F P) (i J : Fin 3) :
    0 ≤ (Maj.par p).dilatationalP F i J ∧
    |R.dilatationalGradient p F i J - P i J| ≤
      (powFactor R.u F ^ 4 * (1 + R.u) ^ 58 - 1) * (Maj.par p).dilatationalP F i J := by
  obtain ⟨G, hG, rfl⟩ := (Dilatational.grad_iff _ _ hF).1 hP
  have hd := det_cauchyGreen_pos hF
  have hS : SymInv ((Spec.cauchyGreen F).det ^ (1 / 3 : ℝ) • Spec.cauchyGreen F) := symInv_argOf .dilatational hF
  rw [(tod_grad p z hS).1 hG]
  have hpow : |R.pow (Rnd.det (Rnd.cauchyGreen (R.arr33 F))).val (R.div 1 3) -
      (Spec.cauchyGreen F).det ^ (1 / 3 : ℝ)| ≤ ((powCtx R hF he).q - 1) * |(Spec.cauchyGreen F).det ^ (1 / 3 : ℝ)| :=
    pow_accuracy R hd (rounded_det R hF) (detError_nonneg R hF) he (by norm_num [abs_div])
      (R.div_error _ _ (by norm_num))
  let t : Cert (powCtx R hF he) := Cert.rel _ _ hpow
  let D : Cert (powCtx R hF he) → Cert (powCtx R hF he) := Cert.divBy _ _ hd.ne' (det_accuracy R hF he)
  let x : Cert (powCtx R hF he) := Rnd.piolaStress (fun i j => lit (F i j))
    (Rnd.dilS t D p (Rnd.cauchyGreen fun i j => lit (F i j))) i J
  have hfl : x.fl = R.dilatationalGradient p F i J := by
    have h := Cert.hom_fl.piolaStress (fun i j => lit (F i j)) (Rnd.dilS t D p (Rnd.cauchyGreen fun i j => lit (F i j))) i J
    have h2 := fun a => Cert.hom_fl.dilS (d := D) (d' := R.divBy (Rnd.det (Rnd.cauchyGreen (R.arr33 F)))) (fun x => rfl) t p
      (Rnd.cauchyGreen fun i j => lit (F i j)) a
    simp only [h2, Cert.hom_fl.cauchyGreen] at h
    exact congrArg Fl.val h
  have hex : x.ex = (F * Spec.dilS (Spec.cauchyGreen F)
      (todGradT p ((Spec.cauchyGreen F).det ^ (1 / 3 : ℝ) • Spec.cauchyGreen F))) i J := by
    have h := Cert.hom_ex.piolaStress (fun i j => lit (F i j)) (Rnd.dilS t D p (Rnd.cauchyGreen fun i j => lit (F i j))) i J
    have h2 := fun a => Cert.hom_ex.dilS (d := D) (d' := fun x => x / (Spec.cauchyGreen F).det) (fun x => rfl) t p
      (Rnd.cauchyGreen fun i j => lit (F i j)) a
    simp only [h2, Cert.hom_ex.cauchyGreen] at h
    refine h.trans ?_
    change Rnd.piolaStress F (Rnd.dilS ((Spec.cauchyGreen F).det ^ (1 / 3 : ℝ)) (fun x => x / (Spec.cauchyGreen F).det) p
      (Rnd.cauchyGreen F)) i J = _
    rw [piolaStress_exact, dilS_exact p _ (by rw [cauchyGreen_exact]) hd.ne' (by rw [cauchyGreen_exact]), cauchyGreen_exact]
  have hm : x.m = (Maj.par p).dilatationalP F i J := by
    have h := Cert.hom_m.piolaStress (fun i j => lit (F i j)) (Rnd.dilS t D p (Rnd.cauchyGreen fun i j => lit (F i j))) i J
    have h2 := fun a => Cert.hom_m.dilS (d := D) (d' := fun x => ⟨x.val / |(Spec.cauchyGreen F).det|⟩) (fun x => rfl) t p
      (Rnd.cauchyGreen fun i j => lit (F i j)) a
    simp only [h2, Cert.hom_m.cauchyGreen] at h
    refine (congrArg Maj.val h).trans ?_
    change (Rnd.piolaStress (K := Maj) (fun i j => lit (F i j)) (Rnd.dilS (⟨|(Spec.cauchyGreen F).det ^ (1 / 3 : ℝ)|⟩)
      (fun x => ⟨x.val / |(Spec.cauchyGreen F).det|⟩) p (Rnd.cauchyGreen fun i j => lit (F i j))) i J).val = _
    rw [Maj.val_piolaStress, Maj.val_dilS, Maj.val_cauchyGreen, cauchyGreen_exact, abs_of_pos hd,
      abs_of_pos (Real.rpow_pos_of_pos hd _)]
    rfl
  have hc : Cnt.Le x.cnt 4 58 := by
    have h := Cert.hom_cnt.piolaStress (fun i j => lit (F i j)) (Rnd.dilS t D p (Rnd.cauchyGreen fun i j => lit (F i j))) i J
    have h2 := fun a => Cert.hom_cnt.dilS (d := D) (d' := Cnt.divQ) (fun x => rfl) t p
      (Rnd.cauchyGreen fun i j => lit (F i j)) a
    simp only [h2, Cert.hom_cnt.cauchyGreen] at h
    rw [show x.cnt = _ from h]
    exact Cnt.le_piolaStress (fun _ _ => ⟨le_rfl, le_rfl⟩)
      (Cnt.le_dilS p (Cnt.le_cauchyGreen _ fun _ _ => ⟨le_rfl, le_rfl⟩)) i J
  have := x.err_mono hc.1 hc.2
  have h0 := x.m_nonneg
  rw [hm] at h0
  rw [hfl, hex, hm] at this
  exact ⟨h0, this⟩

/-! ### C66 -/

/-- The computed stress of the distortional space. -/
theorem C66_distortional (R : Rounding) (C10 C01 C11 C20 C30 : ℝ) (strain : Bool) (z : Z) {F P : Ten2 ℝ} (hF : F.det ≠ 0)
    (he : detError R.u F < 1)
    (hP : SpaceObj.Grad (Distortional.obj {} (Invariants.material (TOD.init C10 C01 C11 C20 C30 strain).mat)) z F P)
    (i J : Fin 3) :
    |R.distortionalGradient (TOD.init C10 C01 C11 C20 C30 strain) F i J - P i J| ≤
      (powFactor R.u F ^ 4 * (1 + R.u) ^ 69 - 1) *
        TodPar.distortionalP ⟨C10, C01, C11, C20, C30, undeformed strain⟩ F i J :=
  (rounded_distortional R _ z hF he hP i J).2

/-- The computed stress of the dilatational space. -/
theorem C66_dilatational (R : Rounding) (C10 C01 C11 C20 C30 : ℝ) (strain : Bool) (z : Z) {F P : Ten2 ℝ} (hF : F.det ≠ 0)
    (he : detError R.u F < 1)
    (hP : SpaceObj.Grad (Dilatational.obj {} (Invariants.material (TOD.init C10 C01 C11 C20 C30 strain).mat)) z F P)
    (i J : Fin 3) :
    |R.dilatationalGradient (TOD.init C10 C01 C11 C20 C30 strain) F i J - P i J| ≤
      (powFactor R.u F ^ 4 * (1 + R.u) ^ 58 - 1) *
        TodPar.dilatationalP ⟨C10, C01, C11, C20, C30, undeformed strain⟩ F i J :=
  (rounded_dilatational R _ z hF he hP i J).2

/-- The bounds vanish as the unit roundoff does. -/
theorem tendsto_powFactor (F : Ten2 ℝ) {u : ℕ → ℝ} (hu : Filter.Tendsto u .atTop (nhds 0)) :
    Filter.Tendsto (fun n => detError (u n) F) .atTop (nhds 0) ∧
    Filter.Tendsto (fun n => powFactor (u n) F) .atTop (nhds 1) := by
  have h1 : Filter.Tendsto (fun n => detError (u n) F) .atTop (nhds 0) := by
    have : Filter.Tendsto (fun n => detError (u n) F) .atTop
        (nhds (((1 + 0) ^ 22 - 1) * (detP (Spec.cauchyGreen (abs2 F)) / (Spec.cauchyGreen F).det))) :=
      (((hu.const_add 1).pow 22).sub_const 1).mul_const _
    simpa using this
  refine ⟨h1, ?_⟩
  have h2 : Filter.Tendsto (fun n => 1 / (1 - detError (u n) F)) .atTop (nhds (1 / (1 - 0))) :=
    tendsto_const_nhds.div (h1.const_sub 1) (by norm_num)
  have h3 := h2.rpow (hu.const_add 1) (Or.inl (by norm_num))
  have h4 : Filter.Tendsto (fun n => Real.exp (u n / 3 * |Real.log (Spec.cauchyGreen F).det|)) .atTop
      (nhds (Real.exp (0 / 3 * |Real.log (Spec.cauchyGreen F).det|))) :=
    (Real.continuous_exp.tendsto _).comp ((hu.div_const 3).mul_const _)
  have h5 := (((hu.const_add 1).pow 2).mul h3).mul h4
  simpa [powFactor] using h5

/-- The computed stresses of both spaces converge to the exact ones if the precision is increased. -/
theorem C66_converges (R : ℕ → Rounding) (hR : Filter.Tendsto (fun n => (R n).u) .atTop (nhds 0))
    (C10 C01 C11 C20 C30 : ℝ) (strain : Bool) (z : Z) {F P P' : Ten2 ℝ} (hF : F.det ≠ 0)
    (hP : SpaceObj.Grad (Distortional.obj {} (Invariants.material (TOD.init C10 C01 C11 C20 C30 strain).mat)) z F P)
    (hP' : SpaceObj.Grad (Dilatational.obj {} (Invariants.material (TOD.init C10 C01 C11 C20 C30 strain).mat)) z F P')
    (i J : Fin 3) :
    Filter.Tendsto (fun n => (R n).distortionalGradient (TOD.init C10 C01 C11 C20 C30 strain) F i J) .atTop (nhds (P i J)) ∧
    Filter.Tendsto (fun n => (R n).dilatationalGradient (TOD.init C10 C01 C11 C20 C30 strain) F i J) .atTop
      (nhds (P' i J)) := by
  obtain ⟨h1, h2⟩ := tendsto_powFactor F hR
  have hev : ∀ᶠ n in Filter.atTop, detError (R n).u F < 1 := h1.eventually (gt_mem_nhds one_pos)
  have key : ∀ (N : ℕ) (m x : ℝ) (y : ℕ → ℝ),
      (∀ n, detError (R n).u F < 1 → |y n - x| ≤ (powFactor (R n).u F ^ 4 * (1 + (R n).u) ^ N - 1) * m) →
      Filter.Tendsto y .atTop (nhds x) := by
    intro N m x y h
    rw [tendsto_iff_dist_tendsto_zero]
    have h0 : Filter.Tendsto (fun n => (powFactor (R n).u F ^ 4 * (1 + (R n).u) ^ N - 1) * m) .atTop
        (nhds ((1 ^ 4 * (1 + 0) ^ N - 1) * m)) :=
      (((h2.pow 4).mul ((hR.const_add 1).pow N)).sub_const 1).mul_const m
    rw [add_zero, one_pow, one_pow, one_mul, sub_self, zero_mul] at h0
    exact squeeze_zero' (.of_forall fun _ => dist_nonneg) (hev.mono fun n hn => h n hn) h0
  exact ⟨key 69 _ _ _ fun n hn => C66_distortional (R n) _ _ _ _ _ _ z hF hn hP i J,
    key 58 _ _ _ fun n hn => C66_dilatational (R n) _ _ _ _ _ _ z hF hn hP' i J⟩

/-- The factors in double precision, for a condition number of at most `2¹⁰`. -/
theorem powFactor_le {u : ℝ} (hu0 : 0 ≤ u) (hu : u ≤ 2 ^ (-53 : ℤ)) {F : Ten2 ℝ} (h0 : 0 ≤ detError u F)
    (hk : detP (Spec.cauchyGreen (abs2 F)) ≤ 2 ^ 10 * (Spec.cauchyGreen F).det) (hd : 0 < (Spec.cauchyGreen F).det)
    (hl : |Real.log (Spec.cauchyGreen F).det| ≤ 2 ^ 5) :
    detError u F < 1 ∧ 0 ≤ powFactor u F ∧ powFactor u F ≤ 1 + 25 * 2 ^ (-43 : ℤ) := by
  have h1 : (1 + u) ^ 22 - 1 ≤ 23 * 2 ^ (-53 : ℤ) := by
    have : (1 + u) ^ 22 ≤ (1 + (2 : ℝ) ^ (-53 : ℤ)) ^ 22 := by gcongr
    have : (1 + (2 : ℝ) ^ (-53 : ℤ)) ^ 22 - 1 ≤ 23 * 2 ^ (-53 : ℤ) := by norm_num
    linarith
  have h2 : detP (Spec.cauchyGreen (abs2 F)) / (Spec.cauchyGreen F).det ≤ 2 ^ 10 := by
    rw [div_le_iff₀ hd]; exact hk
  have h3 : detError u F ≤ 23 * 2 ^ (-43 : ℤ) := by
    have h4 : 0 ≤ (1 + u) ^ 22 - 1 := sub_nonneg.2 (one_le_pow₀ (by linarith))
    calc detError u F ≤ ((1 + u) ^ 22 - 1) * 2 ^ 10 := by unfold detError; gcongr
      _ ≤ 23 * 2 ^ (-53 : ℤ) * 2 ^ 10 := by gcongr
      _ ≤ 23 * 2 ^ (-43 : ℤ) := by norm_num
  have h4 : detError u F < 1 := h3.trans_lt (by norm_num)
  have h5 : 1 / (1 - detError u F) ≤ 1 + 24 * 2 ^ (-43 : ℤ) := by
    rw [div_le_iff₀ (by linarith)]
    norm_num at h3 ⊢
    nlinarith
  have h6 : 0 < 1 / (1 - detError u F) := by apply one_div_pos.2; linarith
  have h7 : (1 / (1 - detError u F)) ^ (1 + u) ≤ (1 + 24 * 2 ^ (-43 : ℤ)) * (1 + 2 ^ (-53 : ℤ)) := by
    have h8 : (1 / (1 - detError u F)) ^ u ≤ 1 + 2 ^ (-53 : ℤ) := by
      calc _ ≤ (1 + (24 * 2 ^ (-43 : ℤ) : ℝ)) ^ u := Real.rpow_le_rpow h6.le h5 hu0
        _ ≤ 1 + u * (24 * 2 ^ (-43 : ℤ)) :=
          rpow_one_add_le_one_add_mul_self (by norm_num) hu0 (hu.trans (by norm_num))
        _ ≤ 1 + 2 ^ (-53 : ℤ) * (24 * 2 ^ (-43 : ℤ)) := by gcongr
        _ ≤ 1 + 2 ^ (-53 : ℤ) := by norm_num
    rw [Real.rpow_add h6, Real.rpow_one]
    exact mul_le_mul h5 h8 (Real.rpow_pos_of_pos h6 _).le (by norm_num)
  have h9 : Real.exp (u / 3 * |Real.log (Spec.cauchyGreen F).det|) ≤ 1 + 12 * 2 ^ (-53 : ℤ) := by
    have h10 : u / 3 * |Real.log (Spec.cauchyGreen F).det| ≤ 11 * 2 ^ (-53 : ℤ) := by
      calc _ ≤ 2 ^ (-53 : ℤ) / 3 * 2 ^ 5 := by gcongr
        _ ≤ 11 * (2 : ℝ) ^ (-53 : ℤ) := by norm_num
    calc _ ≤ Real.exp (11 * 2 ^ (-53 : ℤ)) := Real.exp_le_exp.2 h10
      _ ≤ 1 / (1 - 11 * 2 ^ (-53 : ℤ)) := Real.exp_bound_div_one_sub_of_interval (by norm_num) (by norm_num)
      _ ≤ 1 + 12 * 2 ^ (-53 : ℤ) := by norm_num
  have h11 : 0 ≤ (1 / (1 - detError u F)) ^ (1 + u) := (Real.rpow_pos_of_pos h6 _).le
  refine ⟨h4, by unfold powFactor; positivity, ?_⟩
  calc powFactor u F ≤ (1 + 2 ^ (-53 : ℤ)) ^ 2 * ((1 + 24 * 2 ^ (-43 : ℤ)) * (1 + 2 ^ (-53 : ℤ))) * (1 + 12 * 2 ^ (-53 : ℤ)) := by
        unfold powFactor; gcongr
    _ ≤ 1 + 25 * 2 ^ (-43 : ℤ) := by norm_num

/-- In double precision, for a condition number of the determinant of at most `2¹⁰` and volume ratios between
`e⁻¹⁶` and `e¹⁶`, the errors are at most `2⁻³⁶` times the majorants. -/
theorem C66_double (R : Rounding) (hR : R.u ≤ 2 ^ (-53 : ℤ)) (C10 C01 C11 C20 C30 : ℝ) (strain : Bool) (z : Z)
    {F P P' : Ten2 ℝ} (hF : F.det ≠ 0)
    (hk : detP (Spec.cauchyGreen (abs2 F)) ≤ 2 ^ 10 * (Spec.cauchyGreen F).det)
    (hl : |Real.log (Spec.cauchyGreen F).det| ≤ 2 ^ 5)
    (hP : SpaceObj.Grad (Distortional.obj {} (Invariants.material (TOD.init C10 C01 C11 C20 C30 strain).mat)) z F P)
    (hP' : SpaceObj.Grad (Dilatational.obj {} (Invariants.material (TOD.init C10 C01 C11 C20 C30 strain).mat)) z F P')
    (i J : Fin 3) :
    |R.distortionalGradient (TOD.init C10 C01 C11 C20 C30 strain) F i J - P i J| ≤
      2 ^ (-36 : ℤ) * TodPar.distortionalP ⟨C10, C01, C11, C20, C30, undeformed strain⟩ F i J ∧
    |R.dilatationalGradient (TOD.init C10 C01 C11 C20 C30 strain) F i J - P' i J| ≤
      2 ^ (-36 : ℤ) * TodPar.dilatationalP ⟨C10, C01, C11, C20, C30, undeformed strain⟩ F i J := by
  have hu := R.u_nonneg
  obtain ⟨h1, h2, h3⟩ := powFactor_le hu hR (detError_nonneg R hF) hk (det_cauchyGreen_pos hF) hl
  have key : ∀ (N : ℕ) (m x : ℝ), N ≤ 69 → 0 ≤ m ∧ x ≤ (powFactor R.u F ^ 4 * (1 + R.u) ^ N - 1) * m →
      x ≤ 2 ^ (-36 : ℤ) * m := by
    rintro N m x hN ⟨hm, h⟩
    have h4 : powFactor R.u F ^ 4 * (1 + R.u) ^ N - 1 ≤ 2 ^ (-36 : ℤ) := by
      have h5 : powFactor R.u F ^ 4 * (1 + R.u) ^ N ≤ (1 + 25 * 2 ^ (-43 : ℤ)) ^ 4 * (1 + (2 : ℝ) ^ (-53 : ℤ)) ^ 69 := by
        have h6 : (1 + R.u) ^ N ≤ (1 + R.u) ^ 69 := pow_le_pow_right₀ (by linarith) hN
        have h7 : (1 + R.u) ^ 69 ≤ (1 + (2 : ℝ) ^ (-53 : ℤ)) ^ 69 := by gcongr
        have h8 := h6.trans h7
        gcongr
      have h9 : (1 + 25 * 2 ^ (-43 : ℤ)) ^ 4 * (1 + (2 : ℝ) ^ (-53 : ℤ)) ^ 69 - 1 ≤ 2 ^ (-36 : ℤ) := by norm_num
      linarith
    exact h.trans (by gcongr)
  exact ⟨key 69 _ _ le_rfl (rounded_distortional R _ z hF h1 hP i J),
    key 58 _ _ (by norm_num) (rounded_dilatational R _ z hF h1 hP' i J)⟩

/-- The hypotheses are met: double precision and a third-order material, at a simple shear. -/
example : ∃ (R : Rounding) (P P' : Ten2 ℝ), 0 < R.u ∧ R.u ≤ 2 ^ (-53 : ℤ) ∧
    let F : Ten2 ℝ := !![1, 2, 0; 0, 1, 0; 0, 0, 1]
    F.det ≠ 0 ∧ detError R.u F < 1 ∧ detP (Spec.cauchyGreen (abs2 F)) ≤ 2 ^ 10 * (Spec.cauchyGreen F).det ∧
    |Real.log (Spec.cauchyGreen F).det| ≤ 2 ^ 5 ∧
    SpaceObj.Grad (Distortional.obj {} (Invariants.material (TOD.init 1 2 3 4 5 false).mat)) () F P ∧
    SpaceObj.Grad (Dilatational.obj {} (Invariants.material (TOD.init 1 2 3 4 5 false).mat)) () F P' := by
  obtain ⟨P, hP⟩ := tod_space_total .distortional (TOD.init 1 2 3 4 5 false) !![1, 2, 0; 0, 1, 0; 0, 0, 1] ()
    ({ material := { material := () } } : DistSt (InvSt ℝ Unit))
  obtain ⟨P', hP'⟩ := tod_space_total .dilatational (TOD.init 1 2 3 4 5 false) !![1, 2, 0; 0, 1, 0; 0, 0, 1] ()
    ({ material := { material := () } } : DilSt (InvSt ℝ Unit))
  have hF : (!![1, 2, 0; 0, 1, 0; 0, 0, (1 : ℝ)] : Ten2 ℝ).det = 1 := by simp [Matrix.det_fin_three]
  have hF0 : (!![1, 2, 0; 0, 1, 0; 0, 0, (1 : ℝ)] : Ten2 ℝ).det ≠ 0 := by rw [hF]; norm_num
  have hC : (Spec.cauchyGreen !![1, 2, 0; 0, 1, 0; 0, 0, 1]).det = 1 := by
    rw [Spec.cauchyGreen, Matrix.det_mul, Matrix.det_transpose, hF]; norm_num
  have hk : detP (Spec.cauchyGreen (abs2 !![1, 2, 0; 0, 1, 0; 0, 0, 1])) ≤
      2 ^ 10 * (Spec.cauchyGreen !![1, 2, 0; 0, 1, 0; 0, 0, 1]).det := by
    rw [hC]
    simp [detP, Spec.cauchyGreen, abs2, Matrix.mul_apply, Fin.sum_univ_three]
    norm_num
  have hl : |Real.log (Spec.cauchyGreen !![1, 2, 0; 0, 1, 0; 0, 0, 1]).det| ≤ 2 ^ 5 := by rw [hC]; simp
  have hu : Binary64.rounding.u ≤ 2 ^ (-53 : ℤ) := le_rfl
  refine ⟨Binary64.rounding, P, P', by rw [Binary64.rounding_u]; positivity, hu, hF0, ?_, hk, hl, ⟨_, _, hP⟩, ⟨_, _, hP'⟩⟩
  exact (powFactor_le Binary64.rounding.u_nonneg hu (detError_nonneg _ hF0) hk (det_cauchyGreen_pos hF0) hl).1

end Props
