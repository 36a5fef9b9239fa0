import Verif.Proofs.RoundingTangentSplit

/-! Certified tangents of given derivatives of the energy, and the errors of the derivatives. -/

namespace Hel.Rnd
open Spec Matrix

/-- A datum with a bound. -/
def Cert.bounded {T : Ctx} (x N : ℝ) (h : |x| ≤ N) : Cert T where
  fl := x
  ex := x
  m := N
  a := 0
  b := 0
  maj := h
  err := by
    have : (T.E 0 0 - 1) * N = 0 := by simp [Ctx.E]
    rw [this, sub_self, abs_zero]

/-- The elasticity tensor of the distortional space for given derivatives of the energy. -/
noncomputable def distLin (keep : Prop) [Decidable keep] (F X : Ten2 ℝ) (Y : Ten4 ℝ) : Ten4 ℝ :=
  piolaT F (Spec.distS (Spec.cauchyGreen F) X) (if keep then
    fun i j k l => Distortional.geoT (Spec.cauchyGreen F) X i j k l +
      contract44 (contract44 (Distortional.projT (Spec.cauchyGreen F)) (Distortional.c4bT (Spec.cauchyGreen F) Y))
        (Distortional.projTt (Spec.cauchyGreen F)) i j k l
    else Distortional.geoT (Spec.cauchyGreen F) X)

/-- The elasticity tensor of the dilatational space for given derivatives of the energy. -/
noncomputable def dilLin (F X : Ten2 ℝ) (Y : Ten4 ℝ) : Ten4 ℝ :=
  piolaT F (Spec.dilS (Spec.cauchyGreen F) X) (Dilatational.c4T (Spec.cauchyGreen F) X Y)

/-- The unit of the second derivative, if the projected part is kept. -/
noncomputable def keptUnit (keep : Prop) [Decidable keep] (F : Ten2 ℝ) : Ten4 ℝ := fun i J k L =>
  if keep then distortionalProjectedUnit F i J k L else 0

theorem geoT_sub (C A B : Ten2 ℝ) (i j k l : Fin 3) :
    Distortional.geoT C (A - B) i j k l = Distortional.geoT C A i j k l - Distortional.geoT C B i j k l := by
  have h : contract22 ((2 * C.det ^ (-1 / 3 : ℝ)) • (A - B)) C =
      contract22 ((2 * C.det ^ (-1 / 3 : ℝ)) • A) C - contract22 ((2 * C.det ^ (-1 / 3 : ℝ)) • B) C := by
    simp only [contract22, Matrix.sub_apply, Matrix.smul_apply, smul_eq_mul, Fin.sum_univ_three]
    ring
  simp only [Distortional.geoT, h, dyad, Matrix.sub_apply, Matrix.smul_apply, smul_eq_mul]
  ring

theorem contract44_sub_mid (P Q : Ten4 ℝ) (c : ℝ) (A B : Ten4 ℝ) (i j k l : Fin 3) :
    contract44 (contract44 P fun i j k l => c * (A i j k l - B i j k l)) Q i j k l =
      contract44 (contract44 P fun i j k l => c * A i j k l) Q i j k l -
        contract44 (contract44 P fun i j k l => c * B i j k l) Q i j k l := by
  simp only [contract44, ← Finset.sum_sub_distrib, ← sub_mul, ← mul_sub]

theorem distLin_sub (keep : Prop) [Decidable keep] (F A B : Ten2 ℝ) (H K : Ten4 ℝ) (i J k L : Fin 3) :
    distLin keep F (A - B) (fun i j k l => H i j k l - K i j k l) i J k L =
      distLin keep F A H i J k L - distLin keep F B K i J k L := by
  have h := contract44_sub_mid (Distortional.projT (Spec.cauchyGreen F)) (Distortional.projTt (Spec.cauchyGreen F))
    (4 * (Spec.cauchyGreen F).det ^ (-2 / 3 : ℝ)) H K
  unfold distLin piolaT
  rw [add_sub_add_comm]
  congr 1
  · rw [← Finset.sum_sub_distrib]
    refine Finset.sum_congr rfl fun I _ => ?_
    rw [← Finset.sum_sub_distrib]
    refine Finset.sum_congr rfl fun M _ => ?_
    rw [← mul_sub]
    congr 1
    split_ifs
    · have h' := h I J M L
      unfold Distortional.c4bT
      dsimp only
      rw [h', geoT_sub]; ring
    · exact geoT_sub ..
  · rw [distS_sub]
    simp only [dyadIK, Matrix.sub_apply, mul_sub]

theorem dilLin_sub (F A B : Ten2 ℝ) (H K : Ten4 ℝ) (i J k L : Fin 3) :
    dilLin F (A - B) (fun i j k l => H i j k l - K i j k l) i J k L = dilLin F A H i J k L - dilLin F B K i J k L := by
  unfold dilLin piolaT
  rw [add_sub_add_comm]
  congr 1
  · rw [← Finset.sum_sub_distrib]
    refine Finset.sum_congr rfl fun I _ => ?_
    rw [← Finset.sum_sub_distrib]
    refine Finset.sum_congr rfl fun M _ => ?_
    rw [← mul_sub]
    congr 1
    simp only [Dilatational.c4T, contract22, contract42, Matrix.trace, Matrix.diag_apply, Matrix.sub_apply, Matrix.smul_apply,
      smul_eq_mul, Fin.sum_univ_three]
    ring
  · rw [dilS_sub]
    simp only [dyadIK, Matrix.sub_apply, mul_sub]

theorem dyadIK_scale (S S' I : Ten2 ℝ) (c N : ℝ) (h : ∀ i j, S i j = N * S' i j) (i J k L : Fin 3) :
    dyadIK (1 : Ten2 ℝ) (S + (N * c / 3) • I) i J k L = N * dyadIK (1 : Ten2 ℝ) (S' + (c / 3) • I) i J k L := by
  simp only [dyadIK, Matrix.add_apply, Matrix.smul_apply, smul_eq_mul, h]
  ring

section
variable {T : Ctx} {F : Ten2 ℝ}

/-- The certified elasticity tensor of the distortional space. -/
theorem cert_distortional (keep : Prop) [Decidable keep] (hd : 0 < (Spec.cauchyGreen F).det) {d' t' s' : ℝ}
    (hdet : |d' - (Spec.cauchyGreen F).det| ≤ (1 - 1 / T.q) * |(Spec.cauchyGreen F).det|)
    (ht' : |t' - (Spec.cauchyGreen F).det ^ (-1 / 3 : ℝ)| ≤ (T.q - 1) * |(Spec.cauchyGreen F).det ^ (-1 / 3 : ℝ)|)
    (hs' : |s' - (Spec.cauchyGreen F).det ^ (-2 / 3 : ℝ)| ≤ (T.q ^ 2 - 1) * |(Spec.cauchyGreen F).det ^ (-2 / 3 : ℝ)|)
    (X : Vec6 ℝ) (Y : Mat6 ℝ) {N N' : ℝ} (hX : ∀ a, |X a| ≤ N) (hY : ∀ a b, |Y a b| ≤ N') (i J k L : Fin 3) :
    ∃ x : Cert T, x.fl = (piolaElasticity (T.R.arr33 F)
        (distStress ⟨t'⟩ (T.R.divBy ⟨d'⟩) (T.R.arr6 X) (Rnd.cauchyGreen (T.R.arr33 F)))
        (distC4Of keep ⟨t'⟩ ⟨s'⟩ (T.R.divBy ⟨d'⟩) (T.R.arr6 X) (T.R.arr66 Y) (Rnd.cauchyGreen (T.R.arr33 F))) i J k L).val ∧
      x.ex = distLin keep F (T2 X) (astensor4 Y) i J k L ∧
      x.m = N * distortionalTangentUnit F i J k L + N' * keptUnit keep F i J k L ∧ Cnt.Le x.cnt 4 76 := by
  let t : Cert T := Cert.rel _ _ ht'
  let s : Cert T := Cert.rel2 _ _ hs'
  let D : Cert T → Cert T := Cert.divBy _ _ hd.ne' hdet
  let XX : Vec6 (Cert T) := fun a => Cert.bounded (X a) N (hX a)
  let YY : Mat6 (Cert T) := fun a b => Cert.bounded (Y a b) N' (hY a b)
  let A : Full2 (Cert T) := fun i j => lit (F i j)
  let S : Vec6 (Cert T) := Rnd.distStress t D XX (Rnd.cauchyGreen A)
  let C4 : Mat6 (Cert T) := Rnd.distC4Of keep t s D XX YY (Rnd.cauchyGreen A)
  have htp := Real.rpow_pos_of_pos hd (-1 / 3)
  have hsp := Real.rpow_pos_of_pos hd (-2 / 3)
  refine ⟨Rnd.piolaElasticity A S C4 i J k L, ?_, ?_, ?_, ?_⟩
  · have h1 := Cert.hom_fl.piolaElasticity A S C4 i J k L
    have h2 := fun a => Cert.hom_fl.distStress (d := D) (d' := T.R.divBy ⟨d'⟩) (fun x => rfl) t XX (Rnd.cauchyGreen A) a
    have h3 := fun a b => Cert.hom_fl.distC4Of (d := D) (d' := T.R.divBy ⟨d'⟩) (fun x => rfl) keep t s XX YY
      (Rnd.cauchyGreen A) a b
    simp only [S, C4, h2, h3, Cert.hom_fl.cauchyGreen] at h1
    exact congrArg Fl.val h1
  · have h1 := Cert.hom_ex.piolaElasticity A S C4 i J k L
    have h2 := fun a => Cert.hom_ex.distStress (d := D) (d' := fun x => x / (Spec.cauchyGreen F).det) (fun x => rfl) t XX
      (Rnd.cauchyGreen A) a
    have h3 := fun a b => Cert.hom_ex.distC4Of (d := D) (d' := fun x => x / (Spec.cauchyGreen F).det) (fun x => rfl)
      keep t s XX YY (Rnd.cauchyGreen A) a b
    simp only [S, C4, h2, h3, Cert.hom_ex.cauchyGreen] at h1
    refine h1.trans ?_
    change Rnd.piolaElasticity F (Rnd.distStress ((Spec.cauchyGreen F).det ^ (-1 / 3 : ℝ))
      (fun x => x / (Spec.cauchyGreen F).det) X (Rnd.cauchyGreen F)) (Rnd.distC4Of keep ((Spec.cauchyGreen F).det ^ (-1 / 3 : ℝ))
        ((Spec.cauchyGreen F).det ^ (-2 / 3 : ℝ)) (fun x => x / (Spec.cauchyGreen F).det) X Y (Rnd.cauchyGreen F)) i J k L = _
    rw [piolaElasticity_exact, distStress_exact _ _ (by rw [cauchyGreen_exact]) hd.ne' (by rw [cauchyGreen_exact])]
    have hg := distGeoOf_exact X (Rnd.cauchyGreen F) (d := (Spec.cauchyGreen F).det) (t := (Spec.cauchyGreen F).det ^ (-1 / 3 : ℝ))
      (by rw [cauchyGreen_exact]) hd.ne' (by rw [cauchyGreen_exact])
    have hq := distMatOf_exact Y (Rnd.cauchyGreen F) (d := (Spec.cauchyGreen F).det)
      (s := (Spec.cauchyGreen F).det ^ (-2 / 3 : ℝ)) (by rw [cauchyGreen_exact]) hd.ne' (by rw [cauchyGreen_exact])
    rw [cauchyGreen_exact] at hg hq ⊢
    unfold Rnd.distC4Of distLin
    split_ifs
    · rw [← hg, ← hq]
      rfl
    · rw [hg]
  · have h1 := Cert.hom_m.piolaElasticity A S C4 i J k L
    have h2 := fun a => Cert.hom_m.distStress (d := D) (d' := fun x => ⟨x.val / |(Spec.cauchyGreen F).det|⟩) (fun x => rfl) t XX
      (Rnd.cauchyGreen A) a
    have h3 := fun a b => Cert.hom_m.distC4Of (d := D) (d' := fun x => ⟨x.val / |(Spec.cauchyGreen F).det|⟩) (fun x => rfl)
      keep t s XX YY (Rnd.cauchyGreen A) a b
    simp only [S, C4, h2, h3, Cert.hom_m.cauchyGreen] at h1
    refine (congrArg Maj.val h1).trans ?_
    change (Rnd.piolaElasticity (K := Maj) (fun i j => lit (F i j)) (Rnd.distStress (⟨|(Spec.cauchyGreen F).det ^ (-1 / 3 : ℝ)|⟩)
      (fun x => ⟨x.val / |(Spec.cauchyGreen F).det|⟩) (fun _ => ⟨N⟩) (Rnd.cauchyGreen fun i j => lit (F i j)))
      (Rnd.distC4Of keep (⟨|(Spec.cauchyGreen F).det ^ (-1 / 3 : ℝ)|⟩) (⟨|(Spec.cauchyGreen F).det ^ (-2 / 3 : ℝ)|⟩)
        (fun x => ⟨x.val / |(Spec.cauchyGreen F).det|⟩) (fun _ => ⟨N⟩) (fun _ _ => ⟨N'⟩)
        (Rnd.cauchyGreen fun i j => lit (F i j))) i J k L).val = _
    rw [abs_of_pos hd, abs_of_pos htp, abs_of_pos hsp]
    rw [Maj.val_piolaElasticity, Maj.val_distStress, Maj.val_cauchyGreen, cauchyGreen_exact]
    have hg := fun I J K L => Maj.val_distGeoOf (fun _ => ⟨N⟩) (Rnd.cauchyGreen fun i j => lit (F i j))
      ⟨(Spec.cauchyGreen F).det ^ (-1 / 3 : ℝ)⟩ (Spec.cauchyGreen F).det I J K L
    have hq := Maj.val_distMatOf (fun _ _ => ⟨N'⟩) (Rnd.cauchyGreen fun i j => lit (F i j))
      ⟨(Spec.cauchyGreen F).det ^ (-2 / 3 : ℝ)⟩ (Spec.cauchyGreen F).det
    rw [Maj.val_cauchyGreen, cauchyGreen_exact] at hg hq
    have hi : ∀ x : ℝ, (x / 3 / (Spec.cauchyGreen F).det) • cofP (Spec.cauchyGreen (abs2 F)) = (x / 3) • invP F := fun x => by
      rw [invP, smul_smul]; congr 1; ring
    have hT : (2 * (Spec.cauchyGreen F).det ^ (-1 / 3 : ℝ)) • T2 (Maj.val6 fun _ => (⟨N⟩ : Maj)) =
        (fun _ _ => N * (2 * (Spec.cauchyGreen F).det ^ (-1 / 3 : ℝ)) : Ten2 ℝ) := by
      ext i j
      exact mul_comm _ N
    have hT4 : astensor4 (Maj.val66 fun _ _ => (⟨N'⟩ : Maj)) = fun _ _ _ _ => N' := rfl
    rw [Maj.val33_lit] at *
    rw [hi]
    dsimp only at hg ⊢
    rw [hT] at hg ⊢
    rw [hT4] at hq
    have key : ∀ I J K L, astensor4 (Maj.val66 (Rnd.distC4Of keep (⟨(Spec.cauchyGreen F).det ^ (-1 / 3 : ℝ)⟩ : Maj)
        ⟨(Spec.cauchyGreen F).det ^ (-2 / 3 : ℝ)⟩ (fun x => ⟨x.val / (Spec.cauchyGreen F).det⟩) (fun _ => ⟨N⟩) (fun _ _ => ⟨N'⟩)
        (Rnd.cauchyGreen fun i j => lit (F i j)))) I J K L =
        astensor4 (Maj.val66 (Rnd.distGeoOf (⟨(Spec.cauchyGreen F).det ^ (-1 / 3 : ℝ)⟩ : Maj)
          (fun x => ⟨x.val / (Spec.cauchyGreen F).det⟩) (fun _ => ⟨N⟩) (Rnd.cauchyGreen fun i j => lit (F i j)))) I J K L +
        if keep then astensor4 (Maj.val66 (Rnd.distMatOf (⟨(Spec.cauchyGreen F).det ^ (-2 / 3 : ℝ)⟩ : Maj)
          (fun x => ⟨x.val / (Spec.cauchyGreen F).det⟩) (fun _ _ => ⟨N'⟩) (Rnd.cauchyGreen fun i j => lit (F i j)))) I J K L
          else 0 := by
      intro I J K L
      unfold Rnd.distC4Of
      split_ifs
      · rfl
      · rw [add_zero]
    have hcon : contract22 (fun _ _ => N * (2 * (Spec.cauchyGreen F).det ^ (-1 / 3 : ℝ)) : Ten2 ℝ) (Spec.cauchyGreen (abs2 F)) =
        N * contract22 (fun _ _ => 2 * (Spec.cauchyGreen F).det ^ (-1 / 3 : ℝ)) (Spec.cauchyGreen (abs2 F)) := by
      simp only [contract22, Fin.sum_univ_three]
      ring
    rw [hcon]
    have e1 : pushP F (astensor4 (Maj.val66 (Rnd.distC4Of keep (⟨(Spec.cauchyGreen F).det ^ (-1 / 3 : ℝ)⟩ : Maj)
        ⟨(Spec.cauchyGreen F).det ^ (-2 / 3 : ℝ)⟩ (fun x => ⟨x.val / (Spec.cauchyGreen F).det⟩) (fun _ => ⟨N⟩) (fun _ _ => ⟨N'⟩)
        (Rnd.cauchyGreen fun i j => lit (F i j))))) i J k L =
        N * pushP F (fun I J K L => 2 / 3 * (contract22 (fun _ _ => 2 * (Spec.cauchyGreen F).det ^ (-1 / 3 : ℝ))
          (Spec.cauchyGreen (abs2 F)) * dyadSym (invP F) (invP F) I J K L +
          dyad (fun _ _ => 2 * (Spec.cauchyGreen F).det ^ (-1 / 3 : ℝ)) (invP F) I J K L +
          dyad (invP F) (fun _ _ => 2 * (Spec.cauchyGreen F).det ^ (-1 / 3 : ℝ)) I J K L +
          contract22 (fun _ _ => 2 * (Spec.cauchyGreen F).det ^ (-1 / 3 : ℝ))
            (Spec.cauchyGreen (abs2 F)) / 3 * dyad (invP F) (invP F) I J K L)) i J k L + N' * keptUnit keep F i J k L := by
      have e2 : N' * keptUnit keep F i J k L = pushP F (fun I J K L => if keep then N' * projectP F
          (fun _ _ _ _ => 4 * (Spec.cauchyGreen F).det ^ (-2 / 3 : ℝ)) I J K L else 0) i J k L := by
        unfold keptUnit distortionalProjectedUnit pushP
        split_ifs
        · simp only [Finset.mul_sum]
          exact Finset.sum_congr rfl fun _ _ => Finset.sum_congr rfl fun _ _ => by ring
        · simp
      rw [e2]
      unfold pushP
      rw [Finset.mul_sum, ← Finset.sum_add_distrib]
      refine Finset.sum_congr rfl fun I _ => ?_
      rw [Finset.mul_sum, ← Finset.sum_add_distrib]
      refine Finset.sum_congr rfl fun K _ => ?_
      rw [key, hg, hq, hcon]
      have e3 : contract44 (contract44 (fun i j k l => dyadSym (1 : Ten2 ℝ) 1 i j k l +
          1 / 3 * dyad ((1 / (Spec.cauchyGreen F).det) • cofP (Spec.cauchyGreen (abs2 F))) (Spec.cauchyGreen (abs2 F)) i j k l)
          fun i j k l => 4 * (Spec.cauchyGreen F).det ^ (-2 / 3 : ℝ) * N')
          (fun i j k l => dyadSym (1 : Ten2 ℝ) 1 i j k l +
            1 / 3 * dyad (Spec.cauchyGreen (abs2 F)) ((1 / (Spec.cauchyGreen F).det) • cofP (Spec.cauchyGreen (abs2 F))) i j k l) I J K L =
          N' * projectP F (fun _ _ _ _ => 4 * (Spec.cauchyGreen F).det ^ (-2 / 3 : ℝ)) I J K L := by
        simp only [projectP, contract44, Finset.mul_sum, Finset.sum_mul, invP]
        refine Finset.sum_congr rfl fun _ _ => Finset.sum_congr rfl fun _ _ => Finset.sum_congr rfl fun _ _ =>
          Finset.sum_congr rfl fun _ _ => ?_
        ring
      rw [e3]
      have e4 : (1 / (Spec.cauchyGreen F).det) • cofP (Spec.cauchyGreen (abs2 F)) = invP F := rfl
      rw [e4]
      simp only [dyad]
      split_ifs <;> ring
    have e5 := dyadIK_scale (show Ten2 ℝ from fun _ _ => N * (2 * (Spec.cauchyGreen F).det ^ (-1 / 3 : ℝ)))
      (show Ten2 ℝ from fun _ _ => 2 * (Spec.cauchyGreen F).det ^ (-1 / 3 : ℝ)) (invP F)
      (contract22 (fun _ _ => 2 * (Spec.cauchyGreen F).det ^ (-1 / 3 : ℝ)) (Spec.cauchyGreen (abs2 F))) N (fun _ _ => rfl) i J k L
    refine (congrArg₂ (· + ·) e1 e5).trans ?_
    unfold distortionalTangentUnit
    ring
  · have h1 := Cert.hom_cnt.piolaElasticity A S C4 i J k L
    have h2 := fun a => Cert.hom_cnt.distStress (d := D) (d' := Cnt.divQ) (fun x => rfl) t XX (Rnd.cauchyGreen A) a
    have h3 := fun a b => Cert.hom_cnt.distC4Of (d := D) (d' := Cnt.divQ) (fun x => rfl) keep t s XX YY
      (Rnd.cauchyGreen A) a b
    simp only [S, C4, h2, h3, Cert.hom_cnt.cauchyGreen] at h1
    rw [h1]
    exact (Cnt.le_piolaElasticity (fun _ _ => ⟨le_rfl, le_rfl⟩)
      (Cnt.le_distStress (fun _ => ⟨le_rfl, le_rfl⟩) (Cnt.le_cauchyGreen _ fun _ _ => ⟨le_rfl, le_rfl⟩))
      (Cnt.le_distC4Of keep (fun _ => ⟨le_rfl, le_rfl⟩) (fun _ _ => ⟨le_rfl, le_rfl⟩)
        (Cnt.le_cauchyGreen _ fun _ _ => ⟨le_rfl, le_rfl⟩)) i J k L).mono (by omega) (by omega)

/-- The certified elasticity tensor of the dilatational space. -/
theorem cert_dilatational (hd : 0 < (Spec.cauchyGreen F).det) {d' t' s' : ℝ}
    (hdet : |d' - (Spec.cauchyGreen F).det| ≤ (1 - 1 / T.q) * |(Spec.cauchyGreen F).det|)
    (ht' : |t' - (Spec.cauchyGreen F).det ^ (1 / 3 : ℝ)| ≤ (T.q - 1) * |(Spec.cauchyGreen F).det ^ (1 / 3 : ℝ)|)
    (hs' : |s' - (Spec.cauchyGreen F).det ^ (2 / 3 : ℝ)| ≤ (T.q ^ 2 - 1) * |(Spec.cauchyGreen F).det ^ (2 / 3 : ℝ)|)
    (X : Vec6 ℝ) (Y : Mat6 ℝ) {N N' : ℝ} (hX : ∀ a, |X a| ≤ N) (hY : ∀ a b, |Y a b| ≤ N') (i J k L : Fin 3) :
    ∃ x : Cert T, x.fl = (piolaElasticity (T.R.arr33 F)
        (dilStress ⟨t'⟩ (T.R.divBy ⟨d'⟩) (T.R.arr6 X) (Rnd.cauchyGreen (T.R.arr33 F)))
        (dilC4Of ⟨t'⟩ ⟨s'⟩ (T.R.divBy ⟨d'⟩) (T.R.arr6 X) (T.R.arr66 Y) (Rnd.cauchyGreen (T.R.arr33 F))) i J k L).val ∧
      x.ex = dilLin F (T2 X) (astensor4 Y) i J k L ∧
      x.m = N * dilatationalTangentUnit F i J k L + N' * dilatationalProjectedUnit F i J k L ∧ Cnt.Le x.cnt 4 69 := by
  let t : Cert T := Cert.rel _ _ ht'
  let s : Cert T := Cert.rel2 _ _ hs'
  let D : Cert T → Cert T := Cert.divBy _ _ hd.ne' hdet
  let XX : Vec6 (Cert T) := fun a => Cert.bounded (X a) N (hX a)
  let YY : Mat6 (Cert T) := fun a b => Cert.bounded (Y a b) N' (hY a b)
  let A : Full2 (Cert T) := fun i j => lit (F i j)
  let S : Vec6 (Cert T) := Rnd.dilStress t D XX (Rnd.cauchyGreen A)
  let C4 : Mat6 (Cert T) := Rnd.dilC4Of t s D XX YY (Rnd.cauchyGreen A)
  have htp := Real.rpow_pos_of_pos hd (1 / 3)
  have hsp := Real.rpow_pos_of_pos hd (2 / 3)
  refine ⟨Rnd.piolaElasticity A S C4 i J k L, ?_, ?_, ?_, ?_⟩
  · have h1 := Cert.hom_fl.piolaElasticity A S C4 i J k L
    have h2 := fun a => Cert.hom_fl.dilStress (d := D) (d' := T.R.divBy ⟨d'⟩) (fun x => rfl) t XX (Rnd.cauchyGreen A) a
    have h3 := fun a b => Cert.hom_fl.dilC4Of (d := D) (d' := T.R.divBy ⟨d'⟩) (fun x => rfl) t s XX YY
      (Rnd.cauchyGreen A) a b
    simp only [S, C4, h2, h3, Cert.hom_fl.cauchyGreen] at h1
    exact congrArg Fl.val h1
  · have h1 := Cert.hom_ex.piolaElasticity A S C4 i J k L
    have h2 := fun a => Cert.hom_ex.dilStress (d := D) (d' := fun x => x / (Spec.cauchyGreen F).det) (fun x => rfl) t XX
      (Rnd.cauchyGreen A) a
    have h3 := fun a b => Cert.hom_ex.dilC4Of (d := D) (d' := fun x => x / (Spec.cauchyGreen F).det) (fun x => rfl)
      t s XX YY (Rnd.cauchyGreen A) a b
    simp only [S, C4, h2, h3, Cert.hom_ex.cauchyGreen] at h1
    refine h1.trans ?_
    change Rnd.piolaElasticity F (Rnd.dilStress ((Spec.cauchyGreen F).det ^ (1 / 3 : ℝ))
      (fun x => x / (Spec.cauchyGreen F).det) X (Rnd.cauchyGreen F)) (Rnd.dilC4Of ((Spec.cauchyGreen F).det ^ (1 / 3 : ℝ))
        ((Spec.cauchyGreen F).det ^ (2 / 3 : ℝ)) (fun x => x / (Spec.cauchyGreen F).det) X Y (Rnd.cauchyGreen F)) i J k L = _
    rw [piolaElasticity_exact, dilStress_exact _ _ (by rw [cauchyGreen_exact]) hd.ne' (by rw [cauchyGreen_exact]),
      dilC4Of_exact _ _ _ (by rw [cauchyGreen_exact]) hd.ne' (by rw [cauchyGreen_exact]) (by rw [cauchyGreen_exact]),
      cauchyGreen_exact]
    rfl
  · have h1 := Cert.hom_m.piolaElasticity A S C4 i J k L
    have h2 := fun a => Cert.hom_m.dilStress (d := D) (d' := fun x => ⟨x.val / |(Spec.cauchyGreen F).det|⟩) (fun x => rfl) t XX
      (Rnd.cauchyGreen A) a
    have h3 := fun a b => Cert.hom_m.dilC4Of (d := D) (d' := fun x => ⟨x.val / |(Spec.cauchyGreen F).det|⟩) (fun x => rfl)
      t s XX YY (Rnd.cauchyGreen A) a b
    simp only [S, C4, h2, h3, Cert.hom_m.cauchyGreen] at h1
    refine (congrArg Maj.val h1).trans ?_
    change (Rnd.piolaElasticity (K := Maj) (fun i j => lit (F i j)) (Rnd.dilStress (⟨|(Spec.cauchyGreen F).det ^ (1 / 3 : ℝ)|⟩)
      (fun x => ⟨x.val / |(Spec.cauchyGreen F).det|⟩) (fun _ => ⟨N⟩) (Rnd.cauchyGreen fun i j => lit (F i j)))
      (Rnd.dilC4Of (⟨|(Spec.cauchyGreen F).det ^ (1 / 3 : ℝ)|⟩) (⟨|(Spec.cauchyGreen F).det ^ (2 / 3 : ℝ)|⟩)
        (fun x => ⟨x.val / |(Spec.cauchyGreen F).det|⟩) (fun _ => ⟨N⟩) (fun _ _ => ⟨N'⟩)
        (Rnd.cauchyGreen fun i j => lit (F i j))) i J k L).val = _
    rw [abs_of_pos hd, abs_of_pos htp, abs_of_pos hsp]
    rw [Maj.val_piolaElasticity, Maj.val_dilStress, Maj.val_cauchyGreen, cauchyGreen_exact]
    have hg := fun I J K L => Maj.val_dilC4Of (fun _ => ⟨N⟩) (fun _ _ => ⟨N'⟩) (Rnd.cauchyGreen fun i j => lit (F i j))
      ⟨(Spec.cauchyGreen F).det ^ (1 / 3 : ℝ)⟩ ⟨(Spec.cauchyGreen F).det ^ (2 / 3 : ℝ)⟩ (Spec.cauchyGreen F).det I J K L
    rw [Maj.val_cauchyGreen, cauchyGreen_exact] at hg
    have hi : ∀ x : ℝ, (x / 3 / (Spec.cauchyGreen F).det) • cofP (Spec.cauchyGreen (abs2 F)) = (x / 3) • invP F := fun x => by
      rw [invP, smul_smul]; congr 1; ring
    have hT : ((2 * (Spec.cauchyGreen F).det ^ (1 / 3 : ℝ)) • T2 (Maj.val6 fun _ => (⟨N⟩ : Maj))).trace =
        N * Matrix.trace (fun _ _ => 2 * (Spec.cauchyGreen F).det ^ (1 / 3 : ℝ) : Ten2 ℝ) := by
      unfold Matrix.trace; rw [Finset.mul_sum]
      refine Finset.sum_congr rfl fun p _ => ?_
      exact mul_comm _ N
    have hT4 : astensor4 (Maj.val66 fun _ _ => (⟨N'⟩ : Maj)) = fun _ _ _ _ => N' := rfl
    rw [Maj.val33_lit] at *
    rw [hi]
    dsimp only at hg ⊢
    rw [hT] at hg ⊢
    rw [hT4] at hg
    have e4 : (1 / (Spec.cauchyGreen F).det) • cofP (Spec.cauchyGreen (abs2 F)) = invP F := rfl
    rw [e4] at hg
    set S1 := Matrix.trace (fun _ _ => 2 * (Spec.cauchyGreen F).det ^ (1 / 3 : ℝ) : Ten2 ℝ) with hS1
    have hc : contract22 (1 : Ten2 ℝ) (contract42 (fun _ _ _ _ => 4 * (Spec.cauchyGreen F).det ^ (2 / 3 : ℝ) * N') 1) =
        9 * (4 * (Spec.cauchyGreen F).det ^ (2 / 3 : ℝ) * N') := by
      simp only [contract22, contract42, Fin.sum_univ_three, Matrix.one_apply]
      simp
      ring
    rw [hc] at hg
    have e1 : pushP F (astensor4 (Maj.val66 (Rnd.dilC4Of (⟨(Spec.cauchyGreen F).det ^ (1 / 3 : ℝ)⟩ : Maj)
        ⟨(Spec.cauchyGreen F).det ^ (2 / 3 : ℝ)⟩ (fun x => ⟨x.val / (Spec.cauchyGreen F).det⟩) (fun _ => ⟨N⟩) (fun _ _ => ⟨N'⟩)
        (Rnd.cauchyGreen fun i j => lit (F i j))))) i J k L =
        N * pushP F (fun I J K L => 2 * S1 / 9 * dyad (invP F) (invP F) I J K L +
          2 / 3 * S1 * dyadSym (invP F) (invP F) I J K L) i J k L + N' * dilatationalProjectedUnit F i J k L := by
      unfold dilatationalProjectedUnit pushP
      rw [Finset.mul_sum, Finset.mul_sum, ← Finset.sum_add_distrib]
      refine Finset.sum_congr rfl fun I _ => ?_
      rw [Finset.mul_sum, Finset.mul_sum, ← Finset.sum_add_distrib]
      refine Finset.sum_congr rfl fun K _ => ?_
      rw [hg]
      ring
    rw [e1]
    unfold dilatationalTangentUnit
    dsimp only
    rw [← hS1]
    simp only [dyadIK, Matrix.smul_apply, smul_eq_mul]
    ring
  · have h1 := Cert.hom_cnt.piolaElasticity A S C4 i J k L
    have h2 := fun a => Cert.hom_cnt.dilStress (d := D) (d' := Cnt.divQ) (fun x => rfl) t XX (Rnd.cauchyGreen A) a
    have h3 := fun a b => Cert.hom_cnt.dilC4Of (d := D) (d' := Cnt.divQ) (fun x => rfl) t s XX YY
      (Rnd.cauchyGreen A) a b
    simp only [S, C4, h2, h3, Cert.hom_cnt.cauchyGreen] at h1
    rw [h1]
    exact (Cnt.le_piolaElasticity (fun _ _ => ⟨le_rfl, le_rfl⟩)
      (Cnt.le_dilStress (fun _ => ⟨le_rfl, le_rfl⟩) (Cnt.le_cauchyGreen _ fun _ _ => ⟨le_rfl, le_rfl⟩))
      (Cnt.le_dilC4Of (fun _ => ⟨le_rfl, le_rfl⟩) (fun _ _ => ⟨le_rfl, le_rfl⟩)
        (Cnt.le_cauchyGreen _ fun _ _ => ⟨le_rfl, le_rfl⟩)) i J k L).mono (by omega) (by omega)

/-- The computed fictitious elasticity for a given second derivative. -/
theorem cert_splitC4b {s s' : ℝ} (hs0 : 0 < s) (hs' : |s' - s| ≤ (T.q ^ 2 - 1) * |s|) (Y : Mat6 ℝ) {N' : ℝ}
    (hY : ∀ a b, |Y a b| ≤ N') (a b : Fin 6) :
    ∃ x : Cert T, x.fl = (splitC4bOf (⟨s'⟩ : Fl T.R) (T.R.arr66 Y) a b).val ∧ x.ex = 4 * s * Y a b ∧ x.m = N' * (4 * s) ∧
      Cnt.Le x.cnt 2 2 := by
  let z : Cert T := Cert.rel2 _ _ hs'
  let YY : Mat6 (Cert T) := fun a b => Cert.bounded (Y a b) N' (hY a b)
  refine ⟨Rnd.splitC4bOf z YY a b, ?_, ?_, ?_, ?_⟩
  · exact congrArg Fl.val (Cert.hom_fl.splitC4bOf z YY a b)
  · exact Cert.hom_ex.splitC4bOf z YY a b
  · refine (congrArg Maj.val (Cert.hom_m.splitC4bOf z YY a b)).trans ?_
    change |4| * |s| * N' = _
    rw [abs_of_pos hs0, show |(4 : ℝ)| = 4 by norm_num]
    ring
  · have h := Cert.hom_cnt.splitC4bOf z YY a b
    rw [h]
    exact Cnt.le_splitC4bOf (fun _ _ => ⟨le_rfl, le_rfl⟩) a b

end

/-- Errors of both data of a certified bilinear function. -/
theorem Cert.perturbed2 {T : Ctx} {f : Ten2 ℝ → Ten4 ℝ → ℝ} {U U' : ℝ} {fl : Vec6 ℝ → Mat6 ℝ → ℝ} {a b : ℕ}
    {g : Vec6 ℝ} {h : Mat6 ℝ} {E : Ten2 ℝ} {H : Ten4 ℝ} {hh : Mat6 ℝ} {N N' δ δ' : ℝ}
    (hf : ∀ A B H K, f (A - B) (fun i j k l => H i j k l - K i j k l) = f A H - f B K)
    (hE : E.IsSymm) (hH : astensor4 hh = H)
    (hx : ∀ (X : Vec6 ℝ) (Y : Mat6 ℝ) (N N' : ℝ), (∀ a, |X a| ≤ N) → (∀ a b, |Y a b| ≤ N') →
      ∃ x : Cert T, x.fl = fl X Y ∧ x.ex = f (T2 X) (astensor4 Y) ∧ x.m = N * U + N' * U' ∧ Cnt.Le x.cnt a b)
    (hN : ∀ i j, |E i j| ≤ N) (hg : ∀ i, |g i - asvoigt E i| ≤ δ)
    (hN' : ∀ i j k l, |H i j k l| ≤ N') (hg' : ∀ i j k l, |astensor4 h i j k l - H i j k l| ≤ δ') :
    |fl g h - f E H| ≤ (T.E a b * (N + δ) - N) * U + (T.E a b * (N' + δ') - N') * U' := by
  have ht : ∀ a : Fin 6, tab (pos a).1 (pos a).2 = a := by decide
  have h4 : ∀ (M : Mat6 ℝ) (a b : Fin 6), astensor4 M (pos a).1 (pos a).2 (pos b).1 (pos b).2 = M a b := fun M a b => by
    simp only [astensor4, ht]
  have hd' : ∀ a b, |h a b - hh a b| ≤ δ' := fun a b => by
    have := hg' (pos a).1 (pos a).2 (pos b).1 (pos b).2
    rwa [← hH, h4, h4] at this
  obtain ⟨x, h1, h2, h3, h5⟩ := hx g h (N + δ) (N' + δ') (fun i => by
    have := abs_sub_abs_le_abs_sub (g i) (asvoigt E i)
    have h5 : |asvoigt E i| ≤ N := hN _ _
    linarith [hg i]) fun a b => by
    have := abs_sub_abs_le_abs_sub (h a b) (hh a b)
    have h6 := hN' (pos a).1 (pos a).2 (pos b).1 (pos b).2
    rw [← hH, h4] at h6
    linarith [hd' a b]
  obtain ⟨y, -, k2, k3, -⟩ := hx (fun i => g i - asvoigt E i) (fun a b => h a b - hh a b) δ δ' hg hd'
  have hE' : T2 (asvoigt E) = E := T2_eq (Props.C01_asvoigt_stores hE)
  have hH' : (astensor4 fun a b => h a b - hh a b) = fun i j k l => astensor4 h i j k l - H i j k l := by rw [← hH]; rfl
  rw [T2_sub, hE', hH', hf] at k2
  have e1 := x.err_mono h5.1 h5.2
  have e3 := y.maj
  rw [h1, h2, h3] at e1
  rw [k2, k3] at e3
  refine (abs_sub_le _ (f (T2 g) (astensor4 h)) _).trans ((add_le_add e1 e3).trans_eq ?_)
  ring

end Hel.Rnd
