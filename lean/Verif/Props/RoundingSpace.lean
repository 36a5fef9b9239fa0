import Verif.Props.Rounding
import Verif.Proofs.Binary64

/-!
# Floating-point rounding: the deformation space (C65)

The first Piola-Kirchhoff stress and the elasticity tensor of third-order-deformation materials, as
computed in floating-point arithmetic, against the exact values of the model of the other files.
-/

namespace Props
open Spec Hel Rnd

variable {Z : Type}

/-- The computed stress for the stored parameters. -/
theorem rounded_stress (R : Rounding) (p : TOD ℝ) (z : Z) {F P : Ten2 ℝ} (hF : F.det ≠ 0)
    (hP : SpaceObj.Grad (Deformation.obj {} (Invariants.material p.mat)) z F P) (i J : Fin 3) :
    Within R.u 36 (R.deformationGradient p F i J) (P i J) ((Maj.par p).stressP F i J) := by
  obtain ⟨G, hG, rfl⟩ := (Deformation.grad_iff ..).1 hP
  rw [(tod_grad p z (symInv_cauchyGreen hF)).1 hG]
  have h : Within R.u 36 (R.deformationGradient p F i J) (defGradient p F i J)
      (defGradient p (fun i j => (lit (F i j) : Maj)) i J).val :=
    within_of _ (Cert.hom_fl.defGradient p (fun i j => lit (F i j)) i J) (Cert.hom_ex.defGradient ..)
      (Cert.hom_m.defGradient ..) (Cert.hom_cnt.defGradient ..)
      (Cnt.le_defGradient p (fun _ _ => ⟨le_rfl, le_rfl⟩) i J).2
  rw [Maj.val_defGradient, defGradient_exact] at h
  exact h

/-- The computed elasticity tensor for the stored parameters. -/
theorem rounded_elasticity (R : Rounding) (p : TOD ℝ) (z : Z) {F : Ten2 ℝ} {A : Ten4 ℝ} (hF : F.det ≠ 0)
    (hA : SpaceObj.Hess (Deformation.obj {} (Invariants.material p.mat)) z F A) (i J k L : Fin 3) :
    Within R.u 34 (R.deformationHessian p F i J k L) (A i J k L) ((Maj.par p).elasticityP F i J k L) := by
  obtain ⟨G, H, hG, hH, rfl⟩ := Deformation.hess_elim hA
  rw [(tod_grad p z (symInv_cauchyGreen hF)).1 hG, (tod_hess p z (symInv_cauchyGreen hF)).1 hH]
  have h : Within R.u 34 (R.deformationHessian p F i J k L) (defHessian p F i J k L)
      (defHessian p (fun i j => (lit (F i j) : Maj)) i J k L).val :=
    within_of _ (Cert.hom_fl.defHessian p (fun i j => lit (F i j)) i J k L) (Cert.hom_ex.defHessian ..)
      (Cert.hom_m.defHessian ..) (Cert.hom_cnt.defHessian ..)
      (Cnt.le_defHessian p (fun _ _ => ⟨le_rfl, le_rfl⟩) i J k L).2
  rw [Maj.val_defHessian, defHessian_exact] at h
  exact h

/-- The majorants are not negative. -/
theorem stressP_nonneg (R : Rounding) (p : TOD ℝ) (F : Ten2 ℝ) (i J : Fin 3) : 0 ≤ (Maj.par p).stressP F i J := by
  rw [← Maj.val_defGradient]
  exact (abs_nonneg _).trans (maj_of (R := R) _ (Cert.hom_ex.defGradient p (fun i j => lit (F i j)) i J)
    (Cert.hom_m.defGradient p (fun i j => lit (F i j)) i J))

theorem elasticityP_nonneg (R : Rounding) (p : TOD ℝ) (F : Ten2 ℝ) (i J k L : Fin 3) :
    0 ≤ (Maj.par p).elasticityP F i J k L := by
  rw [← Maj.val_defHessian]
  exact (abs_nonneg _).trans (maj_of (R := R) _ (Cert.hom_ex.defHessian p (fun i j => lit (F i j)) i J k L)
    (Cert.hom_m.defHessian p (fun i j => lit (F i j)) i J k L))

/-- The value of the invariants in the undeformed state. -/
def undeformed (strain : Bool) : ℝ := if strain then 0 else 3

/-! ### C65 -/

/-- The computed stress of a third-order-deformation material in the deformation space: at most 36
roundings, relative to the stress which is obtained with absolute values and plus signs. -/
theorem C65_stress (R : Rounding) (C10 C01 C11 C20 C30 : ℝ) (strain : Bool) (z : Z) {F P : Ten2 ℝ} (hF : F.det ≠ 0)
    (hP : SpaceObj.Grad (Deformation.obj {} (Invariants.material (TOD.init C10 C01 C11 C20 C30 strain).mat)) z F P)
    (i J : Fin 3) :
    Within R.u 36 (R.deformationGradient (TOD.init C10 C01 C11 C20 C30 strain) F i J) (P i J)
      (TodPar.stressP ⟨C10, C01, C11, C20, C30, undeformed strain⟩ F i J) :=
  rounded_stress R _ z hF hP i J

/-- The computed elasticity tensor: at most 34 roundings. -/
theorem C65_elasticity (R : Rounding) (C10 C01 C11 C20 C30 : ℝ) (strain : Bool) (z : Z) {F : Ten2 ℝ} {A : Ten4 ℝ}
    (hF : F.det ≠ 0)
    (hA : SpaceObj.Hess (Deformation.obj {} (Invariants.material (TOD.init C10 C01 C11 C20 C30 strain).mat)) z F A)
    (i J k L : Fin 3) :
    Within R.u 34 (R.deformationHessian (TOD.init C10 C01 C11 C20 C30 strain) F i J k L) (A i J k L)
      (TodPar.elasticityP ⟨C10, C01, C11, C20, C30, undeformed strain⟩ F i J k L) :=
  rounded_elasticity R _ z hF hA i J k L

/-- In double precision, the errors are at most `37 · 2⁻⁵³` and `35 · 2⁻⁵³` times the majorants. -/
theorem C65_double (R : Rounding) (hR : R.u ≤ 2 ^ (-53 : ℤ)) (C10 C01 C11 C20 C30 : ℝ) (strain : Bool) (z : Z)
    {F P : Ten2 ℝ} {A : Ten4 ℝ} (hF : F.det ≠ 0)
    (hP : SpaceObj.Grad (Deformation.obj {} (Invariants.material (TOD.init C10 C01 C11 C20 C30 strain).mat)) z F P)
    (hA : SpaceObj.Hess (Deformation.obj {} (Invariants.material (TOD.init C10 C01 C11 C20 C30 strain).mat)) z F A)
    (i J k L : Fin 3) :
    |R.deformationGradient (TOD.init C10 C01 C11 C20 C30 strain) F i J - P i J| ≤
      37 * 2 ^ (-53 : ℤ) * TodPar.stressP ⟨C10, C01, C11, C20, C30, undeformed strain⟩ F i J ∧
    |R.deformationHessian (TOD.init C10 C01 C11 C20 C30 strain) F i J k L - A i J k L| ≤
      35 * 2 ^ (-53 : ℤ) * TodPar.elasticityP ⟨C10, C01, C11, C20, C30, undeformed strain⟩ F i J k L := by
  have hu := R.u_nonneg
  have key : ∀ (n : ℕ) (c m x : ℝ), (1 + (2 : ℝ) ^ (-53 : ℤ)) ^ n - 1 ≤ c → 0 ≤ m → x ≤ ((1 + R.u) ^ n - 1) * m →
      x ≤ c * m := by
    intro n c m x hc hm h
    have h2 : (1 + R.u) ^ n - 1 ≤ c := by
      have : (1 + R.u) ^ n ≤ (1 + (2 : ℝ) ^ (-53 : ℤ)) ^ n := by gcongr
      linarith
    exact h.trans (by gcongr)
  exact ⟨key 36 _ _ _ (by norm_num) (stressP_nonneg R (TOD.init C10 C01 C11 C20 C30 strain) F i J)
      (C65_stress R _ _ _ _ _ _ z hF hP i J),
    key 34 _ _ _ (by norm_num) (elasticityP_nonneg R (TOD.init C10 C01 C11 C20 C30 strain) F i J k L)
      (C65_elasticity R _ _ _ _ _ _ z hF hA i J k L)⟩

/-- The computed stress and elasticity tensor converge to the exact ones if the precision is increased. -/
theorem C65_converges (R : ℕ → Rounding) (hR : Filter.Tendsto (fun n => (R n).u) .atTop (nhds 0))
    (C10 C01 C11 C20 C30 : ℝ) (strain : Bool) (z : Z) {F P : Ten2 ℝ} {A : Ten4 ℝ} (hF : F.det ≠ 0)
    (hP : SpaceObj.Grad (Deformation.obj {} (Invariants.material (TOD.init C10 C01 C11 C20 C30 strain).mat)) z F P)
    (hA : SpaceObj.Hess (Deformation.obj {} (Invariants.material (TOD.init C10 C01 C11 C20 C30 strain).mat)) z F A)
    (i J k L : Fin 3) :
    Filter.Tendsto (fun n => (R n).deformationGradient (TOD.init C10 C01 C11 C20 C30 strain) F i J) .atTop (nhds (P i J)) ∧
    Filter.Tendsto (fun n => (R n).deformationHessian (TOD.init C10 C01 C11 C20 C30 strain) F i J k L) .atTop
      (nhds (A i J k L)) := by
  have key : ∀ (N : ℕ) (m x : ℝ) (y : ℕ → ℝ), (∀ n, Within (R n).u N (y n) x m) →
      Filter.Tendsto y .atTop (nhds x) := by
    intro N m x y h
    rw [tendsto_iff_dist_tendsto_zero]
    have h0 : Filter.Tendsto (fun n => ((1 + (R n).u) ^ N - 1) * m) .atTop (nhds (((1 + 0) ^ N - 1) * m)) :=
      (((hR.const_add 1).pow N).sub_const 1).mul_const m
    rw [add_zero, one_pow, sub_self, zero_mul] at h0
    exact squeeze_zero (fun _ => dist_nonneg) h h0
  exact ⟨key 36 _ _ _ fun n => C65_stress (R n) _ _ _ _ _ _ z hF hP i J,
    key 34 _ _ _ fun n => C65_elasticity (R n) _ _ _ _ _ _ z hF hA i J k L⟩

/-- The computed stress of a Neo-Hookean material has a small relative error in every component. -/
theorem C65_neo_hooke (R : Rounding) (C10 : ℝ) (strain : Bool) (z : Z) {F P : Ten2 ℝ} (hF : F.det ≠ 0)
    (hP : SpaceObj.Grad (Deformation.obj {} (Invariants.material (TOD.init C10 0 0 0 0 strain).mat)) z F P)
    (i J : Fin 3) :
    |R.deformationGradient (TOD.init C10 0 0 0 0 strain) F i J - P i J| ≤ ((1 + R.u) ^ 36 - 1) * |P i J| := by
  have h := C65_stress R C10 0 0 0 0 strain z hF hP i J
  obtain ⟨G, hG, rfl⟩ := (Deformation.grad_iff ..).1 hP
  have hG := (tod_grad _ z (symInv_cauchyGreen hF)).1 hG
  have e1 : G = C10 • (1 : Ten2 ℝ) := by rw [hG]; simp [todGradT, TOD.init]
  have e2 : TodPar.stressP ⟨C10, 0, 0, 0, 0, undeformed strain⟩ F i J = |(F * ((2 : ℝ) • G)) i J| := by
    simp [TodPar.stressP, TodPar.gradP, TodPar.w1, TodPar.w2, e1, abs2, abs_mul]
  rw [e2] at h
  exact h

/-- An elasticity tensor is returned at every deformation gradient, by every object. -/
theorem tod_def_hess_total (m : TOD ℝ) (F : Ten2 ℝ) (z : Z) (s : DefSt (InvSt ℝ Unit)) :
    ∃ A, Returns ((Deformation.obj {} (Invariants.material m.mat)).hessian F z) s (.full A) := by
  obtain ⟨g, z', m', hg⟩ : ∃ g z' m', (Invariants.material (Z := Z) m.mat).gradient
      (rightCauchyGreen F) z s.material = (.ok (g, z'), m') := by
    change ∃ g z' m', Invariants.gradient _ _ _ _ = (.ok (g, z'), m')
    rw [Invariants.gradient_run]
    simp only [TOD.mat, PyM.lift_run, TOD.gradient_eq]
    exact ⟨_, _, _, rfl⟩
  obtain ⟨h, hh⟩ := tod_hess_total m (rightCauchyGreen F) z m'
  exact ⟨_, (Deformation.returns_hessian ..).2 ⟨g, z', m', h, hg, hh, (piolaElasticity_default ..).symm⟩⟩

/-- The hypotheses are met: double precision and a third-order material, at a simple shear. -/
example : ∃ (R : Rounding) (P : Ten2 ℝ) (A : Ten4 ℝ), R.u ≤ 2 ^ (-53 : ℤ) ∧ 0 < R.u ∧ (!![1, 2, 0; 0, 1, 0; 0, 0, (1 : ℝ)]).det ≠ 0 ∧
    SpaceObj.Grad (Deformation.obj {} (Invariants.material (TOD.init 1 2 3 4 5 false).mat)) () !![1, 2, 0; 0, 1, 0; 0, 0, 1] P ∧
    SpaceObj.Hess (Deformation.obj {} (Invariants.material (TOD.init 1 2 3 4 5 false).mat)) () !![1, 2, 0; 0, 1, 0; 0, 0, 1] A := by
  obtain ⟨P, hP⟩ := tod_space_total .deformation (TOD.init 1 2 3 4 5 false) !![1, 2, 0; 0, 1, 0; 0, 0, 1] ()
    ({ material := { material := () } } : DefSt (InvSt ℝ Unit))
  obtain ⟨A, hA⟩ := tod_def_hess_total (TOD.init 1 2 3 4 5 false) !![1, 2, 0; 0, 1, 0; 0, 0, 1] ()
    { material := { material := () } }
  exact ⟨Binary64.rounding, P, A, le_rfl, by rw [Binary64.rounding_u]; positivity, by simp [Matrix.det_fin_three],
    ⟨_, _, hP⟩, ⟨_, hA⟩⟩

end Props
