import Verif.Spec.Work
import Verif.Props.EndToEnd
import Mathlib.MeasureTheory.Integral.IntervalIntegral.FundThmCalculus
import Mathlib.Topology.Instances.Matrix
import Mathlib.Analysis.SpecialFunctions.Trigonometric.Deriv

/-! # Property C51: the work done on the material is the change of its energy -/

namespace Props
open Spec Hel Matrix Filter Topology

variable {Z μ σ : Type}

/-- Whatever object returns the derivative of an energy: the work done along any motion is the
difference of the energies of the end points. -/
theorem work_eq {dom : Ten2 ℝ → Prop} {ψ : Ten2 ℝ → ℝ} {ret : Ten2 ℝ → Ten2 ℝ → Prop} (h : IsGradient dom ψ ret)
    {F F' P : ℝ → Ten2 ℝ} {a b : ℝ} (hd : ∀ t ∈ Set.uIcc a b, ∀ᶠ s in 𝓝 t, dom (F s)) (hm : MotionOn F F' a b)
    (hP : ∀ t ∈ Set.uIcc a b, ret (F t) (P t)) (hI : WorkExists P F' a b) :
    work P F' a b = ψ (F b) - ψ (F a) :=
  intervalIntegral.integral_eq_sub_of_hasDerivAt (fun t ht => h F (F' t) t (P t) (hd t ht) (hm t ht) (hP t ht)) hI

/-- a moving tensor is continuous in time -/
theorem motionOn_continuousAt {F F' : ℝ → Ten2 ℝ} {a b t : ℝ} (hm : MotionOn F F' a b) (ht : t ∈ Set.uIcc a b) :
    ContinuousAt F t :=
  tendsto_pi_nhds.2 fun i => tendsto_pi_nhds.2 fun j => (hm t ht i j).continuousAt

/-- invertibility persists -/
theorem motionOn_det_ne {F F' : ℝ → Ten2 ℝ} {a b : ℝ} (hm : MotionOn F F' a b)
    (hd : ∀ t ∈ Set.uIcc a b, (F t).det ≠ 0) : ∀ t ∈ Set.uIcc a b, ∀ᶠ s in 𝓝 t, (F s).det ≠ 0 := by
  intro t ht
  have h : ContinuousAt (fun s => (F s).det) t := (continuous_id.matrix_det.continuousAt).comp (motionOn_continuousAt hm ht)
  exact h.eventually_ne (hd t ht)

theorem workExists_of {F F' P : ℝ → Ten2 ℝ} {a b : ℝ} {p : Ten2 ℝ → Ten2 ℝ}
    (hm : MotionOn F F' a b) (hF' : ∀ i j, ContinuousOn (fun t => F' t i j) (Set.uIcc a b))
    (hp : ∀ t ∈ Set.uIcc a b, ContinuousAt p (F t)) (hP : ∀ t ∈ Set.uIcc a b, P t = p (F t)) :
    WorkExists P F' a b := by
  refine ContinuousOn.intervalIntegrable ?_
  unfold stressPower contract22
  refine continuousOn_finset_sum _ fun i _ => continuousOn_finset_sum _ fun j _ => ContinuousOn.mul ?_ (hF' i j)
  have h : ContinuousOn (fun t => p (F t)) (Set.uIcc a b) := fun t ht =>
    ((hp t ht).comp (motionOn_continuousAt hm ht)).continuousWithinAt
  have h2 : ContinuousOn (fun t => p (F t) i j) (Set.uIcc a b) := fun t ht =>
    (tendsto_pi_nhds.1 (tendsto_pi_nhds.1 (h t ht) i) j)
  exact h2.congr fun t ht => by rw [hP t ht]

/-- Deformation space: the work done along a motion is the change of the energy `ψ(FᵀF)`, for
every material which returns the derivative of `ψ`. -/
theorem C51_deformation (mat : Material ℝ Z μ) (z : Z) (dom : Ten2 ℝ → Prop) (ψ : Ten2 ℝ → ℝ)
    (h : IsGradient dom ψ (Material.Grad mat z)) (F F' P : ℝ → Ten2 ℝ) (a b : ℝ)
    (hd : ∀ t ∈ Set.uIcc a b, ∀ᶠ s in 𝓝 t, dom (cauchyGreen (F s))) (hm : MotionOn F F' a b)
    (hP : ∀ t ∈ Set.uIcc a b, SpaceObj.Grad (Deformation.obj {} mat) z (F t) (P t)) (hI : WorkExists P F' a b) :
    work P F' a b = ψ (cauchyGreen (F b)) - ψ (cauchyGreen (F a)) :=
  work_eq (C25_gradient mat z dom ψ h) hd hm hP hI

/-- Distortional space: the work done along a motion is the change of the energy of the
distortional part. -/
theorem C51_distortional (mat : Material ℝ Z μ) (z : Z) (dom : Ten2 ℝ → Prop) (ψ : Ten2 ℝ → ℝ)
    (h : IsGradient dom ψ (Material.Grad mat z)) (F F' P : ℝ → Ten2 ℝ) (a b : ℝ)
    (hd : ∀ t ∈ Set.uIcc a b, ∀ᶠ s in 𝓝 t, (F s).det ≠ 0 ∧ dom (unimodular (cauchyGreen (F s))))
    (hm : MotionOn F F' a b)
    (hP : ∀ t ∈ Set.uIcc a b, SpaceObj.Grad (Distortional.obj {} mat) z (F t) (P t)) (hI : WorkExists P F' a b) :
    work P F' a b = ψ (unimodular (cauchyGreen (F b))) - ψ (unimodular (cauchyGreen (F a))) :=
  work_eq (C27_gradient mat z dom ψ h) hd hm hP hI

/-- No work is done in a closed cycle, on either space. -/
theorem C51_cycle (mat : Material ℝ Z μ) (z : Z) (dom : Ten2 ℝ → Prop) (ψ : Ten2 ℝ → ℝ)
    (h : IsGradient dom ψ (Material.Grad mat z)) (F F' P : ℝ → Ten2 ℝ) (a b : ℝ) (hcycle : F a = F b)
    (hm : MotionOn F F' a b) (hI : WorkExists P F' a b) :
    ((∀ t ∈ Set.uIcc a b, ∀ᶠ s in 𝓝 t, dom (cauchyGreen (F s))) →
      (∀ t ∈ Set.uIcc a b, SpaceObj.Grad (Deformation.obj {} mat) z (F t) (P t)) → work P F' a b = 0) ∧
    ((∀ t ∈ Set.uIcc a b, ∀ᶠ s in 𝓝 t, (F s).det ≠ 0 ∧ dom (unimodular (cauchyGreen (F s)))) →
      (∀ t ∈ Set.uIcc a b, SpaceObj.Grad (Distortional.obj {} mat) z (F t) (P t)) → work P F' a b = 0) := by
  constructor
  · intro hd hP
    rw [C51_deformation mat z dom ψ h F F' P a b hd hm hP hI, hcycle, sub_self]
  · intro hd hP
    rw [C51_distortional mat z dom ψ h F F' P a b hd hm hP hI, hcycle, sub_self]

/-! ### end to end -/

theorem continuous_cauchyGreen : Continuous cauchyGreen := by
  unfold cauchyGreen
  exact (continuous_id.matrix_transpose).matrix_mul continuous_id

theorem continuous_invariants : Continuous invariants := by
  unfold invariants inv2
  refine continuous_pi fun a => ?_
  fin_cases a
  · exact continuous_id.matrix_trace
  · simp only [Fin.mk_one, cons_val_one, cons_val_zero]
    fun_prop
  · exact continuous_id.matrix_det

/-- what `Invariants(ThirdOrderDeformation)` returns -/
noncomputable def todGradT (m : TOD ℝ) (C : Ten2 ℝ) : Ten2 ℝ :=
  (m.C10 + m.C11 * (invariants C 1 - m.undeformed) + m.C20 * 2 * (invariants C 0 - m.undeformed) +
    m.C30 * 3 * (invariants C 0 - m.undeformed) ^ 2) • (1 : Ten2 ℝ) +
  (m.C01 + m.C11 * (invariants C 0 - m.undeformed)) • (C.trace • (1 : Ten2 ℝ) - C)

theorem tod_grad (m : TOD ℝ) (z : Z) {C G : Ten2 ℝ} (hC : SymInv C) :
    Material.Grad (Invariants.material m.mat) z C G ↔ G = todGradT m C := by
  rw [Invariants.grad_iff _ _ hC]
  constructor
  · rintro ⟨g, hg, rfl⟩
    rw [(TOD.grad_iff ..).1 hg]
    simp [invGradT, todGradT]
  · rintro rfl
    exact ⟨_, (TOD.grad_iff ..).2 rfl, by simp [invGradT, todGradT]⟩

theorem continuous_todGradT (m : TOD ℝ) : Continuous (todGradT m) := by
  have h := fun a => (continuous_apply a).comp continuous_invariants
  have h0 := h 0
  have h1 := h 1
  simp only [Function.comp_def] at h0 h1
  have ht : Continuous fun C : Ten2 ℝ => C.trace := continuous_id.matrix_trace
  unfold todGradT
  fun_prop

theorem symInv_unimodular {F : Ten2 ℝ} (hF : F.det ≠ 0) : SymInv (unimodular (cauchyGreen F)) := by
  have := det_cauchyGreen_pos hF
  exact ⟨(cauchyGreen_symm _).smul _, by rw [unimodular, Matrix.det_smul]; positivity⟩

theorem continuousAt_inv {C : Ten2 ℝ} (hC : C.det ≠ 0) : ContinuousAt (fun C : Ten2 ℝ => C⁻¹) C := by
  have : (fun C : Ten2 ℝ => C⁻¹) = fun C => (C.det)⁻¹ • C.adjugate := by
    funext C; rw [Matrix.inv_def, Ring.inverse_eq_inv]
  rw [this]
  exact ((continuous_id.matrix_det.continuousAt).inv₀ hC).smul (continuous_id.matrix_adjugate.continuousAt)

theorem continuousAt_unimodular {C : Ten2 ℝ} (hC : C.det ≠ 0) (p : ℝ) :
    ContinuousAt (fun C : Ten2 ℝ => C.det ^ p) C :=
  (continuous_id.matrix_det.continuousAt).rpow_const (.inl hC)

theorem continuousAt_distS (m : TOD ℝ) {F : Ten2 ℝ} (hF : F.det ≠ 0) :
    ContinuousAt (fun F => F * distS (cauchyGreen F) (todGradT m (unimodular (cauchyGreen F)))) F := by
  have hd : (cauchyGreen F).det ≠ 0 := (det_cauchyGreen_pos hF).ne'
  have hc : ContinuousAt cauchyGreen F := continuous_cauchyGreen.continuousAt
  have h1 : ContinuousAt (fun F => (cauchyGreen F).det ^ (-1 / 3 : ℝ)) F :=
    ContinuousAt.comp (f := cauchyGreen) (continuousAt_unimodular hd _) hc
  have h2 : ContinuousAt (fun F => (cauchyGreen F)⁻¹) F := ContinuousAt.comp (f := cauchyGreen) (continuousAt_inv hd) hc
  have h3 : ContinuousAt (fun F => todGradT m (unimodular (cauchyGreen F))) F :=
    (continuous_todGradT m).continuousAt.comp (h1.smul hc)
  have h4 : ContinuousAt (fun F => (2 * (cauchyGreen F).det ^ (-1 / 3 : ℝ)) • todGradT m (unimodular (cauchyGreen F))) F :=
    (continuousAt_const.mul h1).smul h3
  have h5 : ContinuousAt (fun F => contract22 ((2 * (cauchyGreen F).det ^ (-1 / 3 : ℝ)) •
      todGradT m (unimodular (cauchyGreen F))) (cauchyGreen F)) F := by
    unfold contract22
    refine tendsto_finset_sum _ fun i _ => tendsto_finset_sum _ fun j _ => Tendsto.mul ?_ ?_
    · exact tendsto_pi_nhds.1 (tendsto_pi_nhds.1 h4 i) j
    · exact tendsto_pi_nhds.1 (tendsto_pi_nhds.1 hc i) j
  unfold distS
  exact continuousAt_id.mul (h4.sub ((h5.div_const 3).smul h2))

/-- End to end for third-order-deformation materials: along every motion of invertible deformation
gradients with continuous velocity the work integral exists and is the change of the documented
energy, on the deformation space ... -/
theorem C51_third_order_deformation (C10 C01 C11 C20 C30 : ℝ) (strain : Bool) (z : Z) (F F' P : ℝ → Ten2 ℝ) (a b : ℝ)
    (hd : ∀ t ∈ Set.uIcc a b, (F t).det ≠ 0) (hm : MotionOn F F' a b)
    (hF' : ∀ i j, ContinuousOn (fun t => F' t i j) (Set.uIcc a b))
    (hP : ∀ t ∈ Set.uIcc a b, SpaceObj.Grad (Deformation.obj {}
      (Invariants.material (TOD.init C10 C01 C11 C20 C30 strain).mat)) z (F t) (P t)) :
    WorkExists P F' a b ∧ work P F' a b =
      todEnergy C10 C01 C11 C20 C30 (if strain then 0 else 3) (invariants (cauchyGreen (F b))) -
      todEnergy C10 C01 C11 C20 C30 (if strain then 0 else 3) (invariants (cauchyGreen (F a))) := by
  have hI : WorkExists P F' a b := by
    refine workExists_of (p := fun F => F * ((2 : ℝ) • todGradT (TOD.init C10 C01 C11 C20 C30 strain) (cauchyGreen F)))
      hm hF' (fun t ht => ?_) fun t ht => ?_
    · exact (continuous_id.matrix_mul (((continuous_todGradT _).comp continuous_cauchyGreen).const_smul (2 : ℝ))).continuousAt
    · obtain ⟨G, hG, h⟩ := (Deformation.grad_iff _ _ _ _).1 (hP t ht)
      rw [h, (tod_grad _ _ (symInv_cauchyGreen (hd t ht))).1 hG]
  exact ⟨hI, work_eq (C25_third_order C10 C01 C11 C20 C30 strain z) (motionOn_det_ne hm hd) hm hP hI⟩

/-- ... and on the distortional space. -/
theorem C51_third_order_distortional (C10 C01 C11 C20 C30 : ℝ) (strain : Bool) (z : Z) (F F' P : ℝ → Ten2 ℝ) (a b : ℝ)
    (hd : ∀ t ∈ Set.uIcc a b, (F t).det ≠ 0) (hm : MotionOn F F' a b)
    (hF' : ∀ i j, ContinuousOn (fun t => F' t i j) (Set.uIcc a b))
    (hP : ∀ t ∈ Set.uIcc a b, SpaceObj.Grad (Distortional.obj {}
      (Invariants.material (TOD.init C10 C01 C11 C20 C30 strain).mat)) z (F t) (P t)) :
    WorkExists P F' a b ∧ work P F' a b =
      todEnergy C10 C01 C11 C20 C30 (if strain then 0 else 3) (invariants (unimodular (cauchyGreen (F b)))) -
      todEnergy C10 C01 C11 C20 C30 (if strain then 0 else 3) (invariants (unimodular (cauchyGreen (F a)))) := by
  have hI : WorkExists P F' a b := by
    refine workExists_of (p := fun F => F * distS (cauchyGreen F)
      (todGradT (TOD.init C10 C01 C11 C20 C30 strain) (unimodular (cauchyGreen F))))
      hm hF' (fun t ht => continuousAt_distS _ (hd t ht)) fun t ht => ?_
    obtain ⟨G, hG, h⟩ := (Distortional.grad_iff _ _ (hd t ht)).1 (hP t ht)
    rw [h, (tod_grad _ _ (symInv_unimodular (hd t ht))).1 hG]
  exact ⟨hI, work_eq (C27_third_order C10 C01 C11 C20 C30 strain z) (motionOn_det_ne hm hd) hm hP hI⟩

/-- Ogden materials, on both spaces, for every work integral which exists. -/
theorem C51_ogden (lapack : Eigh) (hl : EighValid lapack) (mu alpha : List ℝ) (z : Z) (Ψ : Ten2 ℝ → ℝ)
    (hΨ : EnergyOfStretches (ogdenEnergy mu alpha) Ψ) (F F' P : ℝ → Ten2 ℝ) (a b : ℝ)
    (hd : ∀ t ∈ Set.uIcc a b, (F t).det ≠ 0) (hm : MotionOn F F' a b) (hI : WorkExists P F' a b) :
    ((∀ t ∈ Set.uIcc a b, SpaceObj.Grad (Deformation.obj {} (Stretches.material lapack (Ogden.mat ⟨mu, alpha⟩))) z
        (F t) (P t)) → work P F' a b = Ψ (cauchyGreen (F b)) - Ψ (cauchyGreen (F a))) ∧
    ((∀ t ∈ Set.uIcc a b, SpaceObj.Grad (Distortional.obj {} (Stretches.material lapack (Ogden.mat ⟨mu, alpha⟩))) z
        (F t) (P t)) → work P F' a b = Ψ (unimodular (cauchyGreen (F b))) - Ψ (unimodular (cauchyGreen (F a)))) :=
  ⟨fun hP => work_eq (C25_ogden lapack hl mu alpha z Ψ hΨ) (motionOn_det_ne hm hd) hm hP hI,
   fun hP => work_eq (C27_ogden lapack hl mu alpha z Ψ hΨ) (motionOn_det_ne hm hd) hm hP hI⟩

/-! ### the dilatational space -/

/-- A consequence of C29 for the dilatational space: no work is done in closed cycles. -/
def C29_NoWork : Prop :=
  ∀ (Z μ : Type) (mat : Material ℝ Z μ) (z : Z) (ψ : Ten2 ℝ → ℝ),
    IsGradient SymInv ψ (Material.Grad mat z) → ∀ (F F' P : ℝ → Ten2 ℝ) (a b : ℝ), F a = F b →
    (∀ t ∈ Set.uIcc a b, (F t).det ≠ 0) → MotionOn F F' a b →
    (∀ t ∈ Set.uIcc a b, SpaceObj.Grad (Dilatational.obj {} mat) z (F t) (P t)) → WorkExists P F' a b →
    work P F' a b = 0

namespace Cycle
open Real

/-- a cycle of dilatation and shear -/
noncomputable def q (t : ℝ) : ℝ := 2 + sin t
noncomputable def k (t : ℝ) : ℝ := (2 + cos t) / q t
noncomputable def F (t : ℝ) : Ten2 ℝ := !![q t ^ 3, k t, 0; 0, 1, 0; 0, 0, 1]
noncomputable def F' (t : ℝ) : Ten2 ℝ :=
  !![3 * q t ^ 2 * cos t, (-sin t * q t - (2 + cos t) * cos t) / q t ^ 2, 0; 0, 0, 0; 0, 0, 0]
/-- the stress which is returned -/
noncomputable def P (t : ℝ) : Ten2 ℝ :=
  (4 * q t ^ 2 * (q t ^ 2 * (q t ^ 6 + k t ^ 2 + 2) - 3)) • !![(q t ^ 3)⁻¹, 0, 0; -k t * (q t ^ 3)⁻¹, 1, 0; 0, 0, 1]

theorem q_pos (t : ℝ) : 0 < q t := by have := neg_one_le_sin t; unfold q; linarith

theorem det_F (t : ℝ) : (F t).det = q t ^ 3 := by simp [F, Matrix.det_fin_three]

theorem det_ne (t : ℝ) : (F t).det ≠ 0 := by rw [det_F]; exact (pow_pos (q_pos t) 3).ne'

theorem moves (t : ℝ) : Moves F (F' t) t := by
  have hq : HasDerivAt q (cos t) t := (hasDerivAt_sin t).const_add 2
  have hk : HasDerivAt k ((-sin t * q t - (2 + cos t) * cos t) / q t ^ 2) t :=
    ((hasDerivAt_cos t).const_add 2).div hq (q_pos t).ne'
  intro i j
  fin_cases i <;> fin_cases j <;> simp only [F, F', Fin.zero_eta, Fin.isValue, Fin.mk_one, Fin.reduceFinMk, of_apply,
    cons_val', cons_val_zero, cons_val_one, cons_val]
  · exact (hq.pow 3).congr_deriv (by norm_num)
  · exact hk
  all_goals exact hasDerivAt_const _ _

theorem I3_pow (t : ℝ) : (cauchyGreen (F t)).det ^ (1 / 3 : ℝ) = q t ^ 2 := by
  have hq := (q_pos t).le
  rw [cauchyGreen, Matrix.det_mul, Matrix.det_transpose, det_F]
  rw [show q t ^ 3 * q t ^ 3 = (q t ^ 2) ^ (3 : ℕ) by ring, ← Real.rpow_natCast (q t ^ 2) 3, ← Real.rpow_mul (sq_nonneg _)]
  norm_num

theorem F_inv (t : ℝ) : ((F t)ᵀ)⁻¹ = !![(q t ^ 3)⁻¹, 0, 0; -k t * (q t ^ 3)⁻¹, 1, 0; 0, 0, 1] := by
  have hq := (q_pos t).ne'
  refine Matrix.inv_eq_right_inv ?_
  ext i j
  fin_cases i <;> fin_cases j <;> simp [F, Matrix.mul_apply, Fin.sum_univ_three] <;> field_simp

theorem grad (t : ℝ) : SpaceObj.Grad (Dilatational.obj {} (Invariants.material (TOD.init 0 0 0 1 0 false).mat)) ()
    (F t) (P t) := by
  have hd := det_cauchyGreen_pos (det_ne t)
  have hS : SymInv ((cauchyGreen (F t)).det ^ (1 / 3 : ℝ) • cauchyGreen (F t)) :=
    ⟨(cauchyGreen_symm _).smul _, by rw [Matrix.det_smul]; positivity⟩
  rw [Dilatational.grad_iff _ _ (det_ne t)]
  refine ⟨_, (tod_grad _ _ hS).2 rfl, ?_⟩
  have hu : IsUnit (F t).det := isUnit_iff_ne_zero.2 (det_ne t)
  rw [dilS, Matrix.mul_smul, show F t * (cauchyGreen (F t))⁻¹ = ((F t)ᵀ)⁻¹ by
    rw [cauchyGreen, Matrix.mul_inv_rev, ← Matrix.mul_assoc, Matrix.mul_nonsing_inv _ hu, Matrix.one_mul], F_inv, P]
  congr 1
  have htr : (cauchyGreen (F t)).trace = q t ^ 6 + k t ^ 2 + 2 := by
    simp [cauchyGreen, F, Matrix.trace_fin_three, Matrix.mul_apply, Fin.sum_univ_three]
    ring
  rw [I3_pow]
  simp only [todGradT, TOD.init, invariants, Matrix.trace_smul, htr, Matrix.trace_one]
  simp
  ring

theorem power_eq (t : ℝ) : stressPower P F' t =
    12 * (q t ^ 9 + 2 * q t ^ 3 - 3 * q t) * cos t + 12 * (2 + sin t) * (2 + cos t) ^ 2 * cos t := by
  have hq := (q_pos t).ne'
  simp only [stressPower, contract22, Fin.sum_univ_three, P, F', k]
  simp
  field_simp
  unfold q
  ring

theorem continuous_power : Continuous (stressPower P F') := by
  have : stressPower P F' = fun t => 12 * (q t ^ 9 + 2 * q t ^ 3 - 3 * q t) * cos t +
      12 * (2 + sin t) * (2 + cos t) ^ 2 * cos t := funext power_eq
  rw [this]
  unfold q
  fun_prop

/-- a primitive of the power -/
noncomputable def prim (t : ℝ) : ℝ := 12 * (q t ^ 10 / 10 + q t ^ 4 / 2 - 3 / 2 * q t ^ 2) +
  12 * (8 * sin t + 4 * t + 4 * (sin t * cos t) + 2 * (sin t - sin t ^ 3 / 3) + 2 * sin t ^ 2 - 4 / 3 * cos t ^ 3 -
    cos t ^ 4 / 4)

theorem deriv_prim (t : ℝ) : HasDerivAt prim (stressPower P F' t) t := by
  have hq : HasDerivAt q (cos t) t := (hasDerivAt_sin t).const_add 2
  have hs := hasDerivAt_sin t
  have hc := hasDerivAt_cos t
  have h1 := (((hq.pow 10).div_const 10).add ((hq.pow 4).div_const 2)).sub ((hq.pow 2).const_mul (3 / 2))
  have h2 := ((((((hs.const_mul 8).add ((hasDerivAt_id t).const_mul 4)).add ((hs.mul hc).const_mul 4)).add
    ((hs.sub ((hs.pow 3).div_const 3)).const_mul 2)).add ((hs.pow 2).const_mul 2)).sub
    ((hc.pow 3).const_mul (4 / 3))).sub ((hc.pow 4).div_const 4)
  refine ((h1.const_mul 12).add (h2.const_mul 12)).congr_deriv ?_
  rw [power_eq]
  have h := sin_sq_add_cos_sq t
  have e : sin t ^ 2 = 1 - cos t ^ 2 := by linarith
  have e3 : sin t ^ 3 = sin t * (1 - cos t ^ 2) := by rw [← e]; ring
  simp only [Nat.cast_ofNat, Nat.add_one_sub_one, Nat.reduceSub, pow_one]
  ring_nf
  simp only [e, e3]
  ring

/-- Work is done in a closed cycle: `96 π`. -/
theorem work_eq_pi : work P F' 0 (2 * π) = 96 * π := by
  rw [work, intervalIntegral.integral_eq_sub_of_hasDerivAt (fun t _ => deriv_prim t)
    (continuous_power.intervalIntegrable _ _)]
  simp [prim, q]
  ring

theorem closed : F 0 = F (2 * π) := by simp [F, q, k]

end Cycle

/-- C29 fails, quantitatively: on the dilatational space the material `(I1 - 3)²` does the work `96 π`
in one cycle of dilatation and shear, so that the returned stress has no energy at all. -/
theorem C29_cycle_false : ¬ C29_NoWork := by
  intro h
  have h1 := h Unit _ _ () (fun C => todEnergy 0 0 0 1 0 (if false then 0 else 3) (invariants C)) (by
    have := C16_gradient _ () (fun _ => True) _ (C10_gradient 0 0 0 1 0 false ())
    intro X X' t₀ G hX
    exact this X X' t₀ G (hX.mono fun t ht => ⟨ht, trivial⟩)) Cycle.F Cycle.F' Cycle.P 0 (2 * Real.pi) Cycle.closed
    (fun t _ => Cycle.det_ne t) (fun t _ => Cycle.moves t) (fun t _ => Cycle.grad t)
    (Cycle.continuous_power.intervalIntegrable _ _)
  rw [Cycle.work_eq_pi] at h1
  have := Real.pi_pos
  linarith

/-- The same cycle meets the hypotheses of the theorems above (with a non-zero stress): no work is
done on the deformation space. -/
example (P : ℝ → Ten2 ℝ) (hP : ∀ t ∈ Set.uIcc 0 (2 * Real.pi), SpaceObj.Grad (Deformation.obj {}
      (Invariants.material (TOD.init 0 0 0 1 0 false).mat)) () (Cycle.F t) (P t)) :
    work P Cycle.F' 0 (2 * Real.pi) = 0 := by
  have h := (C51_third_order_deformation 0 0 0 1 0 false () Cycle.F Cycle.F' P 0 (2 * Real.pi)
    (fun t _ => Cycle.det_ne t) (fun t _ => Cycle.moves t) ?_ hP).2
  · rw [h, Cycle.closed, sub_self]
  · intro i j
    refine Continuous.continuousOn ?_
    have hq : Continuous Cycle.q := by unfold Cycle.q; fun_prop
    have hq0 : ∀ t, Cycle.q t ^ 2 ≠ 0 := fun t => (pow_pos (Cycle.q_pos t) 2).ne'
    fin_cases i <;> fin_cases j <;> simp [Cycle.F'] <;> fun_prop (disch := assumption)

end Props
