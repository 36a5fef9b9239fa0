import Verif.Spec.Logarithmic
import Verif.Props.LabGeneralized

/-! # Property C99: small exponents approach the logarithmic strain -/

namespace Props
open Spec Hel Matrix Filter Topology

variable {Z : Type}

/-! ### Limits of exponentials -/

theorem exp_first (y : ℝ) : Tendsto (fun k : ℝ => (Real.exp (k * y) - 1) / k) (𝓝[≠] 0) (𝓝 y) := by
  have h : HasDerivAt (fun k : ℝ => Real.exp (k * y)) y 0 := by
    have := ((hasDerivAt_id (0 : ℝ)).mul_const y).exp
    simpa using this
  have h2 := hasDerivAt_iff_tendsto_slope.1 h
  refine h2.congr fun k => ?_
  simp [slope_def_field]

theorem exp_second_bound (y : ℝ) :
    ∀ᶠ k in 𝓝[≠] (0 : ℝ), ‖(Real.exp (k * y) - 1 - k * y) / k ^ 2 - y ^ 2 / 2‖ ≤ |k| * |y| ^ 3 := by
  have h1 : ∀ᶠ k in 𝓝[≠] (0 : ℝ), |k * y| < 1 := by
    have : Tendsto (fun k : ℝ => |k * y|) (𝓝[≠] 0) (𝓝 |0 * y|) :=
      ((continuous_id.mul continuous_const).abs.tendsto 0).mono_left nhdsWithin_le_nhds
    rw [zero_mul, abs_zero] at this
    exact this.eventually (gt_mem_nhds one_pos)
  filter_upwards [h1, self_mem_nhdsWithin] with k hk h0
  have h0 : k ≠ 0 := h0
  have h2 := Real.exp_bound hk.le (n := 3) (by norm_num)
  simp only [Finset.sum_range_succ, Finset.sum_range_zero, Nat.factorial] at h2
  norm_num at h2
  have e : (Real.exp (k * y) - 1 - k * y) / k ^ 2 - y ^ 2 / 2 =
      (Real.exp (k * y) - (1 + k * y + (k * y) ^ 2 / 2)) / k ^ 2 := by field_simp; ring
  rw [e, Real.norm_eq_abs, abs_div, abs_of_pos (by positivity : 0 < k ^ 2), div_le_iff₀ (by positivity)]
  have e3 : |k * y| ^ 3 = |k| * |y| ^ 3 * k ^ 2 := by rw [abs_mul, mul_pow, ← sq_abs k]; ring
  rw [← abs_mul, e3] at h2
  have : 0 ≤ |k| * |y| ^ 3 * k ^ 2 := by positivity
  nlinarith

theorem exp_second (y : ℝ) : Tendsto (fun k : ℝ => (Real.exp (k * y) - 1 - k * y) / k ^ 2) (𝓝[≠] 0) (𝓝 (y ^ 2 / 2)) := by
  rw [tendsto_iff_norm_sub_tendsto_zero]
  have hb := exp_second_bound y
  refine squeeze_zero' (.of_forall fun _ => norm_nonneg _) hb ?_
  have : Tendsto (fun k : ℝ => |k| * |y| ^ 3) (𝓝[≠] 0) (𝓝 (|0| * |y| ^ 3)) :=
    ((continuous_abs.mul continuous_const).tendsto 0).mono_left nhdsWithin_le_nhds
  simpa using this

/-! ### The logarithmic energy -/

theorem logStrain_sum (l : Fin 3 → ℝ) : logStrain l 0 + logStrain l 1 + logStrain l 2 = 0 := by
  unfold logStrain; ring

/-- The isochoric stretches are the exponentials of the logarithmic strains. -/
theorem iso_exp {l : Fin 3 → ℝ} (hpos : Positive l) (a : Fin 3) :
    l a / (l 0 * l 1 * l 2) ^ (1 / 3 : ℝ) = Real.exp (logStrain l a) := by
  have h0 := hpos 0; have h1 := hpos 1; have h2 := hpos 2
  rw [logStrain, Real.exp_sub, Real.exp_log (hpos a), Real.rpow_def_of_pos (by positivity),
    Real.log_mul (by positivity) h2.ne', Real.log_mul h0.ne' h1.ne']
  congr 2; ring

/-- The derivatives of the third-order deformation with respect to the first and second invariant. -/
noncomputable def tod1 (c : Fin 5 → ℝ) (x0 x1 : ℝ) : ℝ := c 0 + c 2 * x1 + c 3 * 2 * x0 + c 4 * 3 * x0 ^ 2
noncomputable def tod2 (c : Fin 5 → ℝ) (x0 : ℝ) : ℝ := c 1 + c 2 * x0

/-- The principal stresses of the logarithmic energy. -/
noncomputable def logStress (c : Fin 5 → ℝ) (strain : Bool) (l : Fin 3 → ℝ) (a : Fin 3) : ℝ :=
  if strain then (tod1 c (logSquare l) (-logSquare l / 2) * (2 * logStrain l a) - tod2 c (logSquare l) * logStrain l a) / l a
  else (tod1 c (2 * logSquare l) (2 * logSquare l) + tod2 c (2 * logSquare l)) * (4 * logStrain l a) / l a

theorem logSquare_deriv {l : Fin 3 → ℝ} (hpos : Positive l) (a : Fin 3) :
    HasDerivAt (fun t => logSquare (Function.update l a t)) (2 * logStrain l a / l a) (l a) := by
  have h := Real.hasDerivAt_log (hpos a).ne'
  have hs := logStrain_sum l
  have hc : ∀ b : Fin 3, HasDerivAt (fun t => Real.log (Function.update l a t b)) (if b = a then (l a)⁻¹ else 0) (l a) := by
    intro b
    by_cases hb : b = a
    · subst hb; simpa using h
    · simp only [Function.update_of_ne hb, if_neg hb]; exact hasDerivAt_const _ _
  have hL : ∀ b : Fin 3, HasDerivAt (fun t => logStrain (Function.update l a t) b)
      ((if b = a then (l a)⁻¹ else 0) - ((if (0 : Fin 3) = a then (l a)⁻¹ else 0) + (if (1 : Fin 3) = a then (l a)⁻¹ else 0) +
        (if (2 : Fin 3) = a then (l a)⁻¹ else 0)) / 3) (l a) := fun b =>
    (hc b).sub ((((hc 0).add (hc 1)).add (hc 2)).div_const 3)
  refine ((((hL 0).pow 2).add ((hL 1).pow 2)).add ((hL 2).pow 2)).congr_deriv ?_
  rw [Function.update_eq_self]
  have e1 : logStrain l 2 = -logStrain l 0 - logStrain l 1 := by linarith
  fin_cases a <;> simp [e1] <;> ring

/-- The principal stresses are the derivatives of the energy. -/
theorem logEnergy_deriv (c : Fin 5 → ℝ) (strain : Bool) {l : Fin 3 → ℝ} (hpos : Positive l) (a : Fin 3) :
    HasDerivAt (fun t => logEnergy c strain (Function.update l a t)) (logStress c strain l a) (l a) := by
  have h := logSquare_deriv hpos a
  cases strain
  · have h1 := (h.const_mul 2).const_add 3 |>.sub_const 3
    have := ((((h1.const_mul (c 0)).add (h1.const_mul (c 1))).add ((h1.const_mul (c 2)).mul h1)).add
      ((h1.pow 2).const_mul (c 3))).add ((h1.pow 3).const_mul (c 4))
    refine this.congr_deriv ?_
    simp only [Function.update_eq_self, logStress, tod1, tod2, Bool.false_eq_true, if_false]
    ring
  · have h1 := h.sub_const 0
    have h2 := (h.neg.div_const 2).sub_const 0
    have := ((((h1.const_mul (c 0)).add (h2.const_mul (c 1))).add ((h1.const_mul (c 2)).mul h2)).add
      ((h1.pow 2).const_mul (c 3))).add ((h1.pow 3).const_mul (c 4))
    refine this.congr_deriv ?_
    simp [Function.update_eq_self, logStress, tod1, tod2]
    ring

/-! ### The principal stresses for every exponent -/

noncomputable def expA (y k : ℝ) : ℝ := (Real.exp (k * y) - 1) / k
noncomputable def expB (y k : ℝ) : ℝ := (Real.exp (k * y) - 1 - k * y) / k ^ 2

/-- The quantities which the principal stresses are made of. -/
noncomputable def expVec (y : Fin 3 → ℝ) (k : ℝ) : Fin 15 → ℝ :=
  ![expA (y 0) k, expA (y 1) k, expA (y 2) k, expA (y 0 + y 1) k, expA (y 1 + y 2) k, expA (y 0 + y 2) k,
    expB (y 0) k, expB (y 1) k, expB (y 2) k, expB (y 0 + y 1) k, expB (y 1 + y 2) k, expB (y 0 + y 2) k,
    Real.exp (k * y 0), Real.exp (k * y 1), Real.exp (k * y 2)]

noncomputable def expLim (y : Fin 3 → ℝ) : Fin 15 → ℝ :=
  ![y 0, y 1, y 2, y 0 + y 1, y 1 + y 2, y 0 + y 2, y 0 ^ 2 / 2, y 1 ^ 2 / 2, y 2 ^ 2 / 2, (y 0 + y 1) ^ 2 / 2,
    (y 1 + y 2) ^ 2 / 2, (y 0 + y 2) ^ 2 / 2, 1, 1, 1]

theorem expVec_tendsto (y : Fin 3 → ℝ) : Tendsto (expVec y) (𝓝[≠] 0) (𝓝 (expLim y)) := by
  refine tendsto_pi_nhds.2 fun i => ?_
  have he : ∀ y : ℝ, Tendsto (fun k : ℝ => Real.exp (k * y)) (𝓝[≠] 0) (𝓝 1) := fun y => by
    have : Tendsto (fun k : ℝ => Real.exp (k * y)) (𝓝[≠] 0) (𝓝 (Real.exp (0 * y))) :=
      ((by fun_prop : Continuous fun k : ℝ => Real.exp (k * y)).tendsto 0).mono_left nhdsWithin_le_nhds
    simpa using this
  fin_cases i
  · exact exp_first _
  · exact exp_first _
  · exact exp_first _
  · exact exp_first _
  · exact exp_first _
  · exact exp_first _
  · exact exp_second _
  · exact exp_second _
  · exact exp_second _
  · exact exp_second _
  · exact exp_second _
  · exact exp_second _
  · exact he _
  · exact he _
  · exact he _

theorem expVec_continuous (y : Fin 3 → ℝ) {k : ℝ} (hk : k ≠ 0) : ContinuousAt (expVec y) k := by
  refine tendsto_pi_nhds.2 fun i => ?_
  have hA : ∀ y : ℝ, ContinuousAt (expA y) k := fun y => by
    unfold expA; exact ContinuousAt.div (by fun_prop) (by fun_prop) hk
  have hB : ∀ y : ℝ, ContinuousAt (expB y) k := fun y => by
    unfold expB; exact ContinuousAt.div (by fun_prop) (by fun_prop) (pow_ne_zero 2 hk)
  have he : ∀ y : ℝ, ContinuousAt (fun k : ℝ => Real.exp (k * y)) k := fun y => by fun_prop
  fin_cases i
  · exact hA _
  · exact hA _
  · exact hA _
  · exact hA _
  · exact hA _
  · exact hA _
  · exact hB _
  · exact hB _
  · exact hB _
  · exact hB _
  · exact hB _
  · exact hB _
  · exact he _
  · exact he _
  · exact he _

theorem expVec_rate (y : Fin 3 → ℝ) : (fun k => expVec y k - expLim y) =O[𝓝[≠] 0] fun k => k := by
  have hB : ∀ y : ℝ, (fun k => expB y k - y ^ 2 / 2) =O[𝓝[≠] 0] fun k => k := fun y =>
    Asymptotics.IsBigO.of_bound (|y| ^ 3) ((exp_second_bound y).mono fun k hk => by
      rw [Real.norm_eq_abs k, mul_comm]; exact hk)
  have hA : ∀ y : ℝ, (fun k => expA y k - y) =O[𝓝[≠] 0] fun k => k := fun y => by
    have h1 : (fun k : ℝ => k * expB y k) =O[𝓝[≠] 0] fun k => k * 1 :=
      (Asymptotics.isBigO_refl _ _).mul ((exp_second y).isBigO_one ℝ)
    simp only [mul_one] at h1
    refine h1.congr' ?_ (by rfl)
    filter_upwards [self_mem_nhdsWithin] with k hk
    have hk : k ≠ 0 := hk
    unfold expA expB
    field_simp
  have he : ∀ y : ℝ, (fun k : ℝ => Real.exp (k * y) - 1) =O[𝓝[≠] 0] fun k => k := fun y => by
    have h1 : (fun k : ℝ => k * expA y k) =O[𝓝[≠] 0] fun k => k * 1 :=
      (Asymptotics.isBigO_refl _ _).mul ((exp_first y).isBigO_one ℝ)
    simp only [mul_one] at h1
    refine h1.congr' ?_ (by rfl)
    filter_upwards [self_mem_nhdsWithin] with k hk
    have hk : k ≠ 0 := hk
    unfold expA
    field_simp
  refine Asymptotics.isBigO_pi.2 fun i => ?_
  fin_cases i
  · exact hA _
  · exact hA _
  · exact hA _
  · exact hA _
  · exact hA _
  · exact hA _
  · exact hB _
  · exact hB _
  · exact hB _
  · exact hB _
  · exact hB _
  · exact hB _
  · exact he _
  · exact he _
  · exact he _

/-- The principal Kirchhoff stresses. -/
noncomputable def kirchhoff (c : Fin 5 → ℝ) (strain : Bool) (a : Fin 3) (v : Fin 15 → ℝ) : ℝ :=
  if strain then
    tod1 c (2 * (v 6 + v 7 + v 8)) (v 0 * v 1 + v 1 * v 2 + v 0 * v 2) * (2 * ((![v 0, v 1, v 2] : Fin 3 → ℝ) a - (v 0 + v 1 + v 2) / 3)) +
    tod2 c (2 * (v 6 + v 7 + v 8)) * ((![(v 1 + v 2) * v 12, (v 0 + v 2) * v 13, (v 0 + v 1) * v 14] : Fin 3 → ℝ) a -
      ((v 1 + v 2) * v 12 + (v 0 + v 2) * v 13 + (v 0 + v 1) * v 14) / 3)
  else
    tod1 c (4 * (v 6 + v 7 + v 8)) (4 * (v 9 + v 10 + v 11)) * (4 * ((![v 0, v 1, v 2] : Fin 3 → ℝ) a - (v 0 + v 1 + v 2) / 3)) +
    tod2 c (4 * (v 6 + v 7 + v 8)) * (4 * ((![v 3 + v 5, v 3 + v 4, v 4 + v 5] : Fin 3 → ℝ) a - 2 / 3 * (v 3 + v 4 + v 5)))

theorem kirchhoff_continuous (c : Fin 5 → ℝ) (strain : Bool) (a : Fin 3) : Continuous (kirchhoff c strain a) := by
  unfold kirchhoff tod1 tod2
  cases strain <;> fin_cases a <;> simp <;> fun_prop

theorem kirchhoff_rate (c : Fin 5 → ℝ) (strain : Bool) (a : Fin 3) (y : Fin 3 → ℝ) :
    (fun k => kirchhoff c strain a (expVec y k) - kirchhoff c strain a (expLim y)) =O[𝓝[≠] 0] fun k => k := by
  have hd : Differentiable ℝ (kirchhoff c strain a) := by
    unfold kirchhoff tod1 tod2
    cases strain <;> fin_cases a <;> simp <;> fun_prop
  exact ((hd (expLim y)).isBigO_sub.comp_tendsto (expVec_tendsto y)).trans (expVec_rate y)

theorem kirchhoff_limit (c : Fin 5 → ℝ) (strain : Bool) (l : Fin 3 → ℝ) (a : Fin 3) :
    kirchhoff c strain a (expLim (logStrain l)) / l a = logStress c strain l a := by
  have e1 : logStrain l 2 = -logStrain l 0 - logStrain l 1 := by linarith [logStrain_sum l]
  unfold kirchhoff logStress tod1 tod2 logSquare expLim
  cases strain <;> fin_cases a <;> simp [e1] <;> ring

/-- The derivatives with respect to the stretches returned by the model, for any measure. -/
theorem gen_returns (S : StrainFun) (f : ℝ → ℝ) (hS : Measures S f) (g : GenInv) (hg : GenInv.init S = .ok g)
    (c : Fin 5 → ℝ) (b : Bool) {m : Fin 3 → ℝ} (hm : Positive m) (z : Z) (s : GenSt Unit) :
    Returns ((g.mat (TOD.init (c 0) (c 1) (c 2) (c 3) (c 4) b).mat).gradient m z) s
      (fun a => tod1 c (genInvariants f (coef1 S) (coef2 S) m 0 - (if b then 0 else 3))
          (genInvariants f (coef1 S) (coef2 S) m 1 - (if b then 0 else 3)) * (coef1 S * (S.eval (m a)).dE) +
        tod2 c (genInvariants f (coef1 S) (coef2 S) m 0 - (if b then 0 else 3)) *
          (coef2 S * ((![f (m 1) + f (m 2), f (m 0) + f (m 2), f (m 0) + f (m 1)] : Fin 3 → ℝ) a) * (S.eval (m a)).dE), z) := by
  refine (GenInv.returns_gradient ..).2 ⟨_, TOD.gradient_eq (I3 := GenInv.J3 (g.ev m)) .., ?_, rfl⟩
  obtain ⟨h1, h2, h3, -, -, -, -⟩ := GenInv.init_ok hg hS
  have hJ := GenInv.J_doc hg hS hm
  have hJ0 : g.J1 (g.ev m) = genInvariants f (coef1 S) (coef2 S) m 0 := congrFun hJ 0
  have hJ1 : g.J2 (g.ev m) = genInvariants f (coef1 S) (coef2 S) m 1 := congrFun hJ 1
  have he : ∀ a, g.ev m a = f (m a) := fun a => by
    unfold GenInv.ev; rw [h1]; exact hS.value _ (hm a)
  funext a
  rw [GenInv.gradPure_eq, TOD.vec_gradVal, hJ0, hJ1]
  fin_cases a <;>
    simp [Fin.sum_univ_three, GenInv.dJ, GenInv.dJ2, take, he, h1, h2, h3, GenInv.dev, TOD.init, tod1, tod2] <;> ring

theorem packageMeasure_init (strain : Bool) {k : ℝ} (hk : k ≠ 0) : ∃ g, GenInv.init (packageMeasure strain k) = .ok g := by
  cases strain
  · exact (C13_init_deformation hk).1
  · exact (C13_init_strain hk).1

/-- With the exponent zero there is no such material: both constructors raise. -/
theorem C99_zero (strain : Bool) : GenInv.init (packageMeasure strain 0) = .error .zeroDivision := by
  cases strain <;> simp [packageMeasure, GenInv.init, strainFun, deformationFun, deformationEval, pyDiv, Bind.bind, Except.bind]

/-- The stress on the distortional space for every exponent. -/
theorem gen_distortional (lapack : Eigh) (hl : EighValid lapack) (strain : Bool) {k : ℝ} (hk : k ≠ 0) (g : GenInv)
    (hg : GenInv.init (packageMeasure strain k) = .ok g) (c : Fin 5 → ℝ) (z : Z) (s : DistSt (StrSt (GenSt Unit)))
    {l : Fin 3 → ℝ} (hpos : Positive l) {R Q : Ten2 ℝ} (hR : Orthogonal R) (hQ : Orthogonal Q) :
    Returns ((Distortional.obj {} (generalizedFramework lapack g
      (TOD.init (c 0) (c 1) (c 2) (c 3) (c 4) strain).mat)).gradient (R * diagonal l * Qᵀ) z) s
      (.full (R * diagonal (fun a => kirchhoff c strain a (expVec (logStrain l) k) / l a) * Qᵀ), z) := by
  set y := logStrain l with hy
  have hm : Positive fun a => Real.exp (y a) := fun a => Real.exp_pos _
  have hp : ∀ a, Real.exp (y a) ^ k = Real.exp (k * y a) := fun a => by
    rw [← Real.exp_mul, mul_comm]
  have hp1 : ∀ a, Real.exp (y a) * Real.exp (y a) ^ (k - 1) = Real.exp (k * y a) := fun a => by
    rw [Real.rpow_sub_one (Real.exp_pos _).ne', mul_div_cancel₀ _ (Real.exp_pos _).ne', hp]
  have e1 : y 2 = -y 0 - y 1 := by linarith [logStrain_sum l]
  have hprod : ∀ u v : ℝ, Real.exp (k * (u + v)) = Real.exp (k * u) * Real.exp (k * v) := fun u v => by
    rw [← Real.exp_add]; congr 1; ring
  have hs : y 0 + y 1 + y 2 = 0 := logStrain_sum l
  have key : ∀ W1 W2 c1 c2 m F D : ℝ, m * (W1 * (c1 * D) + W2 * (c2 * F * D)) = (W1 * c1 + W2 * c2 * F) * (m * D) := by
    intros; ring
  cases strain
  · obtain ⟨-, hc1, hc2⟩ := C13_init_deformation hk
    have h := C52_distortional lapack hl _ (GenInv.symmetric g (TOD.init (c 0) (c 1) (c 2) (c 3) (c 4) false).mat) (s := s)
      hpos hR hQ (fun a => Real.exp (y a)) (fun a => (iso_exp hpos a).symm)
      (gen_returns _ _ (measures_deformation k) g hg c false hm z s.material.material)
    refine Eq.trans h ?_
    have hX0 : genInvariants (fun x => x ^ k) (4 / k ^ 2) (4 / k ^ 2) (fun a => Real.exp (y a)) 0 - 3 =
        4 * (expB (y 0) k + expB (y 1) k + expB (y 2) k) := by
      simp only [genInvariants, cons_val_zero, hp, Real.one_rpow, expB]
      field_simp
      linear_combination 4 * k * hs
    have hX1 : genInvariants (fun x => x ^ k) (4 / k ^ 2) (4 / k ^ 2) (fun a => Real.exp (y a)) 1 - 3 =
        4 * (expB (y 0 + y 1) k + expB (y 1 + y 2) k + expB (y 0 + y 2) k) := by
      simp only [genInvariants, cons_val_one, cons_val_zero, hp, Real.one_rpow, expB, hprod]
      field_simp
      linear_combination 8 * k * hs
    have hD : ∀ a, Real.exp (y a) * ((deformationFun k).eval (Real.exp (y a))).dE = k * Real.exp (k * y a) := fun a => by
      simp only [deformationFun, deformationEval]
      rw [mul_left_comm, hp1]
    refine congrArg (fun d => (Except.ok (Stress.full (R * diagonal d * Qᵀ), z) : Res _)) (funext fun a => ?_)
    refine congrArg (· / l a) ?_
    simp only [hc1, hc2, Bool.false_eq_true, if_false, hX0, hX1, key, hD, hp, kirchhoff, expVec, cons_val]
    generalize tod1 c _ _ = W1
    generalize tod2 c _ = W2
    simp only [expA, hprod]
    obtain ⟨E, hE⟩ : ∃ E : Fin 3 → ℝ, ∀ a, Real.exp (k * y a) = E a := ⟨_, fun _ => rfl⟩
    simp only [hE]
    fin_cases a <;> simp <;> field_simp <;> ring
  · obtain ⟨-, hc1, hc2⟩ := C13_init_strain hk
    have h := C52_distortional lapack hl _ (GenInv.symmetric g (TOD.init (c 0) (c 1) (c 2) (c 3) (c 4) true).mat) (s := s)
      hpos hR hQ (fun a => Real.exp (y a)) (fun a => (iso_exp hpos a).symm)
      (gen_returns _ _ (measures_strain hk) g hg c true hm z s.material.material)
    refine Eq.trans h ?_
    have hX0 : genInvariants (fun x => (x ^ k - 1) / k) (2 / k) 1 (fun a => Real.exp (y a)) 0 - 0 =
        2 * (expB (y 0) k + expB (y 1) k + expB (y 2) k) := by
      simp only [genInvariants, cons_val_zero, hp, Real.one_rpow, expB]
      field_simp
      linear_combination 2 * k * hs
    have hX1 : genInvariants (fun x => (x ^ k - 1) / k) (2 / k) 1 (fun a => Real.exp (y a)) 1 - 0 =
        expA (y 0) k * expA (y 1) k + expA (y 1) k * expA (y 2) k + expA (y 0) k * expA (y 2) k := by
      simp only [genInvariants, cons_val_one, cons_val_zero, hp, Real.one_rpow, expA]
      field_simp
      ring
    have hD : ∀ a, Real.exp (y a) * ((strainFun k).eval (Real.exp (y a))).dE = Real.exp (k * y a) := fun a => by
      simp only [strainFun, strainEval]
      rw [hp1]
    refine congrArg (fun d => (Except.ok (Stress.full (R * diagonal d * Qᵀ), z) : Res _)) (funext fun a => ?_)
    refine congrArg (· / l a) ?_
    simp only [hc1, hc2, if_true, hX0, hX1, key, hD, hp, kirchhoff, expVec, cons_val]
    generalize tod1 c _ _ = W1
    generalize tod2 c _ = W2
    simp only [expA]
    obtain ⟨E, hE⟩ : ∃ E : Fin 3 → ℝ, ∀ a, Real.exp (k * y a) = E a := ⟨_, fun _ => rfl⟩
    simp only [hE]
    fin_cases a <;> simp <;> field_simp <;> ring

/-- **C99.**  On the distortional space, with either measure of the package: the stress depends continuously on the exponent
where it is not zero, and for exponents which tend to zero it tends at a linear rate to the stress of the energy in the logarithmic strain
(`p` its principal values, the derivatives of the energy by the principal stretches), for every deformation
`F = R diag(l) Qᵀ`. -/
theorem C99_stress (lapack : Eigh) (hl : EighValid lapack) (strain : Bool) (g : ℝ → GenInv)
    (hg : ∀ k, k ≠ 0 → GenInv.init (packageMeasure strain k) = .ok (g k)) (c : Fin 5 → ℝ) (z : Z)
    (s : ℝ → DistSt (StrSt (GenSt Unit))) (l : Fin 3 → ℝ) (hpos : Positive l) (R Q : Ten2 ℝ) (hR : Orthogonal R) (hQ : Orthogonal Q) :
    ∃ (P : ℝ → Ten2 ℝ) (p : Fin 3 → ℝ),
      (∀ k, k ≠ 0 → Returns ((Distortional.obj {} (generalizedFramework lapack (g k)
        (TOD.init (c 0) (c 1) (c 2) (c 3) (c 4) strain).mat)).gradient (R * diagonal l * Qᵀ) z) (s k) (.full (P k), z)) ∧
      (∀ a, HasDerivAt (fun t => logEnergy c strain (Function.update l a t)) (p a) (l a)) ∧
      (∀ k, k ≠ 0 → ContinuousAt P k) ∧ Tendsto P (𝓝[≠] 0) (𝓝 (R * diagonal p * Qᵀ)) ∧
      ∀ i j, (fun k => P k i j - (R * diagonal p * Qᵀ) i j) =O[𝓝[≠] 0] fun k => k := by
  have hD : Continuous fun d : Fin 3 → ℝ => R * diagonal d * Qᵀ := by fun_prop
  refine ⟨fun k => R * diagonal (fun a => kirchhoff c strain a (expVec (logStrain l) k) / l a) * Qᵀ, logStress c strain l,
    fun k hk => gen_distortional lapack hl strain hk (g k) (hg k hk) c z (s k) hpos hR hQ,
    logEnergy_deriv c strain hpos, fun k hk => ?_, ?_, fun i j => ?_⟩
  · refine hD.continuousAt.comp (f := fun k a => kirchhoff c strain a (expVec (logStrain l) k) / l a) ?_
    refine tendsto_pi_nhds.2 fun a => ?_
    exact (((kirchhoff_continuous c strain a).continuousAt.comp (expVec_continuous (logStrain l) hk)).div_const _ :)
  · refine (hD.tendsto _).comp (?_ : Tendsto (fun k a => kirchhoff c strain a (expVec (logStrain l) k) / l a) _ _)
    refine tendsto_pi_nhds.2 fun a => ?_
    rw [← kirchhoff_limit]
    exact (((kirchhoff_continuous c strain a).tendsto _).comp (expVec_tendsto (logStrain l))).div_const _
  · have h1 : ∀ a, (fun k => kirchhoff c strain a (expVec (logStrain l) k) / l a - logStress c strain l a) =O[𝓝[≠] 0] fun k => k := by
      intro a
      have := (kirchhoff_rate c strain a (logStrain l)).const_mul_left (l a)⁻¹
      refine this.congr_left fun k => ?_
      rw [← kirchhoff_limit]; ring
    have h2 : ∀ d d' : Fin 3 → ℝ, (R * diagonal d * Qᵀ) i j - (R * diagonal d' * Qᵀ) i j =
        ∑ a, R i a * Q j a * (d a - d' a) := by
      intro d d'
      rw [Matrix.mul_apply, Matrix.mul_apply, ← Finset.sum_sub_distrib]
      refine Finset.sum_congr rfl fun a _ => ?_
      rw [Matrix.mul_diagonal, Matrix.mul_diagonal, Matrix.transpose_apply]; ring
    simp only [h2]
    refine (Asymptotics.IsBigO.sum fun a (_ : a ∈ Finset.univ) => (h1 a).const_mul_left (R i a * Q j a)).congr_left fun k => ?_
    rw [Finset.sum_apply]

/-- On the deformation space there is no such limit: the pressure in the principal stresses grows without bound (here for a
coefficient `C10`). -/
theorem C99_pressure (lapack : Eigh) (hl : EighValid lapack) (g : ℝ → GenInv)
    (hg : ∀ k, k ≠ 0 → GenInv.init (deformationFun k) = .ok (g k)) (C10 : ℝ) (hC : C10 ≠ 0) (z : Z)
    (s : ℝ → DefSt (StrSt (GenSt Unit))) (l : Fin 3 → ℝ) (hpos : Positive l) :
    ∃ P : ℝ → Ten2 ℝ, (∀ k, k ≠ 0 → Returns ((Deformation.obj {} (generalizedFramework lapack (g k)
        (TOD.init C10 0 0 0 0 false).mat)).gradient (diagonal l) z) (s k) (.full (P k), z)) ∧
      ∀ a, Tendsto (fun k => |P k a a|) (𝓝[≠] 0) atTop := by
  refine ⟨fun k => diagonal fun a => C10 * (4 / k ^ 2 * (k * l a ^ (k - 1))), fun k hk => ?_, fun a => ?_⟩
  · obtain ⟨-, hc1, hc2⟩ := C13_init_deformation hk
    have h := C52_deformation lapack hl _ (GenInv.symmetric (g k) (TOD.init C10 0 0 0 0 false).mat) (s := s k)
      hpos orthogonal_one orthogonal_one
      (gen_returns _ _ (measures_deformation k) (g k) (hg k hk) ![C10, 0, 0, 0, 0] false hpos z (s k).material.material)
    simp only [Matrix.one_mul, transpose_one, Matrix.mul_one] at h
    refine Eq.trans h ?_
    refine congrArg (fun d => (Except.ok (Stress.full (diagonal d), z) : Res _)) (funext fun a => ?_)
    rw [hc1, hc2]
    simp [tod1, tod2, deformationFun, deformationEval]
  · have h1 : Tendsto (fun k : ℝ => |4 * C10 * l a ^ (k - 1)| * |k|⁻¹) (𝓝[≠] 0) atTop := by
      have hcont : Tendsto (fun k : ℝ => |4 * C10 * l a ^ (k - 1)|) (𝓝[≠] 0) (𝓝 |4 * C10 * l a ^ ((0 : ℝ) - 1)|) := by
        refine Tendsto.mono_left ?_ nhdsWithin_le_nhds
        have : ContinuousAt (fun k : ℝ => l a ^ (k - 1)) 0 :=
          ContinuousAt.rpow continuousAt_const (by fun_prop) (Or.inl (hpos a).ne')
        exact ((this.const_mul (4 * C10)).abs).tendsto
      have hne : 0 < |4 * C10 * l a ^ ((0 : ℝ) - 1)| := by
        have := Real.rpow_pos_of_pos (hpos a) ((0 : ℝ) - 1)
        positivity
      refine hcont.pos_mul_atTop hne ?_
      refine tendsto_inv_nhdsGT_zero.comp (tendsto_nhdsWithin_iff.2 ⟨?_, ?_⟩)
      · simpa using (continuous_abs.tendsto (0 : ℝ)).mono_left (nhdsWithin_le_nhds (s := {0}ᶜ))
      · filter_upwards [self_mem_nhdsWithin] with k hk
        exact abs_pos.2 hk
    refine h1.congr' ?_
    filter_upwards [self_mem_nhdsWithin] with k hk
    have hk : k ≠ 0 := hk
    rw [diagonal_apply_eq, ← abs_inv, ← abs_mul]
    congr 1
    field_simp

/-- The same for the curves of the lab, on both spaces: for user's functions which construct the material with the
exponent `e`, the curves depend continuously on the exponent and tend to the normal force of the energy in the logarithmic
strain. -/
theorem C99_curve (lapack : Eigh) (hl : EighValid lapack) (strain : Bool) (g : ℝ → GenInv)
    (hg : ∀ e, e ≠ 0 → GenInv.init (packageMeasure strain e) = .ok (g e)) (c : Fin 5 → ℝ) (sim : ℝ → Simulation Z)
    (k : LoadKind) (lab : Option String) (hk : ∀ e, (sim e).loadcase = k.case lab) (p : List ℝ)
    (hm : ∀ e, e ≠ 0 → (sim e).material (Kwargs.ofList ((sim e).labels.zip p)) = .ok (genDeformation lapack (g e) c strain) ∨
      (sim e).material (Kwargs.ofList ((sim e).labels.zip p)) = .ok (genDistortional lapack (g e) c strain))
    (x : List ℝ) (hne : x ≠ []) (hx : ∀ l ∈ x, 0 < l) :
    ∃ φ : ℝ → ℝ → ℝ, (∀ e, e ≠ 0 → (sim e).stressCurveFit x p = .ok (x.map (φ e))) ∧
      ∀ l, 0 < l → (∀ e, e ≠ 0 → ContinuousAt (fun e => φ e l) e) ∧ ∃ q : Fin 3 → ℝ,
        (∀ a, HasDerivAt (fun t => logEnergy c strain (Function.update (loadStretches k l) a t)) (q a) (loadStretches k l a)) ∧
        Tendsto (fun e => φ e l) (𝓝[≠] 0) (𝓝 (q 0 - q 2 * loadStretches k l 2 / loadStretches k l 0)) := by
  have hpt : ∀ l, 0 < l → ∃ P : ℝ → Ten2 ℝ, (∀ e, e ≠ 0 → ∀ s : DistSt (StrSt (GenSt Unit)),
      Returns ((Distortional.obj {} (generalizedFramework lapack (g e)
        (TOD.init (c 0) (c 1) (c 2) (c 3) (c 4) strain).mat)).gradient (k.F l) (none : Option Z)) s (.full (P e), none)) ∧
      (∀ e, e ≠ 0 → ContinuousAt P e) ∧ ∃ q : Fin 3 → ℝ,
        (∀ a, HasDerivAt (fun t => logEnergy c strain (Function.update (loadStretches k l) a t)) (q a) (loadStretches k l a)) ∧
        Tendsto P (𝓝[≠] 0) (𝓝 (diagonal q)) := by
    intro l hl'
    have hpos := loadStretches_pos k hl'
    have hret := fun e (he : e ≠ 0) (s : DistSt (StrSt (GenSt Unit))) =>
      gen_distortional lapack hl strain he (g e) (hg e he) c (none : Option Z) s hpos orthogonal_one orthogonal_one
    obtain ⟨P, q, h1, h2, h3, h4, -⟩ := C99_stress lapack hl strain g hg c (none : Option Z)
      (fun _ => { material := { material := { material := () } } }) (loadStretches k l) hpos 1 1 orthogonal_one orthogonal_one
    simp only [Matrix.one_mul, transpose_one, Matrix.mul_one, ← loadF_eq] at h1 h4 hret
    refine ⟨P, fun e he s => ?_, h3, q, h2, h4⟩
    have := (hret e he { material := { material := { material := () } } }).symm.trans (h1 e he)
    simp only [Except.ok.injEq, Prod.mk.injEq, Stress.full.injEq] at this
    rw [← this.1]
    exact hret e he s
  choose! P hP using hpt
  have hnf : ∀ l, Continuous (normalForce (k.F l)) := fun l => by unfold normalForce; fun_prop
  refine ⟨fun e l => normalForce (k.F l) (P l e), fun e he => ?_, fun l hl' => ?_⟩
  · rcases hm e he with hm | hm
    · refine curve_of_returns (hk e) hm (genDeformation_acts lapack (g e) c strain { material := { material := { material := () } } }) hne ?_
      rw [List.forall₂_map_right_iff, List.forall₂_same]
      intro l hl'
      obtain ⟨P', h1', h2'⟩ := (same_point k (hx l hl') _ none none { material := { material := { material := () } } } _ rfl _).2
        ⟨P l e, (hP l (hx l hl')).1 e he { material := { material := { material := () } } }, rfl⟩
      exact ⟨P', none, h1', h2'⟩
    · refine curve_of_returns (hk e) hm (genDistortional_acts lapack (g e) c strain { material := { material := { material := () } } }) hne ?_
      rw [List.forall₂_map_right_iff, List.forall₂_same]
      exact fun l hl' => ⟨P l e, none, (hP l (hx l hl')).1 e he _, rfl⟩
  · obtain ⟨-, h2, q, h3, h4⟩ := hP l hl'
    refine ⟨fun e he => ContinuousAt.comp (g := normalForce (k.F l)) (hnf l).continuousAt (h2 e he), q, h3, ?_⟩
    have := ((hnf l).tendsto _).comp h4
    simpa only [normalForce, loadF_eq, diagonal_apply_eq, Function.comp_def] using this

/-- The exponents of the test are allowed: the hypotheses are met by the constructors of the package. -/
example (strain : Bool) : (∃ lapack, EighValid lapack) ∧
    (∃ g : ℝ → GenInv, ∀ e, e ≠ 0 → GenInv.init (packageMeasure strain e) = .ok (g e)) ∧ Positive ![2, 1 / 2, (1 : ℝ)] ∧
    logEnergy ![1, 0, 0, 0, 0] false ![Real.exp 1, Real.exp (-1), 1] = 4 := by
  refine ⟨exists_eigh, ?_, ?_, ?_⟩
  · obtain ⟨g₀, -⟩ := packageMeasure_init strain one_ne_zero
    have : Nonempty GenInv := ⟨g₀⟩
    choose! g hg using fun (e : ℝ) (he : e ≠ 0) => packageMeasure_init strain he
    exact ⟨g, hg⟩
  · intro a; fin_cases a <;> simp
  · have h2 : (![Real.exp 1, Real.exp (-1), 1] : Fin 3 → ℝ) 2 = 1 := rfl
    have h3 : (![1, 0, 0, 0, 0] : Fin 5 → ℝ) 2 = 0 := rfl
    have h4 : (![1, 0, 0, 0, 0] : Fin 5 → ℝ) 3 = 0 := rfl
    have h5 : (![1, 0, 0, 0, 0] : Fin 5 → ℝ) 4 = 0 := rfl
    norm_num [logEnergy, todEnergy, logSquare, logStrain, h2, h3, h4, h5]

end Props
