import Verif.Proofs.Models

/-! # Properties C10-C12: the bundled models and one-dimensional measures -/

namespace Props
open Spec Hel Filter Topology

variable {Z : Type}

/-! ## C10 -/

section
variable (C10 C01 C11 C20 C30 : ℝ) (strain : Bool) (z : Z)

/-- `gradient` and `hessian` never raise, whatever coefficients vanish. -/
theorem C10_returns (x : Fin 3 → ℝ) :
    (∃ g, InvMat.Grad (TOD.init C10 C01 C11 C20 C30 strain).mat z x g) ∧
    (∃ h, InvMat.Hess (TOD.init C10 C01 C11 C20 C30 strain).mat z x h) :=
  ⟨⟨_, (TOD.grad_iff ..).2 rfl⟩, ⟨_, (TOD.hess_iff ..).2 rfl⟩⟩

/-- `gradient` returns the first partial derivatives of the documented energy. -/
theorem C10_gradient : IsGradient3 (fun _ => True)
    (todEnergy C10 C01 C11 C20 C30 (if strain then 0 else 3))
    (InvMat.Grad (TOD.init C10 C01 C11 C20 C30 strain).mat z) := by
  intro x x' t₀ g _ hx hg
  rw [TOD.grad_iff] at hg
  subst hg
  have h0 := (hx 0).sub_const (if strain then 0 else 3)
  have h1 := (hx 1).sub_const (if strain then 0 else 3)
  have h2 := ((((h0.const_mul C10).add (h1.const_mul C01)).add
    ((h0.const_mul C11).mul h1)).add ((h0.pow 2).const_mul C20)).add ((h0.pow 3).const_mul C30)
  refine h2.congr_deriv ?_
  simp [Fin.sum_univ_three, TOD.init]
  ring

/-- `hessian` returns the partial derivatives of what `gradient` returns. -/
theorem C10_hessian : IsHessian3 (fun _ => True)
    (InvMat.Grad (TOD.init C10 C01 C11 C20 C30 strain).mat z)
    (InvMat.Hess (TOD.init C10 C01 C11 C20 C30 strain).mat z) := by
  intro x x' t₀ g h _ hx hg hh a
  rw [TOD.hess_iff] at hh
  subst hh
  have hg' : (fun t => g t a) =ᶠ[𝓝 t₀] fun t => (![C10 + C11 * (x t 1 - (if strain then 0 else 3)) +
      C20 * 2 * (x t 0 - (if strain then 0 else 3)) + C30 * 3 * (x t 0 - (if strain then 0 else 3)) ^ 2,
      C01 + C11 * (x t 0 - (if strain then 0 else 3)), 0] : Fin 3 → ℝ) a := by
    filter_upwards [hg] with t ht
    rw [TOD.grad_iff] at ht
    rw [ht]
    rfl
  refine HasDerivAt.congr_of_eventuallyEq ?_ hg'
  have h0 := (hx 0).sub_const (if strain then 0 else 3)
  have h1 := (hx 1).sub_const (if strain then 0 else 3)
  fin_cases a
  · refine ((((h1.const_mul C11).const_add C10).add (h0.const_mul (C20 * 2))).add
      ((h0.pow 2).const_mul (C30 * 3))).congr_deriv ?_
    simp [Fin.sum_univ_three, TOD.init]
    ring
  · refine ((h0.const_mul C11).const_add C01).congr_deriv ?_
    simp [Fin.sum_univ_three, TOD.init]
  · refine (hasDerivAt_const t₀ (0 : ℝ)).congr_deriv ?_
    simp [Fin.sum_univ_three]

/-- The state variables are returned unchanged. -/
theorem C10_statevars : InvMat.KeepsState (TOD.init C10 C01 C11 C20 C30 strain).mat z := by
  intro I1 I2 I3 s r h
  simp only [Returns, TOD.mat, PyM.lift_run, TOD.gradient_eq, Except.ok.injEq] at h
  rw [← h]
  rfl

/-- A first derivative is reported as `None` only if the energy does not depend on that
invariant at all. -/
theorem C10_none_gradient (I1 I2 I3 : ℝ) (s : Unit) (r : InvGrad ℝ Z)
    (hr : Returns ((TOD.init C10 C01 C11 C20 C30 strain).mat.gradient I1 I2 I3 z) s r) :
    (r.d1 = none → ∀ x y, todEnergy C10 C01 C11 C20 C30 (if strain then 0 else 3) (Function.update x 0 y) =
      todEnergy C10 C01 C11 C20 C30 (if strain then 0 else 3) x) ∧
    (r.d2 = none → ∀ x y, todEnergy C10 C01 C11 C20 C30 (if strain then 0 else 3) (Function.update x 1 y) =
      todEnergy C10 C01 C11 C20 C30 (if strain then 0 else 3) x) ∧
    (r.d3 = none → ∀ x y, todEnergy C10 C01 C11 C20 C30 (if strain then 0 else 3) (Function.update x 2 y) =
      todEnergy C10 C01 C11 C20 C30 (if strain then 0 else 3) x) := by
  simp only [Returns, TOD.mat, PyM.lift_run, TOD.gradient_eq, Except.ok.injEq] at hr
  rw [← hr]
  refine ⟨?_, ?_, ?_⟩
  · intro h x y
    have := TOD.d1_none _ _ _ _ h
    simp [TOD.init] at this
    simp [todEnergy, this]
  · intro h x y
    have := TOD.d2_none _ _ _ _ h
    simp [TOD.init] at this
    simp [todEnergy, this]
  · intro _ x y
    simp [todEnergy]

/-- A second derivative is reported as `None` only if it vanishes at all invariants. -/
theorem C10_none_hessian (I1 I2 I3 : ℝ) (s : Unit) (r : InvHess ℝ)
    (hr : Returns ((TOD.init C10 C01 C11 C20 C30 strain).mat.hessian I1 I2 I3 z) s r) (x : Fin 3 → ℝ)
    (h : Fin 3 → Fin 3 → ℝ)
    (hh : InvMat.Hess (TOD.init C10 C01 C11 C20 C30 strain).mat z x h) :
    (r.h11 = none → h 0 0 = 0) ∧ (r.h22 = none → h 1 1 = 0) ∧ (r.h33 = none → h 2 2 = 0) ∧
    (r.h12 = none → h 0 1 = 0) ∧ (r.h23 = none → h 1 2 = 0) ∧ (r.h13 = none → h 0 2 = 0) := by
  rw [TOD.hess_iff] at hh
  simp only [Returns, TOD.mat, PyM.lift_run, TOD.hessian_eq, Except.ok.injEq] at hr
  rw [← hr, hh]
  refine ⟨fun h => ?_, fun _ => rfl, fun _ => rfl, fun h => ?_, fun _ => rfl, fun _ => rfl⟩
  · have := TOD.h11_none _ _ h
    simp [this]
  · have := TOD.h12_none _ _ h
    simp [this]

/-- A Mooney-Rivlin material at a deformed state: `dψ/dI1 = 2`, `dψ/dI2 = 1`, `dψ/dI3` is
`None`. -/
example : InvMat.Grad (TOD.init 2 1 0 0 0 false).mat () ![5, 7, 1] ![2, 1, 0] := by
  rw [TOD.grad_iff]
  simp [TOD.init]

end

/-! ## C11 -/

section
variable (mu alpha : List ℝ) (z : Z)

/-- `gradient` and `hessian` return if no exponent that is used vanishes, and raise otherwise. -/
theorem C11_returns (l : Fin 3 → ℝ) :
    ((∃ g, StrMat.Grad (Ogden.mat ⟨mu, alpha⟩) z l g) ↔ ∀ p ∈ mu.zip alpha, p.2 ≠ 0) ∧
    ((∃ h, StrMat.Hess (Ogden.mat ⟨mu, alpha⟩) z l h) ↔ ∀ p ∈ mu.zip alpha, p.2 ≠ 0) := by
  simp only [StrMat.Grad, StrMat.Hess, Returns, Ogden.mat, PyM.lift_run, Ogden.gradient_eq,
    Ogden.hessian_eq]
  constructor
  · constructor
    · rintro ⟨g, s, z', h⟩
      by_contra h'
      rw [if_neg h'] at h
      cases h
    · intro h
      exact ⟨_, (), z, by rw [if_pos h]⟩
  · constructor
    · rintro ⟨g, s, r, h, -⟩
      by_contra h'
      rw [if_neg h'] at h
      cases h
    · intro h
      exact ⟨_, (), _, by rw [if_pos h], rfl⟩

/-- `gradient` returns the first partial derivatives of the documented energy. -/
theorem C11_gradient :
    IsGradient3 Positive (ogdenEnergy mu alpha) (StrMat.Grad (Ogden.mat ⟨mu, alpha⟩) z) := by
  intro x x' t₀ g hd hx hg
  obtain ⟨s, z', hg⟩ := hg
  simp only [Returns, Ogden.mat, PyM.lift_run, Ogden.gradient_eq] at hg
  split_ifs at hg with hne
  simp only [Except.ok.injEq, Prod.mk.injEq] at hg
  obtain ⟨rfl, -⟩ := hg
  have hpos := hd.self_of_nhds
  have h1 : ∀ a, HasDerivAt (fun t => sumOver (mu.zip alpha)
      (fun p x => 2 * p.1 / p.2 ^ 2 * (x ^ p.2 - 1)) (x t a))
      (sumOver (mu.zip alpha) (fun p x => 2 * p.1 / p.2 * x ^ (p.2 - 1)) (x t₀ a) * x' a) t₀ := by
    intro a
    refine hasDerivAt_sumOver _ _ _ _ _ _ (hx a) fun p hp => ?_
    have hk := hne p hp
    refine (((Real.hasDerivAt_rpow_const (p := p.2) (Or.inl (hpos a).ne')).sub_const 1).const_mul
      (2 * p.1 / p.2 ^ 2)).congr_deriv ?_
    field_simp
  simp only [ogdenEnergy_eq, Fin.sum_univ_three]
  exact ((h1 0).add (h1 1)).add (h1 2)

/-- `hessian` returns the partial derivatives of what `gradient` returns. -/
theorem C11_hessian : IsHessian3 Positive (StrMat.Grad (Ogden.mat ⟨mu, alpha⟩) z)
    (StrMat.Hess (Ogden.mat ⟨mu, alpha⟩) z) := by
  intro x x' t₀ g h hd hx hg hh a
  obtain ⟨s, r, hh, rfl⟩ := hh
  simp only [Returns, Ogden.mat, PyM.lift_run, Ogden.hessian_eq] at hh
  split_ifs at hh with hne
  simp only [Except.ok.injEq] at hh
  subst hh
  have hpos := hd.self_of_nhds
  have hg' : (fun t => g t a) =ᶠ[𝓝 t₀] fun t => sumOver (mu.zip alpha)
      (fun p x => 2 * p.1 / p.2 * x ^ (p.2 - 1)) (x t a) := by
    filter_upwards [hg] with t ht
    obtain ⟨s, z', ht⟩ := ht
    simp only [Returns, Ogden.mat, PyM.lift_run, Ogden.gradient_eq, if_pos hne, Except.ok.injEq,
      Prod.mk.injEq] at ht
    rw [← ht.1]
  refine HasDerivAt.congr_of_eventuallyEq ?_ hg'
  have h1 := hasDerivAt_sumOver (mu.zip alpha) (fun p x => 2 * p.1 / p.2 * x ^ (p.2 - 1))
    (fun p x => 2 * p.1 / p.2 * (p.2 - 1) * x ^ (p.2 - 2)) _ _ _ (hx a) fun p hp => by
      refine ((Real.hasDerivAt_rpow_const (p := p.2 - 1) (Or.inl (hpos a).ne')).const_mul
        (2 * p.1 / p.2)).congr_deriv ?_
      rw [show p.2 - 1 - 1 = p.2 - 2 by ring]
      ring
  refine h1.congr_deriv ?_
  fin_cases a <;> simp [Fin.sum_univ_three, StrHess.mat, StrHess.vec]

/-- The mixed second derivatives are reported as `None`. -/
theorem C11_mixed_none (l : Fin 3 → ℝ) (s : Unit) (r : StrHess)
    (hr : Returns ((Ogden.mat ⟨mu, alpha⟩).hessian l z) s r) :
    ∃ h, r = .list h ∧ h 3 = none ∧ h 4 = none ∧ h 5 = none ∧
      ∀ a b, a ≠ b → StrHess.mat r a b = 0 := by
  simp only [Returns, Ogden.mat, PyM.lift_run, Ogden.hessian_eq] at hr
  split_ifs at hr with hne
  simp only [Except.ok.injEq] at hr
  subst hr
  refine ⟨_, rfl, rfl, rfl, rfl, ?_⟩
  intro a b hab
  fin_cases a <;> fin_cases b <;> simp [StrHess.mat, StrHess.vec] at hab ⊢

/-- The state variables are returned unchanged. -/
theorem C11_statevars : StrMat.KeepsState (Ogden.mat ⟨mu, alpha⟩) z := by
  intro x s g z' h
  simp only [Returns, Ogden.mat, PyM.lift_run, Ogden.gradient_eq] at h
  split_ifs at h
  simp only [Except.ok.injEq, Prod.mk.injEq] at h
  exact h.2.symm

/-- A two-term Ogden model with a negative exponent returns a gradient. -/
example : ∃ g, StrMat.Grad (Ogden.mat ⟨[1, 2], [2, -3]⟩) () ![2, 1, 1 / 2] g :=
  (C11_returns [1, 2] [2, -3] () _).1.2 (by simp)

end

/-! ## C12 -/

/-- `strain` returns the Seth-Hill strain and its first two derivatives. -/
theorem C12_strain {k : ℝ} (hk : k ≠ 0) {l : ℝ} (hl : 0 < l) :
    ((strainFun k).eval l).E = sethHill k l ∧
    HasDerivAt (sethHill k) ((strainFun k).eval l).dE l ∧
    HasDerivAt (fun l => ((strainFun k).eval l).dE) ((strainFun k).eval l).d2E l := by
  refine ⟨rfl, ?_, ?_⟩
  · refine (((Real.hasDerivAt_rpow_const (p := k) (Or.inl hl.ne')).sub_const 1).div_const k).congr_deriv ?_
    simp only [strainFun, strainEval]
    field_simp
  · refine (Real.hasDerivAt_rpow_const (p := k - 1) (Or.inl hl.ne')).congr_deriv ?_
    simp only [strainFun, strainEval]
    rw [show k - 1 - 1 = k - 2 by ring]

/-- `deformation` returns `λ^k` and its first two derivatives (also for exponent zero). -/
theorem C12_deformation (k : ℝ) {l : ℝ} (hl : 0 < l) :
    ((deformationFun k).eval l).E = power k l ∧
    HasDerivAt (power k) ((deformationFun k).eval l).dE l ∧
    HasDerivAt (fun l => ((deformationFun k).eval l).dE) ((deformationFun k).eval l).d2E l := by
  refine ⟨rfl, Real.hasDerivAt_rpow_const (Or.inl hl.ne'), ?_⟩
  refine ((Real.hasDerivAt_rpow_const (p := k - 1) (Or.inl hl.ne')).const_mul k).congr_deriv ?_
  simp only [deformationFun, deformationEval]
  rw [show k - 1 - 1 = k - 2 by ring]
  ring

/-- The reference values are those of the exponent-2 measure at stretch one, whatever the
exponent and the stretch. -/
theorem C12_reference (k l : ℝ) :
    ((strainFun k).eval l).E0 = sethHill 2 1 ∧ HasDerivAt (sethHill 2) ((strainFun k).eval l).dE0 1 ∧
    HasDerivAt (deriv (sethHill 2)) ((strainFun k).eval l).d2E0 1 ∧
    ((deformationFun k).eval l).E0 = power 2 1 ∧
    HasDerivAt (power 2) ((deformationFun k).eval l).dE0 1 ∧
    HasDerivAt (deriv (power 2)) ((deformationFun k).eval l).d2E0 1 := by
  have e1 : deriv (sethHill 2) =ᶠ[𝓝 1] fun l => ((strainFun 2).eval l).dE := by
    filter_upwards [lt_mem_nhds (zero_lt_one' ℝ)] with l hl
    exact (C12_strain two_ne_zero hl).2.1.deriv
  have e2 : deriv (power 2) =ᶠ[𝓝 1] fun l => ((deformationFun 2).eval l).dE := by
    filter_upwards [lt_mem_nhds (zero_lt_one' ℝ)] with l hl
    exact (C12_deformation 2 hl).2.1.deriv
  have h1 := C12_strain two_ne_zero one_pos
  have h2 := C12_deformation 2 one_pos
  exact ⟨rfl, h1.2.1, h1.2.2.congr_of_eventuallyEq e1, rfl, h2.2.1, h2.2.2.congr_of_eventuallyEq e2⟩

/-- A non-zero exponent and a positive stretch: the Hencky-like exponent 1/2 at stretch 4. -/
example : ((strainFun (1 / 2)).eval 4).E = 2 := by
  have : (4 : ℝ) ^ (1 / 2 : ℝ) = 2 := by
    rw [← Real.sqrt_eq_rpow, show (4 : ℝ) = 2 ^ 2 by norm_num]; simp
  simp only [strainFun, strainEval, this]
  norm_num

end Props
