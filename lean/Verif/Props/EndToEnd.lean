import Verif.Props.Exponent2
import Verif.Props.Spaces
import Verif.Props.History

/-! # End-to-end corollaries for the models of the package in the `Stretches` framework -/

namespace Props
open Spec Hel Matrix Filter Topology

variable {Z μ : Type}

/-- Sufficient for `Separated`: one decomposition. -/
theorem separated_of {C v : Ten2 ℝ} {w : Fin 3 → ℝ} (h : Spectral C w v)
    (hw : ∀ a b, w a = w b ∨ 1 / 10 ^ 8 < |w a - w b|) : Separated C := by
  intro w' v' h' a b
  obtain ⟨p, rfl⟩ := h.perm h'
  exact hw (p a) (p b)

/-- The Ogden energy as an energy of `C`. -/
theorem ogden_energy (mu alpha : List ℝ) : ∃ Ψ, EnergyOfStretches (ogdenEnergy mu alpha) Ψ := by
  refine (energy_exists _).2 fun x _ p => ?_
  unfold ogdenEnergy
  congr 2
  funext q
  congr 1
  exact Equiv.sum_comp p fun a => x a ^ q.2 - 1

variable (lapack : Eigh) (hl : EighValid lapack) (mu alpha : List ℝ) (z : Z)
include hl

/-- The gradient of `Stretches(Ogden)` is the derivative of the documented Ogden energy. -/
theorem C19_ogden (Ψ : Ten2 ℝ → ℝ) (hΨ : EnergyOfStretches (ogdenEnergy mu alpha) Ψ) :
    IsGradient PosDef Ψ (Material.Grad (Stretches.material lapack (Ogden.mat ⟨mu, alpha⟩)) z) :=
  C19_gradient lapack hl _ z _ Ψ hΨ (C11_gradient mu alpha z)

/-- The hessian of `Stretches(Ogden)` is the derivative of its gradient. -/
theorem C20_ogden (hα : ∀ p ∈ mu.zip alpha, p.2 ≠ 0) :
    IsHessian PosDef (Material.Grad (Stretches.material lapack (Ogden.mat ⟨mu, alpha⟩)) z)
      (fun C H => Separated C ∧ Material.Hess (Stretches.material lapack (Ogden.mat ⟨mu, alpha⟩)) z C H) :=
  C20_hessian lapack hl _ z (Ogden.symmetric _) (fun x _ => (C11_returns mu alpha z x).1.2 hα) (C11_statevars mu alpha z)
    (C11_hessian mu alpha z)

/-- The stress of an Ogden material on the deformation space is the derivative of its energy. -/
theorem C25_ogden (Ψ : Ten2 ℝ → ℝ) (hΨ : EnergyOfStretches (ogdenEnergy mu alpha) Ψ) :
    IsGradient (fun F => F.det ≠ 0) (fun F => Ψ (cauchyGreen F))
      (SpaceObj.Grad (Deformation.obj {} (Stretches.material lapack (Ogden.mat ⟨mu, alpha⟩))) z) := by
  have h := C25_gradient _ z _ _ (C19_ogden lapack hl mu alpha z Ψ hΨ)
  intro F F' t₀ P hF hm hP
  exact h F F' t₀ P (hF.mono fun t ht => posDef_cauchyGreen ht) hm hP

/-- The elasticity of an Ogden material on the deformation space is the derivative of its stress. -/
theorem C26_ogden (hα : ∀ p ∈ mu.zip alpha, p.2 ≠ 0) : IsHessian (fun F => F.det ≠ 0)
    (SpaceObj.Grad (Deformation.obj {} (Stretches.material lapack (Ogden.mat ⟨mu, alpha⟩))) z)
    (fun F A => Separated (cauchyGreen F) ∧
      SpaceObj.Hess (Deformation.obj {} (Stretches.material lapack (Ogden.mat ⟨mu, alpha⟩))) z F A) := by
  have h := C26_hessian_at _ z _ _ (C20_ogden lapack hl mu alpha z hα)
  intro F F' t₀ P A hF hm hP hA
  exact h F F' t₀ P A (hF.mono fun t ht => posDef_cauchyGreen ht) hm hP hA

/-- The stress of an Ogden material on the distortional space is the derivative of the energy of
the distortional part. -/
theorem C27_ogden (Ψ : Ten2 ℝ → ℝ) (hΨ : EnergyOfStretches (ogdenEnergy mu alpha) Ψ) :
    IsGradient (fun F => F.det ≠ 0) (fun F => Ψ (unimodular (cauchyGreen F)))
      (SpaceObj.Grad (Distortional.obj {} (Stretches.material lapack (Ogden.mat ⟨mu, alpha⟩))) z) := by
  have h := C27_gradient _ z _ _ (C19_ogden lapack hl mu alpha z Ψ hΨ)
  intro F F' t₀ P hF hm hP
  exact h F F' t₀ P (hF.mono fun t ht => ⟨ht, (posDef_cauchyGreen ht).smul
    (Real.rpow_pos_of_pos (det_cauchyGreen_pos ht) _)⟩) hm hP

/-- The elasticity of an Ogden material on the distortional space (missing: elasticities within
the tolerance of zero, see C28). -/
theorem C28_ogden_partial (hα : ∀ p ∈ mu.zip alpha, p.2 ≠ 0) : IsHessian (fun F => F.det ≠ 0)
    (SpaceObj.Grad (Distortional.obj {} (Stretches.material lapack (Ogden.mat ⟨mu, alpha⟩))) z)
    (fun F A => (Separated (unimodular (cauchyGreen F)) ∧
      ∀ H, Material.Hess (Stretches.material lapack (Ogden.mat ⟨mu, alpha⟩)) z (unimodular (cauchyGreen F)) H → H = 0 ∨
          ∃ i j k l, 1 / 10 ^ 8 < |4 * (cauchyGreen F).det ^ (-2 / 3 : ℝ) * H i j k l|) ∧
      SpaceObj.Hess (Distortional.obj {} (Stretches.material lapack (Ogden.mat ⟨mu, alpha⟩))) z F A) := by
  have h := C28_hessian_at_partial _ z _ _ (C20_ogden lapack hl mu alpha z hα)
  intro F F' t₀ P A hF hm hP hA
  exact h F F' t₀ P A (hF.mono fun t ht => ⟨ht, (posDef_cauchyGreen ht).smul
    (Real.rpow_pos_of_pos (det_cauchyGreen_pos ht) _)⟩) hm hP hA

omit hl in
/-- Non-vacuity of C19/C20: an Ogden material returns gradient and hessian at every `C`. -/
theorem C20_ogden_returns (hα : ∀ p ∈ mu.zip alpha, p.2 ≠ 0) {C : Ten2 ℝ} (hC : PosDef C) :
    (∃ G, Material.Grad (Stretches.material lapack (Ogden.mat ⟨mu, alpha⟩)) z C G) ∧
    ∃ H, Material.Hess (Stretches.material lapack (Ogden.mat ⟨mu, alpha⟩)) z C H := by
  have hc : Stores (asvoigt C) C := C01_asvoigt_stores hC.1
  obtain ⟨g, s0, z', hg⟩ := (C11_returns mu alpha z (Stretches.roots (Stretches.vals lapack C))).1.2 hα
  obtain ⟨-, s, k, hk, -⟩ := (C11_returns mu alpha z (Stretches.roots (Stretches.vals lapack C))).2.2 hα
  obtain rfl := C11_statevars mu alpha z _ _ _ _ hg
  constructor
  · exact ⟨_, (Stretches.grad_iff ..).2 ⟨hC.1, g, ⟨(), z', hg⟩, rfl⟩⟩
  · refine ⟨astensor4 (Stretches.hessPure (eighSqrt lapack (asvoigt C)).1 (eighSqrt lapack (asvoigt C)).2 g k),
      { material := () }, asvoigt C, _, hc, stores4_astensor4 _, (Stretches.returns_hessian ..).2
      ⟨g, z', (), k, Prod.ext ?_ rfl, ?_, rfl⟩⟩
    · rw [Stretches.eighSqrt_eq lapack hc]; exact hg
    · rw [Stretches.eighSqrt_eq lapack hc]; exact hk

omit hl in
/-- The tensor `diag(4, 1, 1)` with a repeated eigenvalue is positive definite and separated. -/
example : PosDef (diagonal ![4, 1, 1] : Ten2 ℝ) ∧ Separated (diagonal ![4, 1, 1]) := by
  refine ⟨posDef_diagonal ?_, separated_of (spectral_diagonal _) ?_⟩
  · intro a; fin_cases a <;> simp
  · intro a b; fin_cases a <;> fin_cases b <;> norm_num

/-! ### Generalized invariants of third-order-deformation materials -/

omit hl in
theorem tod_third (C10 C01 C11 C20 C30 : ℝ) (b : Bool) (I1 I2 I3 : ℝ) (z : Z) :
    (∀ s r, Returns ((TOD.init C10 C01 C11 C20 C30 b).mat.gradient I1 I2 I3 z) s r → r.d3.getD 0 = 0) ∧
    ∀ s r, Returns ((TOD.init C10 C01 C11 C20 C30 b).mat.hessian I1 I2 I3 z) s r →
      r.h33 = none ∧ r.h13.getD 0 = 0 ∧ r.h23.getD 0 = 0 := by
  constructor
  · intro s r h
    simp only [Returns, TOD.mat, PyM.lift_run, TOD.gradient_eq, Except.ok.injEq] at h
    rw [← h]; rfl
  · intro s r h
    simp only [Returns, TOD.mat, PyM.lift_run, TOD.hessian_eq, Except.ok.injEq] at h
    rw [← h]; exact ⟨rfl, rfl, rfl⟩

omit hl in
/-- The energy of a third-order-deformation material in the generalized invariants of any strain
measure. -/
theorem generalized_energy (f : ℝ → ℝ) (c1 c2 : ℝ) (ψ : (Fin 3 → ℝ) → ℝ) :
    ∃ Ψ, EnergyOfStretches (fun l => ψ (genInvariants f c1 c2 l)) Ψ := by
  refine (energy_exists _).2 fun x _ p => ?_
  congr 1
  funext k
  rcases perm_cases p with h | h | h | h | h | h <;> obtain ⟨h0, h1, h2⟩ := h <;> fin_cases k <;>
    simp [genInvariants, Function.comp, h0, h1, h2, -mul_eq_mul_left_iff, -mul_eq_mul_right_iff] <;> ring

/-- `GeneralizedInvariants` (any strain measure which provides its derivatives, any model with the
derivatives of `ψ`): the gradient is the derivative of `ψ` at the documented invariants. -/
theorem C19_generalized (S : StrainFun) (f : ℝ → ℝ) (hS : Measures S f) (g : GenInv) (hg : GenInv.init S = .ok g)
    (mat : InvMat ℝ Z μ) (ψ : (Fin 3 → ℝ) → ℝ) (h : IsGradient3 (fun _ => True) ψ (InvMat.Grad mat z)) (Ψ : Ten2 ℝ → ℝ)
    (hΨ : EnergyOfStretches (fun l => ψ (genInvariants f (coef1 S) (coef2 S) l)) Ψ) :
    IsGradient PosDef Ψ (Material.Grad (generalizedFramework lapack g mat) z) := by
  refine C19_gradient lapack hl _ z _ Ψ hΨ ?_
  have h1 := C13_gradient S f hS g hg mat z _ ψ h
  intro x x' t₀ d hx hm hd
  exact h1 x x' t₀ d (hx.mono fun t ht => ⟨ht, trivial⟩) hm hd

/-- The hessian of `GeneralizedInvariants` with a third-order-deformation material and any strain
measure is the derivative of its gradient. -/
theorem C20_generalized (S : StrainFun) (f : ℝ → ℝ) (hS : Measures S f) (g : GenInv) (hg : GenInv.init S = .ok g)
    (C10 C01 C11 C20 C30 : ℝ) (b : Bool) :
    IsHessian PosDef (Material.Grad (generalizedFramework lapack g (TOD.init C10 C01 C11 C20 C30 b).mat) z)
      (fun C H => Separated C ∧
        Material.Hess (generalizedFramework lapack g (TOD.init C10 C01 C11 C20 C30 b).mat) z C H) := by
  refine C20_hessian lapack hl _ z (GenInv.symmetric _ _) ?_ ?_ ?_
  · intro x _
    exact ⟨_, (GenInv.grad_iff ..).2 ⟨_, (TOD.grad_iff ..).2 rfl, rfl⟩⟩
  · intro x s d z' h
    obtain ⟨r, h1, -, rfl⟩ := (GenInv.returns_gradient ..).1 h
    exact C10_statevars C10 C01 C11 C20 C30 b z _ _ _ _ _ h1
  · have h1 := C14_hessian_partial S f hS g hg _ z _ (C10_hessian C10 C01 C11 C20 C30 b z)
      fun I1 I2 I3 => (tod_third C10 C01 C11 C20 C30 b I1 I2 I3 z).1
    intro x x' t₀ d H hx hm hd hH
    exact h1 x x' t₀ d H (hx.mono fun t ht => ⟨ht, trivial⟩) hm hd hH

/-- C22 for third-order-deformation materials: gradient and hessian agree. -/
theorem C22_third_order (C10 C01 C11 C20 C30 : ℝ) (b : Bool) {c : Vec6 ℝ} {C : Ten2 ℝ} (hc : Stores c C)
    (hC : PosDef C) (hsep : Separated C) (s : InvSt ℝ Unit) (s' : StrSt (GenSt Unit)) :
    ∃ g, GenInv.init (deformationFun 2) = .ok g ∧
      (∃ r, Returns ((Invariants.material (TOD.init C10 C01 C11 C20 C30 b).mat).gradient c z) s r ∧
        Returns ((generalizedFramework lapack g (TOD.init C10 C01 C11 C20 C30 b).mat).gradient c z) s' r) ∧
      ∀ M, Returns ((Invariants.material (TOD.init C10 C01 C11 C20 C30 b).mat).hessian c z) s M →
        Returns ((generalizedFramework lapack g (TOD.init C10 C01 C11 C20 C30 b).mat).hessian c z) s' M := by
  obtain ⟨⟨g, hg⟩, -, -⟩ := C13_init_deformation (k := 2) two_ne_zero
  refine ⟨g, hg, ?_, fun M hM => ?_⟩
  · have h1 : Returns ((Invariants.material (Z := Z) (TOD.init C10 C01 C11 C20 C30 b).mat).gradient c z) s _ :=
      (Invariants.returns_gradient ..).2 ⟨_, congrArg (fun r => (PyM.lift r () : _ × Unit).1)
        (TOD.gradient_eq _ _ _ _ z), rfl, rfl⟩
    exact ⟨_, h1, (C22_gradient lapack hl hg _ z hc hC s s' rfl _).1 h1⟩
  · exact C22_hessian lapack hl hg _ z (C10_statevars C10 C01 C11 C20 C30 b z) (C35_third_order _)
      (fun I1 I2 I3 => (tod_third C10 C01 C11 C20 C30 b I1 I2 I3 z).1)
      (fun I1 I2 I3 => (tod_third C10 C01 C11 C20 C30 b I1 I2 I3 z).2) hc hC hsep s s' M hM

end Props
