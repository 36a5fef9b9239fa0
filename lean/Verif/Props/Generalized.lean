import Verif.Proofs.GenInv
import Verif.Props.Models

/-! # Properties C13-C15: the `GeneralizedInvariantsModel` -/

namespace Props
open Spec Hel Filter Topology

variable {Z μ : Type}

/-! ### The measures of the package -/

/-- `strain` with exponent `k ≠ 0` is `(λ^k - 1)/k` with its derivatives. -/
theorem measures_strain {k : ℝ} (hk : k ≠ 0) : Measures (strainFun k) fun x => (x ^ k - 1) / k where
  value x _ := rfl
  first x hx := by
    refine (((Real.hasDerivAt_rpow_const (p := k) (Or.inl hx.ne')).sub_const 1).div_const k).congr_deriv ?_
    simp only [strainFun, strainEval]; field_simp
  second x hx := by
    refine (Real.hasDerivAt_rpow_const (p := k - 1) (Or.inl hx.ne')).congr_deriv ?_
    simp only [strainFun, strainEval]; ring_nf
  one m h := by
    simp only [strainFun, if_neg hk] at h
    exact (Except.ok.inj h).symm

/-- `deformation` with exponent `k` is `λ^k` with its derivatives. -/
theorem measures_deformation (k : ℝ) : Measures (deformationFun k) fun x => x ^ k where
  value x _ := rfl
  first x hx := Real.hasDerivAt_rpow_const (Or.inl hx.ne')
  second x hx := by
    refine ((Real.hasDerivAt_rpow_const (p := k - 1) (Or.inl hx.ne')).const_mul k).congr_deriv ?_
    simp only [deformationFun, deformationEval]; ring_nf
  one m h := (Except.ok.inj h).symm

/-- With a non-zero exponent the constructor returns; the coefficients of normalization are
`2/k` and `1` for the strain and `4/k²` for the deformation measure. -/
theorem C13_init_strain {k : ℝ} (hk : k ≠ 0) :
    (∃ g, GenInv.init (strainFun k) = .ok g) ∧ coef1 (strainFun k) = 2 / k ∧ coef2 (strainFun k) = 1 := by
  refine ⟨?_, ?_, ?_⟩
  · simp [GenInv.init, strainFun, strainEval, hk, pyDiv, Bind.bind, Except.bind]
  · simp [coef1, ddJ1, strainFun, strainEval]; field_simp
  · simp [coef2, ddJ2, strainFun, strainEval]

/-- The coefficients of the deformation measures `λ ^ k` (`k ≠ 0`) are `4 / k²`, and the constructor returns. -/
theorem C13_init_deformation {k : ℝ} (hk : k ≠ 0) :
    (∃ g, GenInv.init (deformationFun k) = .ok g) ∧ coef1 (deformationFun k) = 4 / k ^ 2 ∧
      coef2 (deformationFun k) = 4 / k ^ 2 := by
  have h1 : 3 / 2 * (k * (k - 1) + k) ≠ 0 := by
    rw [show 3 / 2 * (k * (k - 1) + k) = 3 / 2 * k ^ 2 by ring]; positivity
  have h2 : 3 * (k * (k - 1) + k) - 3 / 2 * k ^ 2 ≠ 0 := by
    rw [show 3 * (k * (k - 1) + k) - 3 / 2 * k ^ 2 = 3 / 2 * k ^ 2 by ring]; positivity
  refine ⟨?_, ?_, ?_⟩
  · simp only [GenInv.init, deformationFun, deformationEval, Real.one_rpow, mul_one, pyDiv, Bind.bind, Except.bind, if_neg h1,
      if_neg h2]
    exact ⟨_, rfl⟩
  · simp only [coef1, ddJ1, deformationFun, deformationEval, Real.one_rpow, mul_one]
    rw [show 3 / 2 * (k * (k - 1) + k) = 3 / 2 * k ^ 2 by ring]; field_simp; norm_num
  · simp only [coef2, ddJ2, deformationFun, deformationEval, Real.one_rpow, mul_one]
    rw [show 3 / 2 * (2 * (k * (k - 1) + k) - k ^ 2) = 3 / 2 * k ^ 2 by ring]; field_simp; norm_num

/-- With the exponent zero the constructor raises `ZeroDivisionError`. -/
theorem C13_init_zero : GenInv.init (strainFun 0) = .error .zeroDivision ∧
    GenInv.init (deformationFun 0) = .error .zeroDivision := by
  constructor
  · simp [GenInv.init, strainFun, Bind.bind, Except.bind]
  · simp [GenInv.init, deformationFun, deformationEval, pyDiv, Bind.bind, Except.bind]

/-! ## C13 -/

/-- The gradient is the derivative of `ψ`, evaluated at the documented normalized invariants of
the measure, with respect to the stretches: for every model with the derivatives of `ψ` and every
measure with its derivative for which the constructor returns. -/
theorem C13_gradient (S : StrainFun) (f : ℝ → ℝ) (hS : Measures S f) (g : GenInv)
    (hg : GenInv.init S = .ok g) (mat : InvMat ℝ Z μ) (z : Z) (D : (Fin 3 → ℝ) → Prop) (ψ : (Fin 3 → ℝ) → ℝ)
    (h : IsGradient3 D ψ (InvMat.Grad mat z)) :
    IsGradient3 (GenDom D f (coef1 S) (coef2 S)) (fun l => ψ (genInvariants f (coef1 S) (coef2 S) l))
      (StrMat.Grad (g.mat mat) z) := by
  intro x x' t₀ d hx hm hd
  have hgs := (GenInv.init_ok hg hS).1
  have hp : ∀ᶠ t in 𝓝 t₀, ∀ a, 0 < x t a := hx.mono fun t ht => ht.1
  obtain ⟨w, hw, rfl⟩ := (GenInv.grad_iff ..).1 hd
  have h1 := h (fun t => g.J (x t)) _ t₀ w (hx.mono fun t ht => by
    rw [GenInv.J_doc hg hS ht.1]; exact ht.2) (GenInv.moves_J (hgs ▸ hS) hp hm) hw
  refine (h1.congr_of_eventuallyEq (hp.mono fun t ht => ?_)).congr_deriv ?_
  · simp only [GenInv.J_doc hg hS ht]
  · simp only [Fin.sum_univ_three]; ring

/-- The hypotheses of C13 hold for the Mooney-Rivlin solid and the deformation measure with the
exponent `-2`. -/
example : ∃ g, GenInv.init (deformationFun (-2)) = .ok g ∧
    IsGradient3 (GenDom (fun _ => True) (fun x => x ^ (-2 : ℝ)) 1 1)
      (fun l => todEnergy 1 2 0 0 0 3 (genInvariants (fun x => x ^ (-2 : ℝ)) 1 1 l))
      (StrMat.Grad (g.mat (TOD.init 1 2 0 0 0 false).mat) ()) := by
  obtain ⟨⟨g, hg⟩, h1, h2⟩ := C13_init_deformation (k := -2) (by norm_num)
  norm_num at h1 h2
  have := C13_gradient _ _ (measures_deformation (-2)) g hg _ () _ _ (C10_gradient 1 2 0 0 0 false ())
  rw [h1, h2] at this
  exact ⟨g, hg, this⟩

/-! ## C14 -/

/-- The full statement of C14. -/
def C14_Full : Prop :=
  ∀ (Z μ : Type) (S : StrainFun) (f : ℝ → ℝ), Measures S f → ∀ g, GenInv.init S = .ok g →
    ∀ (mat : InvMat ℝ Z μ) (z : Z) (D : (Fin 3 → ℝ) → Prop), IsHessian3 D (InvMat.Grad mat z) (InvMat.Hess mat z) →
    IsHessian3 (GenDom D f (coef1 S) (coef2 S)) (StrMat.Grad (g.mat mat) z) (StrMat.Hess (g.mat mat) z)

/-- C14 for the models which do not depend on the third invariant.  Missing: models with a
non-zero `dWdI3`, for which the claim is false, see `C14_hessian_false`. -/
theorem C14_hessian_partial (S : StrainFun) (f : ℝ → ℝ) (hS : Measures S f) (g : GenInv)
    (hg : GenInv.init S = .ok g) (mat : InvMat ℝ Z μ) (z : Z) (D : (Fin 3 → ℝ) → Prop)
    (h : IsHessian3 D (InvMat.Grad mat z) (InvMat.Hess mat z))
    (h3 : ∀ I1 I2 I3 s r, Returns (mat.gradient I1 I2 I3 z) s r → r.d3.getD 0 = 0) :
    IsHessian3 (GenDom D f (coef1 S) (coef2 S)) (StrMat.Grad (g.mat mat) z) (StrMat.Hess (g.mat mat) z) := by
  intro x x' t₀ G H hx hm hG hH
  have hgs := (GenInv.init_ok hg hS).1
  have hS' : Measures g.strain f := hgs ▸ hS
  have hp : ∀ᶠ t in 𝓝 t₀, ∀ a, 0 < x t a := hx.mono fun t ht => ht.1
  have hD : ∀ᶠ t in 𝓝 t₀, D (g.J (x t)) := hx.mono fun t ht => by
    rw [GenInv.J_doc hg hS ht.1]; exact ht.2
  obtain ⟨r, k, s, m, h1, h2, rfl⟩ := GenInv.hess_elim hH
  have hG' : ∀ᶠ t in 𝓝 t₀, ∃ w, InvMat.Grad mat z (g.J (x t)) w ∧ G t = fun a => ∑ k, w k * g.dJ (x t) k a :=
    hG.mono fun t ht => (GenInv.grad_iff ..).1 ht
  obtain ⟨w, hw⟩ := hG'.choice
  have hk : InvMat.Hess mat z (g.J (x t₀)) (InvHess.mat k) := ⟨m, k, h2, rfl⟩
  have hw0 : w t₀ = InvGrad.vec r := h.unique hD.self_of_nhds hw.self_of_nhds.1 ⟨s, r, h1, rfl⟩ hk
  have hJ := GenInv.moves_J hS' hp hm
  have hmw := h _ _ _ w _ hD hJ (hw.mono fun t ht => ht.1) hk
  have h30 : r.d3.getD 0 = 0 := h3 _ _ _ _ _ h1
  intro a
  have key : HasDerivAt (fun t => ∑ k, w t k * g.dJ (x t) k a) (∑ j, ((∑ b, InvHess.mat k j b *
      ∑ c, g.dJ (x t₀) b c * x' c) * g.dJ (x t₀) j a + w t₀ j * ∑ b, g.d2J (x t₀) j a b * x' b)) t₀ :=
    HasDerivAt.fun_sum fun j _ => (hmw j).mul (GenInv.moves_dJ hS' hp hm j a)
  refine (key.congr_of_eventuallyEq (hw.mono fun t ht => ?_)).congr_deriv ?_
  · simp only [ht.2]
  · simp only [GenInv.hessPure_eq, h30, hw0]
    simp only [Fin.sum_univ_three]
    split_ifs <;> ring

/-- The exact error of the hessian for every model: in the mixed second derivative with respect to the stretches `a ≠ b`
the code has the *index* `γ` of the third principal direction in the place of the strain `f(λ_γ)`.  `r` is what the model's
`gradient` has returned. -/
theorem C14_error (S : StrainFun) (f : ℝ → ℝ) (hS : Measures S f) (g : GenInv)
    (hg : GenInv.init S = .ok g) (mat : InvMat ℝ Z μ) (z : Z) (D : (Fin 3 → ℝ) → Prop)
    (h : IsHessian3 D (InvMat.Grad mat z) (InvMat.Hess mat z))
    (x : ℝ → Fin 3 → ℝ) (x' : Fin 3 → ℝ) (t₀ : ℝ) (G : ℝ → Fin 3 → ℝ) (H : Fin 3 → Fin 3 → ℝ)
    (hx : ∀ᶠ t in 𝓝 t₀, GenDom D f (coef1 S) (coef2 S) (x t)) (hm : Moves3 x x' t₀)
    (hG : ∀ᶠ t in 𝓝 t₀, StrMat.Grad (g.mat mat) z (x t) (G t)) (hH : StrMat.Hess (g.mat mat) z (x t₀) H) :
    ∃ s r, Returns (mat.gradient (genInvariants f (coef1 S) (coef2 S) (x t₀) 0)
        (genInvariants f (coef1 S) (coef2 S) (x t₀) 1) (genInvariants f (coef1 S) (coef2 S) (x t₀) 2) z) s r ∧
      Moves3 G (fun a => ∑ b, (H a b - if a = b then 0 else
        r.d3.getD 0 * (((-(a + b) : Fin 3).val : ℝ) - f (x t₀ (-(a + b)))) * (deriv f (x t₀ a) * deriv f (x t₀ b))) * x' b) t₀ := by
  have hgs := (GenInv.init_ok hg hS).1
  have hS' : Measures g.strain f := hgs ▸ hS
  have hp : ∀ᶠ t in 𝓝 t₀, ∀ a, 0 < x t a := hx.mono fun t ht => ht.1
  have hp0 := hp.self_of_nhds
  have hD : ∀ᶠ t in 𝓝 t₀, D (g.J (x t)) := hx.mono fun t ht => by
    rw [GenInv.J_doc hg hS ht.1]; exact ht.2
  obtain ⟨r, k, s, m, h1, h2, rfl⟩ := GenInv.hess_elim hH
  have h1' := h1
  rw [GenInv.J_doc hg hS hp0] at h1'
  refine ⟨s, r, h1', ?_⟩
  have hG' : ∀ᶠ t in 𝓝 t₀, ∃ w, InvMat.Grad mat z (g.J (x t)) w ∧ G t = fun a => ∑ k, w k * g.dJ (x t) k a :=
    hG.mono fun t ht => (GenInv.grad_iff ..).1 ht
  obtain ⟨w, hw⟩ := hG'.choice
  have hk : InvMat.Hess mat z (g.J (x t₀)) (InvHess.mat k) := ⟨m, k, h2, rfl⟩
  have hw0 : w t₀ = InvGrad.vec r := h.unique hD.self_of_nhds hw.self_of_nhds.1 ⟨s, r, h1, rfl⟩ hk
  have hJ := GenInv.moves_J hS' hp hm
  have hmw := h _ _ _ w _ hD hJ (hw.mono fun t ht => ht.1) hk
  have hev : ∀ a, g.ev (x t₀) a = f (x t₀ a) := fun a => by
    unfold GenInv.ev; exact hS'.value _ (hp0 a)
  have hdev : ∀ a, g.dev (x t₀) a = deriv f (x t₀ a) := fun a => ((hS'.first _ (hp0 a)).deriv).symm
  intro a
  have key : HasDerivAt (fun t => ∑ k, w t k * g.dJ (x t) k a) (∑ j, ((∑ b, InvHess.mat k j b *
      ∑ c, g.dJ (x t₀) b c * x' c) * g.dJ (x t₀) j a + w t₀ j * ∑ b, g.d2J (x t₀) j a b * x' b)) t₀ :=
    HasDerivAt.fun_sum fun j _ => (hmw j).mul (GenInv.moves_dJ hS' hp hm j a)
  refine (key.congr_of_eventuallyEq (hw.mono fun t ht => ?_)).congr_deriv ?_
  · simp only [ht.2]
  · have e : ∀ b, a ≠ b → r.d3.getD 0 * (GenInv.lit a b - g.ev (x t₀) (GenInv.third a b)) * (g.dev (x t₀) a * g.dev (x t₀) b) =
        r.d3.getD 0 * (((-(a + b) : Fin 3).val : ℝ) - f (x t₀ (-(a + b)))) * (deriv f (x t₀ a) * deriv f (x t₀ b)) := by
      intro b hab
      rw [hev, hdev, hdev]
      have e1 : ∀ a b : Fin 3, a ≠ b → GenInv.third a b = -(a + b) := by decide
      have e2 : ∀ a b : Fin 3, a ≠ b → GenInv.lit a b = ((GenInv.third a b).val : ℝ) := by
        intro a b hab
        fin_cases a <;> fin_cases b <;> simp [GenInv.lit, GenInv.third] at hab ⊢
      rw [e2 a b hab, e1 a b hab]
    have e' : ∀ b, (StrHess.mat (.array (GenInv.hessPure g (x t₀) r k)) a b - if a = b then 0 else
        r.d3.getD 0 * (((-(a + b) : Fin 3).val : ℝ) - f (x t₀ (-(a + b)))) * (deriv f (x t₀ a) * deriv f (x t₀ b))) =
        ∑ k', ∑ j, InvHess.mat k k' j * g.dJ (x t₀) k' a * g.dJ (x t₀) j b + ∑ k', InvGrad.vec r k' * g.d2J (x t₀) k' a b := by
      intro b
      rw [GenInv.hessPure_eq]
      by_cases hab : a = b
      · simp only [hab, if_true, add_zero, sub_zero]
      · simp only [hab, if_false, e b hab, add_sub_cancel_right]
    simp only [e', hw0]
    simp only [Fin.sum_univ_three]
    ring

/-- The model `ψ = I₃`. -/
def thirdMat : InvMat ℝ Unit Unit where
  gradient _ _ _ z := PyM.ret ⟨none, none, some 1, z⟩
  hessian _ _ _ _ := PyM.ret ⟨none, none, none, none, none, none⟩

theorem thirdMat_grad (x g : Fin 3 → ℝ) : InvMat.Grad thirdMat () x g ↔ g = ![0, 0, 1] := by
  constructor
  · rintro ⟨s, r, hr, rfl⟩
    simp only [Returns, thirdMat, PyM.ret, Except.ok.injEq] at hr
    rw [← hr]; rfl
  · rintro rfl
    exact ⟨(), _, rfl, rfl⟩

theorem thirdMat_hess (x : Fin 3 → ℝ) (h : Fin 3 → Fin 3 → ℝ) : InvMat.Hess thirdMat () x h ↔ h = 0 := by
  have e : InvHess.mat (⟨none, none, none, none, none, none⟩ : InvHess ℝ) = 0 := by
    funext i j; fin_cases i <;> fin_cases j <;> rfl
  constructor
  · rintro ⟨s, r, hr, rfl⟩
    simp only [Returns, thirdMat, PyM.ret, Except.ok.injEq] at hr
    rw [← hr, e]
  · rintro rfl
    exact ⟨(), _, rfl, e.symm⟩

/-- The full statement is false: for `ψ = I₃` and the deformation measure with exponent one the
returned mixed second derivative at `λ = (1, 1, 1)` is `2` instead of `λ₃ = 1`. -/
theorem C14_hessian_false : ¬ C14_Full := by
  intro H
  obtain ⟨⟨g, hg⟩, -, -⟩ := C13_init_deformation (k := 1) one_ne_zero
  have hS := measures_deformation 1
  obtain ⟨hgs, -⟩ := GenInv.init_ok hg hS
  have hthird : IsHessian3 (fun _ => True) (InvMat.Grad thirdMat ()) (InvMat.Hess thirdMat ()) := by
    intro x x' t₀ w h _ _ hw hh a
    obtain rfl := (thirdMat_hess _ _).1 hh
    refine ((hasDerivAt_const t₀ ((![0, 0, 1] : Fin 3 → ℝ) a)).congr_of_eventuallyEq
      (hw.mono fun t ht => ?_)).congr_deriv (by simp)
    rw [(thirdMat_grad _ _).1 ht]
  have hfull := H Unit Unit _ _ hS g hg thirdMat () (fun _ => True) hthird
  -- the motion
  let x : ℝ → Fin 3 → ℝ := fun t => ![1 + t, 1, 1]
  have hx0 : ∀ᶠ t in 𝓝 (0 : ℝ), ∀ a, 0 < x t a := by
    filter_upwards [Ioi_mem_nhds (show (-1 : ℝ) < 0 by norm_num)] with t ht a
    fin_cases a
    · show 0 < 1 + t
      have : (-1 : ℝ) < t := ht
      linarith
    · exact one_pos
    · exact one_pos
  have hxm : Moves3 x ![1, 0, 0] 0 := by
    intro a
    fin_cases a
    · exact (hasDerivAt_id (0 : ℝ)).const_add 1
    · exact hasDerivAt_const (0 : ℝ) (1 : ℝ)
    · exact hasDerivAt_const (0 : ℝ) (1 : ℝ)
  have hG : ∀ t, StrMat.Grad (g.mat thirdMat) () (x t) (fun a => ∑ k, (![0, 0, 1] : Fin 3 → ℝ) k * g.dJ (x t) k a) :=
    fun t => (GenInv.grad_iff ..).2 ⟨_, (thirdMat_grad _ _).2 rfl, rfl⟩
  have hH : StrMat.Hess (g.mat thirdMat) () (x 0) (StrHess.mat (.array (GenInv.hessPure g (x 0)
      (⟨none, none, some 1, ()⟩ : InvGrad ℝ Unit) ⟨none, none, none, none, none, none⟩))) :=
    ⟨{ material := () }, _, (GenInv.returns_hessian ..).2 ⟨_, (), _, rfl, rfl, rfl⟩, rfl⟩
  have h1 := hfull x ![1, 0, 0] 0 _ _ (hx0.mono fun t ht => ⟨ht, trivial⟩) hxm (.of_forall hG) hH 1
  have hev : ∀ (l : Fin 3 → ℝ), g.ev l = l := fun l => by
    funext a; simp only [GenInv.ev, hgs, deformationFun, deformationEval, Real.rpow_one]
  have hdev : ∀ (l : Fin 3 → ℝ), g.dev l = fun _ => 1 := fun l => by
    funext a; simp [GenInv.dev, hgs, deformationFun, deformationEval]
  have h2 : HasDerivAt (fun t => ∑ k, (![0, 0, 1] : Fin 3 → ℝ) k * g.dJ (x t) k 1) 1 0 := by
    refine ((hasDerivAt_id (0 : ℝ)).const_add 1).congr_of_eventuallyEq (.of_forall fun t => ?_)
    simp [Fin.sum_univ_three, GenInv.dJ, GenInv.dJ3, hev, hdev, take, x]
  have h3 := h1.unique h2
  simp [Fin.sum_univ_three, StrHess.mat, StrHess.vec, GenInv.hessPure, GenInv.addVec, GenInv.addTail, GenInv.addHead, hdev,
    GenInv.ia, GenInv.ib] at h3

/-! ## C15 -/

/-- Principal stretches of incompressible uniaxial tension. -/
noncomputable def uniaxialStretches (l : ℝ) : Fin 3 → ℝ := ![l, l ^ (-1 / 2 : ℝ), l ^ (-1 / 2 : ℝ)]

/-- The force per undeformed area of incompressible uniaxial tension: `dψ/dλ₁ - λ^(-3/2) dψ/dλ₂`,
from what the model returns. -/
def UniaxialForce (mat : StrMat Z μ) (z : Z) (P : ℝ → ℝ) : Prop :=
  ∀ᶠ l in 𝓝 (1 : ℝ), ∃ d, StrMat.Grad mat z (uniaxialStretches l) d ∧ P l = d 0 - l ^ (-3 / 2 : ℝ) * d 1

/-- The initial slope of the uniaxial force-stretch curve is
`ψ,₁ J''₁,ref + ψ,₂ J''₂,ref`: it depends on the model's derivatives at the undeformed state and
on the reference measure, but not on the measure. -/
theorem C15_slope (S : StrainFun) (f : ℝ → ℝ) (hS : Measures S f) (g : GenInv)
    (hg : GenInv.init S = .ok g) (mat : InvMat ℝ Z μ) (z : Z) (w : ℝ → Fin 3 → ℝ)
    (hw : ∀ᶠ l in 𝓝 (1 : ℝ), ∀ v, InvMat.Grad mat z
      (genInvariants f (coef1 S) (coef2 S) (uniaxialStretches l)) v → v = w l)
    (hc : ∀ k, ContinuousAt (fun l => w l k) 1) (h3 : ∀ l, w l 2 = 0) (P : ℝ → ℝ)
    (hP : UniaxialForce (g.mat mat) z P) :
    HasDerivAt P (w 1 0 * ddJ1 (S.eval 1).dE0 (S.eval 1).d2E0 +
      w 1 1 * ddJ2 (S.eval 1).E0 (S.eval 1).dE0 (S.eval 1).d2E0) 1 := by
  obtain ⟨hgs, hc1, hc2, -, -, hn1, hn2⟩ := GenInv.init_ok hg hS
  have hS' : Measures g.strain f := hgs ▸ hS
  have hx : ∀ᶠ l in 𝓝 (1 : ℝ), ∀ a, 0 < uniaxialStretches l a := by
    filter_upwards [Ioi_mem_nhds (show (0 : ℝ) < 1 by norm_num)] with l hl a
    have hl' : (0 : ℝ) < l := hl
    fin_cases a
    · exact hl'
    · exact Real.rpow_pos_of_pos hl' _
    · exact Real.rpow_pos_of_pos hl' _
  have hm : Moves3 uniaxialStretches ![1, -1 / 2, -1 / 2] 1 := by
    have h := Real.hasDerivAt_rpow_const (x := 1) (p := -1 / 2) (Or.inl one_ne_zero)
    rw [Real.one_rpow, mul_one] at h
    intro a
    fin_cases a
    · exact hasDerivAt_id (1 : ℝ)
    · exact h
    · exact h
  have h32 : HasDerivAt (fun l : ℝ => l ^ (-3 / 2 : ℝ)) (-3 / 2) 1 := by
    have h := Real.hasDerivAt_rpow_const (x := 1) (p := -3 / 2) (Or.inl one_ne_zero)
    rwa [Real.one_rpow, mul_one] at h
  have hu1 : uniaxialStretches 1 = fun _ => 1 := by
    funext a; fin_cases a <;> simp [uniaxialStretches]
  -- the brackets
  have hb : ∀ k, HasDerivAt (fun l => g.dJ (uniaxialStretches l) k 0 - l ^ (-3 / 2 : ℝ) * g.dJ (uniaxialStretches l) k 1)
      (∑ b, g.d2J (uniaxialStretches 1) k 0 b * ![1, -1 / 2, -1 / 2] b - (-3 / 2 * g.dJ (uniaxialStretches 1) k 1 +
        (1 : ℝ) ^ (-3 / 2 : ℝ) * ∑ b, g.d2J (uniaxialStretches 1) k 1 b * ![1, -1 / 2, -1 / 2] b)) 1 := fun k =>
    (GenInv.moves_dJ hS' hx hm k 0).sub (h32.mul (GenInv.moves_dJ hS' hx hm k 1))
  have hb0 : ∀ k, g.dJ (uniaxialStretches 1) k 0 - (1 : ℝ) ^ (-3 / 2 : ℝ) * g.dJ (uniaxialStretches 1) k 1 = 0 := by
    intro k
    rw [hu1, Real.one_rpow, one_mul]
    fin_cases k <;> simp [GenInv.dJ, GenInv.dJ2, GenInv.dJ3, GenInv.ev, GenInv.dev, take]
  -- a continuous factor times a bracket which vanishes at 1
  have key : ∀ (u b : ℝ → ℝ) (b' : ℝ), ContinuousAt u 1 → HasDerivAt b b' 1 → b 1 = 0 →
      HasDerivAt (fun l => u l * b l) (u 1 * b') 1 := by
    intro u b b' hu hb hb0
    rw [hasDerivAt_iff_tendsto_slope] at hb ⊢
    have h1 := (hu.tendsto.mono_left nhdsWithin_le_nhds).mul hb
    refine h1.congr fun l => ?_
    simp only [slope, vsub_eq_sub, hb0, mul_zero, sub_zero, smul_eq_mul]
    ring
  have hsum : HasDerivAt (fun l => ∑ k, w l k * (g.dJ (uniaxialStretches l) k 0 -
      l ^ (-3 / 2 : ℝ) * g.dJ (uniaxialStretches l) k 1)) _ 1 :=
    HasDerivAt.fun_sum fun k _ => key _ _ _ (hc k) (hb k) (hb0 k)
  refine (hsum.congr_of_eventuallyEq ?_).congr_deriv ?_
  · filter_upwards [hP, hw, hx] with l hl hwl hxl
    obtain ⟨d, hd, hPl⟩ := hl
    obtain ⟨v, hv, rfl⟩ := (GenInv.grad_iff ..).1 hd
    rw [GenInv.J_doc hg hS hxl] at hv
    rw [hPl, hwl v hv]
    simp only [Fin.sum_univ_three]; ring
  · rw [hu1]
    have e1 : ddJ1 (S.eval 1).dE0 (S.eval 1).d2E0 = g.c1 * ddJ1 (S.eval 1).dE (S.eval 1).d2E := by
      rw [hc1, coef1, div_mul_cancel₀ _ hn1]
    have e2 : ddJ2 (S.eval 1).E0 (S.eval 1).dE0 (S.eval 1).d2E0 =
        g.c2 * ddJ2 (S.eval 1).E (S.eval 1).dE (S.eval 1).d2E := by
      rw [hc2, coef2, div_mul_cancel₀ _ hn2]
    rw [e1, e2]
    simp [Fin.sum_univ_three, h3, GenInv.d2J, GenInv.dJ, GenInv.dJ2, GenInv.ev, GenInv.dev, GenInv.d2ev, take, hgs,
      ddJ1, ddJ2]
    ring

/-- C15 for the third-order deformation model: the slope is fixed by the two linear coefficients
and the reference measure, provided that the undeformed invariants of the measure are the ones
subtracted by the model. -/
theorem C15_slope_tod (S : StrainFun) (f : ℝ → ℝ) (hS : Measures S f) (g : GenInv)
    (hg : GenInv.init S = .ok g) (C10 C01 C11 C20 C30 : ℝ) (strain : Bool) (z : Z)
    (h1 : 3 * f 1 = if strain then 0 else 3) (h2 : 3 * f 1 ^ 2 = if strain then 0 else 3) (P : ℝ → ℝ)
    (hP : UniaxialForce (g.mat (TOD.init C10 C01 C11 C20 C30 strain).mat) z P) :
    HasDerivAt P (C10 * ddJ1 (S.eval 1).dE0 (S.eval 1).d2E0 +
      C01 * ddJ2 (S.eval 1).E0 (S.eval 1).dE0 (S.eval 1).d2E0) 1 := by
  let u : ℝ := if strain then 0 else 3
  let x : ℝ → Fin 3 → ℝ := fun l => genInvariants f (coef1 S) (coef2 S) (uniaxialStretches l)
  let w : ℝ → Fin 3 → ℝ := fun l => ![C10 + C11 * (x l 1 - u) + C20 * 2 * (x l 0 - u) + C30 * 3 * (x l 0 - u) ^ 2,
    C01 + C11 * (x l 0 - u), 0]
  have hf : ContinuousAt f 1 := (hS.first 1 one_pos).continuousAt
  have hp : ContinuousAt (fun l : ℝ => l ^ (-1 / 2 : ℝ)) 1 :=
    Real.continuousAt_rpow_const _ _ (Or.inl one_ne_zero)
  have hf2 : ContinuousAt (fun l : ℝ => f (l ^ (-1 / 2 : ℝ))) 1 :=
    ContinuousAt.comp (g := f) (by simpa using hf) hp
  have hx0 : ContinuousAt (fun l => x l 0) 1 :=
    ((((hf.add hf2).add hf2).sub continuousAt_const).const_mul (coef1 S)).add continuousAt_const
  have hx1 : ContinuousAt (fun l => x l 1) 1 :=
    (((((hf.mul hf2).add (hf2.mul hf2)).add (hf.mul hf2)).sub continuousAt_const).const_mul (coef2 S)).add
      continuousAt_const
  have hc : ∀ k, ContinuousAt (fun l => w l k) 1 := by
    intro k
    fin_cases k
    · exact ((continuousAt_const.add (continuousAt_const.mul (hx1.sub continuousAt_const))).add
        (continuousAt_const.mul (hx0.sub continuousAt_const))).add
        (continuousAt_const.mul ((hx0.sub continuousAt_const).pow 2))
    · exact continuousAt_const.add (continuousAt_const.mul (hx0.sub continuousAt_const))
    · exact continuousAt_const
  have h := C15_slope S f hS g hg (TOD.init C10 C01 C11 C20 C30 strain).mat z w
    (.of_forall fun l v hv => by rw [(TOD.grad_iff ..).1 hv]; rfl) hc (fun l => rfl) P hP
  have e0 : x 1 0 = u := by
    show coef1 S * (f 1 + f ((1 : ℝ) ^ (-1 / 2 : ℝ)) + f ((1 : ℝ) ^ (-1 / 2 : ℝ)) - 3 * f 1) + 3 * f 1 = u
    rw [Real.one_rpow, show f 1 + f 1 + f 1 - 3 * f 1 = 0 by ring, mul_zero, zero_add, h1]
  have e1 : x 1 1 = u := by
    show coef2 S * (f 1 * f ((1 : ℝ) ^ (-1 / 2 : ℝ)) + f ((1 : ℝ) ^ (-1 / 2 : ℝ)) * f ((1 : ℝ) ^ (-1 / 2 : ℝ)) +
      f 1 * f ((1 : ℝ) ^ (-1 / 2 : ℝ)) - 3 * f 1 ^ 2) + 3 * f 1 ^ 2 = u
    rw [Real.one_rpow, show f 1 * f 1 + f 1 * f 1 + f 1 * f 1 - 3 * f 1 ^ 2 = 0 by ring, mul_zero, zero_add, h2]
  have w0 : w 1 0 = C10 := by
    show C10 + C11 * (x 1 1 - u) + C20 * 2 * (x 1 0 - u) + C30 * 3 * (x 1 0 - u) ^ 2 = C10
    rw [e0, e1]; ring
  have w1 : w 1 1 = C01 := by
    show C01 + C11 * (x 1 0 - u) = C01
    rw [e0]; ring
  rwa [w0, w1] at h

/-- The deformation measure: slope `6 (C10 + C01)` for every non-zero exponent. -/
theorem C15_deformation {k : ℝ} (hk : k ≠ 0) (C10 C01 C11 C20 C30 : ℝ) (z : Z) :
    ∃ g, GenInv.init (deformationFun k) = .ok g ∧
      ∀ P, UniaxialForce (g.mat (TOD.init C10 C01 C11 C20 C30 false).mat) z P → HasDerivAt P (6 * (C10 + C01)) 1 := by
  obtain ⟨⟨g, hg⟩, -, -⟩ := C13_init_deformation hk
  refine ⟨g, hg, fun P hP => ?_⟩
  refine (C15_slope_tod _ _ (measures_deformation k) g hg C10 C01 C11 C20 C30 false z (by simp) (by simp) P hP).congr_deriv ?_
  simp only [deformationFun, deformationEval, ddJ1, ddJ2, Real.one_rpow]; ring

/-- The strain measure (with the strain variant of the model): slope `3 C10 - 3/2 C01` for every
non-zero exponent. -/
theorem C15_strain {k : ℝ} (hk : k ≠ 0) (C10 C01 C11 C20 C30 : ℝ) (z : Z) :
    ∃ g, GenInv.init (strainFun k) = .ok g ∧
      ∀ P, UniaxialForce (g.mat (TOD.init C10 C01 C11 C20 C30 true).mat) z P →
        HasDerivAt P (3 * C10 - 3 / 2 * C01) 1 := by
  obtain ⟨⟨g, hg⟩, -, -⟩ := C13_init_strain hk
  refine ⟨g, hg, fun P hP => ?_⟩
  refine (C15_slope_tod _ _ (measures_strain hk) g hg C10 C01 C11 C20 C30 true z (by simp) (by simp) P hP).congr_deriv ?_
  simp only [strainFun, strainEval, ddJ1, ddJ2, Real.one_rpow]; norm_num; ring

/-- Such force-stretch curves exist: the calls return for every stretch. -/
theorem C15_returns (g : GenInv) (C10 C01 C11 C20 C30 : ℝ) (b : Bool) (z : Z) :
    ∃ P, UniaxialForce (g.mat (TOD.init C10 C01 C11 C20 C30 b).mat) z P := by
  have h : ∀ l : ℝ, ∃ d, StrMat.Grad (g.mat (TOD.init C10 C01 C11 C20 C30 b).mat) z (uniaxialStretches l) d :=
    fun l => ⟨_, (GenInv.grad_iff ..).2 ⟨_, (TOD.grad_iff ..).2 rfl, rfl⟩⟩
  choose d hd using h
  exact ⟨fun l => d l 0 - l ^ (-3 / 2 : ℝ) * d l 1, .of_forall fun l => ⟨d l, hd l, rfl⟩⟩

/-- With the exponents 2 and -1 the same material has the slope 18 at the undeformed state. -/
example : ∃ g g' P P', GenInv.init (deformationFun 2) = .ok g ∧ GenInv.init (deformationFun (-1)) = .ok g' ∧
    UniaxialForce (g.mat (TOD.init 1 2 3 4 5 false).mat) () P ∧
    UniaxialForce (g'.mat (TOD.init 1 2 3 4 5 false).mat) () P' ∧ HasDerivAt P 18 1 ∧ HasDerivAt P' 18 1 := by
  obtain ⟨g, hg, h⟩ := C15_deformation (Z := Unit) (k := 2) (by norm_num) 1 2 3 4 5 ()
  obtain ⟨g', hg', h'⟩ := C15_deformation (Z := Unit) (k := -1) (by norm_num) 1 2 3 4 5 ()
  obtain ⟨P, hP⟩ := C15_returns g 1 2 3 4 5 false ()
  obtain ⟨P', hP'⟩ := C15_returns g' 1 2 3 4 5 false ()
  refine ⟨g, g', P, P', hg, hg', hP, hP', ?_, ?_⟩
  · exact (h P hP).congr_deriv (by norm_num)
  · exact (h' P' hP').congr_deriv (by norm_num)

end Props
