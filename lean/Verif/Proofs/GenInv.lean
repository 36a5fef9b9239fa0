import Verif.Spec.Measures
import Verif.Proofs.Stretches
import Verif.Proofs.InvFramework

/-! The `GeneralizedInvariantsModel`: chain rule. -/

namespace Hel
open Spec Filter Topology

variable {Z μ : Type}

namespace GenInv

/-- normalized invariants -/
noncomputable def J (g : GenInv) (l : Vec3 ℝ) : Fin 3 → ℝ := ![g.J1 (g.ev l), g.J2 (g.ev l), J3 (g.ev l)]

/-- their derivatives -/
noncomputable def dJ (g : GenInv) (l : Vec3 ℝ) (k a : Fin 3) : ℝ :=
  (![g.c1, g.dJ2 (g.ev l) a, dJ3 (g.ev l) a] : Fin 3 → ℝ) k * g.dev l a

theorem moves_ev {g : GenInv} {f : ℝ → ℝ} (hS : Measures g.strain f) {x : ℝ → Fin 3 → ℝ} {x' : Fin 3 → ℝ} {t₀ : ℝ}
    (hx : ∀ᶠ t in 𝓝 t₀, ∀ a, 0 < x t a) (hm : Moves3 x x' t₀) :
    Moves3 (fun t => g.ev (x t)) (fun a => g.dev (x t₀) a * x' a) t₀ := fun a => by
  have h0 := hx.self_of_nhds a
  refine ((hS.first _ h0).comp t₀ (hm a)).congr_of_eventuallyEq (hx.mono fun t ht => ?_)
  exact hS.value _ (ht a)

theorem moves_dev {g : GenInv} {f : ℝ → ℝ} (hS : Measures g.strain f) {x : ℝ → Fin 3 → ℝ} {x' : Fin 3 → ℝ} {t₀ : ℝ}
    (h0 : ∀ a, 0 < x t₀ a) (hm : Moves3 x x' t₀) :
    Moves3 (fun t => g.dev (x t)) (fun a => g.d2ev (x t₀) a * x' a) t₀ := fun a =>
  HasDerivAt.comp (h₂ := fun y => (g.strain.eval y).dE) t₀ (hS.second _ (h0 a)) (hm a)

theorem moves_J {g : GenInv} {f : ℝ → ℝ} (hS : Measures g.strain f) {x : ℝ → Fin 3 → ℝ} {x' : Fin 3 → ℝ} {t₀ : ℝ}
    (hx : ∀ᶠ t in 𝓝 t₀, ∀ a, 0 < x t a) (hm : Moves3 x x' t₀) :
    Moves3 (fun t => g.J (x t)) (fun k => ∑ a, g.dJ (x t₀) k a * x' a) t₀ := by
  have he := moves_ev hS hx hm
  intro k
  fin_cases k
  · refine ((((((he 0).add (he 1)).add (he 2))).const_mul g.c1).sub_const (g.I10 * (g.c1 - 1))).congr_deriv ?_
    simp [dJ, Fin.sum_univ_three]; ring
  · refine (((((he 0).mul (he 1)).add ((he 1).mul (he 2))).add ((he 2).mul (he 0))).const_mul g.c2 |>.sub_const
      (g.I20 * (g.c2 - 1))).congr_deriv ?_
    simp [dJ, dJ2, take, Fin.sum_univ_three]; ring
  · refine (((he 0).mul (he 1)).mul (he 2)).congr_deriv ?_
    simp [dJ, dJ3, take, Fin.sum_univ_three]; ring

theorem gradPure_eq (g : GenInv) (l : Vec3 ℝ) (r : InvGrad ℝ Z) (a : Fin 3) :
    gradPure g l r a = ∑ k, InvGrad.vec r k * g.dJ l k a := by
  rcases r with ⟨d1, d2, d3, z⟩
  rcases d1 with _ | d1 <;> rcases d2 with _ | d2 <;> rcases d3 with _ | d3 <;>
    simp [gradPure, addVec, InvGrad.vec, dJ, Fin.sum_univ_three] <;> ring

theorem grad_iff (g : GenInv) (mat : InvMat ℝ Z μ) (z : Z) (l d : Vec3 ℝ) :
    StrMat.Grad (g.mat mat) z l d ↔
      ∃ w, InvMat.Grad mat z (g.J l) w ∧ d = fun a => ∑ k, w k * g.dJ l k a := by
  constructor
  · rintro ⟨s, z', h⟩
    obtain ⟨r, h1, rfl, rfl⟩ := (returns_gradient ..).1 h
    refine ⟨InvGrad.vec r, ⟨s.material, r, h1, rfl⟩, ?_⟩
    funext a; exact gradPure_eq g l r a
  · rintro ⟨w, ⟨s, r, h1, rfl⟩, rfl⟩
    refine ⟨{ material := s }, r.sv, (returns_gradient ..).2 ⟨r, h1, ?_, rfl⟩⟩
    funext a; exact (gradPure_eq g l r a).symm

/-- the third index -/
def third : Fin 3 → Fin 3 → Fin 3 := ![![0, 2, 1], ![2, 1, 0], ![1, 0, 2]]

/-- second derivatives of the invariants with respect to the strains, times the slopes; on the
diagonal times the curvature of the measure -/
noncomputable def d2J (g : GenInv) (l : Vec3 ℝ) (k a b : Fin 3) : ℝ :=
  if a = b then (![g.c1, g.dJ2 (g.ev l) a, dJ3 (g.ev l) a] : Fin 3 → ℝ) k * g.d2ev l a
  else (![0, g.c2, g.ev l (third a b)] : Fin 3 → ℝ) k * (g.dev l a * g.dev l b)

theorem moves_dJ {g : GenInv} {f : ℝ → ℝ} (hS : Measures g.strain f) {x : ℝ → Fin 3 → ℝ} {x' : Fin 3 → ℝ} {t₀ : ℝ}
    (hx : ∀ᶠ t in 𝓝 t₀, ∀ a, 0 < x t a) (hm : Moves3 x x' t₀) (k a : Fin 3) :
    HasDerivAt (fun t => g.dJ (x t) k a) (∑ b, g.d2J (x t₀) k a b * x' b) t₀ := by
  have he := moves_ev hS hx hm
  have hd := moves_dev hS hx.self_of_nhds hm
  fin_cases k
  · refine ((hd a).const_mul g.c1).congr_deriv ?_
    fin_cases a <;> simp [d2J, Fin.sum_univ_three] <;> ring
  · fin_cases a
    · refine ((((he 1).add (he 2)).const_mul g.c2).mul (hd 0)).congr_deriv ?_
      simp [d2J, dJ2, take, Fin.sum_univ_three]; ring
    · refine ((((he 0).add (he 2)).const_mul g.c2).mul (hd 1)).congr_deriv ?_
      simp [d2J, dJ2, take, Fin.sum_univ_three]; ring
    · refine ((((he 0).add (he 1)).const_mul g.c2).mul (hd 2)).congr_deriv ?_
      simp [d2J, dJ2, take, Fin.sum_univ_three]; ring
  · fin_cases a
    · refine (((he 1).mul (he 2)).mul (hd 0)).congr_deriv ?_
      simp [d2J, dJ3, take, third, Fin.sum_univ_three]; ring
    · refine (((he 0).mul (he 2)).mul (hd 1)).congr_deriv ?_
      simp [d2J, dJ3, take, third, Fin.sum_univ_three]; ring
    · refine (((he 0).mul (he 1)).mul (hd 2)).congr_deriv ?_
      simp [d2J, dJ3, take, third, Fin.sum_univ_three]; ring

/-- what the code uses instead of the third strain -/
noncomputable def lit : Fin 3 → Fin 3 → ℝ := ![![0, 2, 1], ![2, 0, 0], ![1, 0, 0]]

theorem addVec_eq {n : ℕ} (acc : Fin n → ℝ) (d : Option ℝ) (x : Fin n → ℝ) :
    addVec acc d x = fun a => acc a + d.getD 0 * x a := by
  cases d <;> simp [addVec]

theorem hessPure_eq (g : GenInv) (l : Vec3 ℝ) (r : InvGrad ℝ Z) (h : InvHess ℝ) (a b : Fin 3) :
    StrHess.mat (.array (hessPure g l r h)) a b =
      ∑ k, ∑ j, InvHess.mat h k j * g.dJ l k a * g.dJ l j b + ∑ k, InvGrad.vec r k * g.d2J l k a b +
      (if a = b then 0 else r.d3.getD 0 * (lit a b - g.ev l (third a b)) * (g.dev l a * g.dev l b)) := by
  unfold hessPure
  simp only [addVec_eq, StrHess.mat, StrHess.vec, InvHess.mat, InvGrad.vec, Fin.sum_univ_three, dJ, d2J, addTail, addHead, ia,
    ib, lit, third]
  rcases r with ⟨d1, d2, d3, z⟩
  rcases d1 with _ | d1 <;> rcases d2 with _ | d2 <;> rcases d3 with _ | d3 <;>
    fin_cases a <;> fin_cases b <;> simp <;> ring

theorem hess_elim {g : GenInv} {mat : InvMat ℝ Z μ} {z : Z} {l : Vec3 ℝ} {h : Fin 3 → Fin 3 → ℝ}
    (hh : StrMat.Hess (g.mat mat) z l h) : ∃ (r : InvGrad ℝ Z) (k : InvHess ℝ) (s m : μ),
      Returns (mat.gradient (g.J l 0) (g.J l 1) (g.J l 2) z) s r ∧
      Returns (mat.hessian (g.J l 0) (g.J l 1) (g.J l 2) z) m k ∧
      h = StrHess.mat (.array (hessPure g l r k)) := by
  obtain ⟨s, H, h1, rfl⟩ := hh
  obtain ⟨r, m, k, h2, h3, rfl⟩ := (returns_hessian ..).1 h1
  exact ⟨r, k, s.material, m, by rw [Returns]; exact congrArg Prod.fst h2, h3, rfl⟩

theorem init_ok {S : StrainFun} {g : GenInv} (h : GenInv.init S = .ok g) {f : ℝ → ℝ} (hS : Measures S f) :
    g.strain = S ∧ g.c1 = coef1 S ∧ g.c2 = coef2 S ∧ g.I10 = 3 * f 1 ∧ g.I20 = 3 * f 1 ^ 2 ∧
    ddJ1 (S.eval 1).dE (S.eval 1).d2E ≠ 0 ∧ ddJ2 (S.eval 1).E (S.eval 1).dE (S.eval 1).d2E ≠ 0 := by
  unfold GenInv.init at h
  rcases hm : S.at1 with e | m
  · rw [hm] at h; cases h
  · rw [hm] at h
    obtain rfl := hS.one m hm
    have hv := hS.value 1 one_pos
    simp only [Bind.bind, Except.bind, pyDiv] at h
    by_cases h1 : 3 / 2 * ((S.eval 1).d2E + (S.eval 1).dE) = 0
    · rw [if_pos h1] at h; cases h
    rw [if_neg h1] at h
    simp only at h
    by_cases h2 : 3 * ((S.eval 1).d2E + (S.eval 1).dE) * (S.eval 1).E - 3 / 2 * (S.eval 1).dE ^ 2 = 0
    · rw [if_pos h2] at h; cases h
    rw [if_neg h2] at h
    cases h
    have e2 : ∀ e e' e'' : ℝ, ddJ2 e e' e'' = 3 * (e'' + e') * e - 3 / 2 * e' ^ 2 := by
      intro e e' e''; unfold ddJ2; ring
    refine ⟨rfl, rfl, ?_, ?_, ?_, h1, ?_⟩
    · simp only [coef2, e2]
    · simp only [hv]
    · simp only [hv]
    · rw [e2]; exact h2

theorem J_doc {S : StrainFun} {g : GenInv} (h : GenInv.init S = .ok g) {f : ℝ → ℝ} (hS : Measures S f)
    {l : Fin 3 → ℝ} (hl : ∀ a, 0 < l a) : g.J l = genInvariants f (coef1 S) (coef2 S) l := by
  obtain ⟨h1, h2, h3, h4, h5, -, -⟩ := init_ok h hS
  have he : ∀ a, g.ev l a = f (l a) := fun a => by
    unfold ev; rw [h1]; exact hS.value _ (hl a)
  simp only [J, genInvariants, J1, J2, J3, he, h2, h3, h4, h5]
  congr 1
  · ring
  · congr 1; ring

end GenInv

end Hel
