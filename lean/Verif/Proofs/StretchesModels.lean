import Verif.Spec.Spectral
import Verif.Proofs.GenInv
import Verif.Proofs.Models

/-! Stretch-based models which treat the stretches alike. -/

namespace Hel
open Spec

variable {Z μ : Type}

theorem perm_cases (p : Equiv.Perm (Fin 3)) :
    (p 0 = 0 ∧ p 1 = 1 ∧ p 2 = 2) ∨ (p 0 = 0 ∧ p 1 = 2 ∧ p 2 = 1) ∨ (p 0 = 1 ∧ p 1 = 0 ∧ p 2 = 2) ∨
    (p 0 = 1 ∧ p 1 = 2 ∧ p 2 = 0) ∨ (p 0 = 2 ∧ p 1 = 0 ∧ p 2 = 1) ∨ (p 0 = 2 ∧ p 1 = 1 ∧ p 2 = 0) := by
  revert p; decide

theorem Ogden.symmetric (m : Ogden) : StrMat.Symmetric (m.mat (Z := Z)) := by
  intro p x z s g z' h
  simp only [Returns, Ogden.mat, PyM.lift_run, Ogden.gradient_eq] at h ⊢
  split_ifs at h with hne
  rw [if_pos hne]
  cases h
  rfl

theorem Ogden.symmetricHess (m : Ogden) : StrMat.SymmetricHess (m.mat (Z := Z)) := by
  intro p x z z' s h hh
  simp only [Returns, Ogden.mat, PyM.lift_run, Ogden.hessian_eq] at hh ⊢
  split_ifs at hh with hne
  refine ⟨_, by rw [if_pos hne], ?_⟩
  cases hh
  have hp := perm_cases p
  intro a b
  rcases hp with h | h | h | h | h | h <;> obtain ⟨h0, h1, h2⟩ := h <;> fin_cases a <;> fin_cases b <;>
    simp [StrHess.mat, StrHess.vec, h0, h1, h2]

namespace GenInv

theorem J_comp (g : GenInv) (l : Vec3 ℝ) (p : Equiv.Perm (Fin 3)) : g.J (l ∘ p) = g.J l := by
  have hp := perm_cases p
  funext k
  rcases hp with h | h | h | h | h | h <;> obtain ⟨h0, h1, h2⟩ := h <;> fin_cases k <;>
    simp [J, J1, J2, J3, ev, h0, h1, h2, -mul_eq_mul_left_iff, -mul_eq_mul_right_iff] <;> ring

theorem dJ_comp (g : GenInv) (l : Vec3 ℝ) (p : Equiv.Perm (Fin 3)) (k a : Fin 3) :
    g.dJ (l ∘ p) k a = g.dJ l k (p a) := by
  have hp := perm_cases p
  rcases hp with h | h | h | h | h | h <;> obtain ⟨h0, h1, h2⟩ := h <;> fin_cases k <;> fin_cases a <;>
    simp [dJ, dJ2, dJ3, ev, dev, take, h0, h1, h2, -mul_eq_mul_left_iff, -mul_eq_mul_right_iff] <;> ring

theorem d2J_comp (g : GenInv) (l : Vec3 ℝ) (p : Equiv.Perm (Fin 3)) (k a b : Fin 3) :
    g.d2J (l ∘ p) k a b = g.d2J l k (p a) (p b) := by
  have hp := perm_cases p
  rcases hp with h | h | h | h | h | h <;> obtain ⟨h0, h1, h2⟩ := h <;> fin_cases k <;> fin_cases a <;>
    fin_cases b <;> simp [d2J, dJ2, dJ3, ev, dev, d2ev, take, third, h0, h1, h2, -mul_eq_mul_left_iff, -mul_eq_mul_right_iff] <;> ring

theorem J_eqs (g : GenInv) (l : Vec3 ℝ) (p : Equiv.Perm (Fin 3)) :
    g.J1 (g.ev (l ∘ p)) = g.J1 (g.ev l) ∧ g.J2 (g.ev (l ∘ p)) = g.J2 (g.ev l) ∧ J3 (g.ev (l ∘ p)) = J3 (g.ev l) :=
  have h := J_comp g l p
  ⟨congrFun h 0, congrFun h 1, congrFun h 2⟩

theorem symmetric (g : GenInv) (mat : InvMat ℝ Z μ) : StrMat.Symmetric (g.mat mat) := by
  intro p x z s d z' h
  obtain ⟨r, h1, rfl, rfl⟩ := (returns_gradient ..).1 h
  obtain ⟨e1, e2, e3⟩ := J_eqs g x p
  refine (returns_gradient ..).2 ⟨r, by rw [e1, e2, e3]; exact h1, ?_, rfl⟩
  funext a
  simp only [Function.comp, gradPure_eq]
  exact Finset.sum_congr rfl fun k _ => by rw [← dJ_comp]

/-- the material inside after a call of `gradient` -/
theorem gradient_material (g : GenInv) (mat : InvMat ℝ Z μ) (l : Vec3 ℝ) (z : Z) (s : GenSt μ) :
    (gradient g mat l z s).2.material = (mat.gradient (g.J1 (g.ev l)) (g.J2 (g.ev l)) (J3 (g.ev l)) z s.material).2 := by
  rw [gradient_run]
  rcases mat.gradient (g.J1 (g.ev l)) (g.J2 (g.ev l)) (J3 (g.ev l)) z s.material with ⟨_ | r, m⟩ <;> rfl

/-- For models which report no derivative with respect to the third invariant. -/
theorem symmetricHess (g : GenInv) (mat : InvMat ℝ Z μ)
    (h3 : ∀ I1 I2 I3 z s r, Returns (mat.gradient I1 I2 I3 z) s r → r.d3.getD 0 = 0) :
    StrMat.SymmetricHess (g.mat mat) := by
  intro p x z z' s h hh
  obtain ⟨r, m, k, h1, h2, rfl⟩ := (returns_hessian ..).1 hh
  obtain ⟨e1, e2, e3⟩ := J_eqs g x p
  have es : ((g.mat mat).gradient (x ∘ p) z s).2.material = ((g.mat mat).gradient x z s).2.material := by
    show (gradient g mat (x ∘ p) z s).2.material = (gradient g mat x z s).2.material
    rw [gradient_material, gradient_material, e1, e2, e3]
  refine ⟨_, (returns_hessian ..).2 ⟨r, m, k, ?_, ?_, rfl⟩, ?_⟩
  · rw [e1, e2, e3, es]; exact h1
  · rw [e1, e2, e3]; exact h2
  · have h0 := h3 _ _ _ _ _ _ (congrArg Prod.fst h1)
    intro a b
    rw [hessPure_eq, hessPure_eq, h0]
    simp only [dJ_comp, d2J_comp, zero_mul, ite_self]

end GenInv

end Hel
