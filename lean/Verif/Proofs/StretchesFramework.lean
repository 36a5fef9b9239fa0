import Verif.Proofs.Stretches
import Verif.Proofs.Blocks
import Verif.Proofs.Hadamard

/-! The `Stretches` framework in terms of full tensors. -/

namespace Hel
open Spec Matrix

variable {Z μ : Type}

namespace Stretches

/-- the eigenbase `v_a ⊗ v_a` -/
def base (v : Ten2 ℝ) (a : Fin 3) : Ten2 ℝ := fun i j => v i a * v j a

/-- roots of the eigenvalues -/
noncomputable def roots (w : Fin 3 → ℝ) : Fin 3 → ℝ := fun a => Real.sqrt (w a)

/-- eigenvalues -/
def vals (lapack : Eigh) (C : Ten2 ℝ) : Fin 3 → ℝ := (lapack C).1
/-- eigenvectors -/
def vecs (lapack : Eigh) (C : Ten2 ℝ) : Ten2 ℝ := (lapack C).2

/-- storage of the eigenbases -/
def bases (v : Ten2 ℝ) (a : Fin 3) : Vec6 ℝ := asvoigt fun j i => v i a * v j a

theorem T2_bases (v : Ten2 ℝ) (a : Fin 3) : T2 (bases v a) = base v a := by
  ext i j
  fin_cases i <;> fin_cases j <;> simp [T2, bases, base, astensor, asvoigt] <;>
    first | rfl | exact mul_comm _ _

theorem eighSqrt_eq (lapack : Eigh) {c : Vec6 ℝ} {C : Ten2 ℝ} (h : Stores c C) :
    eighSqrt lapack c = (roots (vals lapack C), bases (vecs lapack C)) := by
  have e : (fun i j => astensor c j i) = C := by
    funext i j
    have := T2_eq h
    show (T2 c) j i = C i j
    rw [this]; exact h.symm.apply i j
  unfold eighSqrt
  rw [e]; rfl

theorem sum_base (v : Ten2 ℝ) (p : Fin 3 → ℝ) : ∑ a, p a • base v a = v * diagonal p * vᵀ := by
  ext i j
  rw [Matrix.sum_apply, Matrix.mul_apply]
  refine Finset.sum_congr rfl fun a _ => ?_
  rw [Matrix.mul_diagonal, Matrix.transpose_apply, Matrix.smul_apply, base, smul_eq_mul]; ring

theorem T2_gradPure (v : Ten2 ℝ) (l g : Vec3 ℝ) :
    T2 (gradPure l (bases v) g) = v * diagonal (dlC l g) * vᵀ := by
  rw [← sum_base]
  have : T2 (gradPure l (bases v) g) = ∑ a, dlC l g a • T2 (bases v a) := by
    ext i j
    rw [Matrix.sum_apply]; rfl
  rw [this]
  simp only [T2_bases]

theorem grad_iff (lapack : Eigh) (mat : StrMat Z μ) (z : Z) (C G : Ten2 ℝ) :
    Material.Grad (material lapack mat) z C G ↔ C.IsSymm ∧ ∃ g, StrMat.Grad mat z (roots (vals lapack C)) g ∧
      G = vecs lapack C * diagonal (dlC (roots (vals lapack C)) g) * (vecs lapack C)ᵀ := by
  constructor
  · rintro ⟨s, c, gv, z', hc, hg, hr⟩
    obtain ⟨g, h1, rfl⟩ := (returns_gradient ..).1 hr
    rw [eighSqrt_eq lapack hc] at h1 hg
    refine ⟨hc.symm, g, ⟨_, _, h1⟩, ?_⟩
    rw [← T2_gradPure]; exact (T2_eq hg).symm
  · rintro ⟨hC, g, ⟨s, z', h1⟩, rfl⟩
    have hc : Stores (asvoigt C) C := Props.C01_asvoigt_stores hC
    refine ⟨{ material := s }, _, gradPure (roots (vals lapack C)) (bases (vecs lapack C)) g, z', hc, ?_, ?_⟩
    · rw [← T2_gradPure]; exact T2_stores _
    · exact (returns_gradient ..).2 ⟨g, by rw [eighSqrt_eq lapack hc]; exact h1, by rw [eighSqrt_eq lapack hc]⟩

/-- the second derivatives with respect to the eigenvalues -/
noncomputable def Dmat (l g : Vec3 ℝ) (h : Fin 3 → Fin 3 → ℝ) (a b : Fin 3) : ℝ :=
  h a b / (4 * l a * l b) - if a = b then dlC l g a / (2 * l a ^ 2) else 0

open Classical in
/-- the factor of the crossed terms, for `a < b` -/
noncomputable def cross (l p : Vec3 ℝ) (D : Fin 3 → Fin 3 → ℝ) (a b : Fin 3) : ℝ :=
  if isclose0 (l a ^ 2 - l b ^ 2) then D b b - D a b else (p a - p b) / (l a ^ 2 - l b ^ 2)

/-- the factor of the crossed terms -/
noncomputable def cross' (l p : Vec3 ℝ) (D : Fin 3 → Fin 3 → ℝ) (a b : Fin 3) : ℝ :=
  if a < b then cross l p D a b else cross l p D b a

theorem base_symm (v : Ten2 ℝ) (a : Fin 3) : (base v a).IsSymm := by
  ext i j; exact mul_comm _ _

theorem contract_base (v X : Ten2 ℝ) (a : Fin 3) : contract22 (base v a) X = (vᵀ * X * v) a a := by
  simp only [contract22, base, Matrix.mul_apply, Matrix.transpose_apply, Finset.sum_mul]
  rw [Finset.sum_comm]
  exact Finset.sum_congr rfl fun i _ => Finset.sum_congr rfl fun j _ => by ring

theorem base_mul_base (v X : Ten2 ℝ) (a b i j : Fin 3) :
    (base v a * X * base v b) i j = (vᵀ * X * v) a b * (v i a * v j b) := by
  simp only [base, Matrix.mul_apply, Matrix.transpose_apply, Finset.sum_mul]
  exact Finset.sum_congr rfl fun k _ => Finset.sum_congr rfl fun m _ => by ring

theorem contract_term (v : Ten2 ℝ) (l p : Vec3 ℝ) (D : Fin 3 → Fin 3 → ℝ) (d2 : Vec6 ℝ)
    (hd : ∀ m, d2 m = D (GenInv.ia m) (GenInv.ib m)) {X : Ten2 ℝ} (hX : X.IsSymm) (m : Fin 6) (i j : Fin 3) :
    contract42 (astensor4 (term l p (bases v) d2 m)) X i j =
      let Y := vᵀ * X * v
      let a := GenInv.ia m
      let b := GenInv.ib m
      if b ≠ a then D a b * (Y b b * (v i a * v j a) + Y a a * (v i b * v j b)) +
        cross l p D a b * (Y a b * (v i a * v j b) + Y b a * (v i b * v j a))
      else D a a * (Y a a * (v i a * v j a)) := by
  have hb : d2 (![0, 1, 2] (GenInv.ib m)) = D (GenInv.ib m) (GenInv.ib m) := by
    rw [hd]; fin_cases m <;> rfl
  unfold term
  simp only
  rw [hb, hd m]
  by_cases hne : GenInv.ib m ≠ GenInv.ia m
  · rw [if_pos hne, if_pos hne]
    have e1 := congrFun (congrFun (contract42_dyad (base v (GenInv.ia m)) (base v (GenInv.ib m)) X) i) j
    have e2 := congrFun (congrFun (contract42_dyad (base v (GenInv.ib m)) (base v (GenInv.ia m)) X) i) j
    have e3 := congrFun (congrFun (contract42_dyadSym (base_symm v (GenInv.ia m)) (base_symm v (GenInv.ib m)) hX) i) j
    rw [Matrix.smul_apply, contract_base, smul_eq_mul] at e1 e2
    rw [Matrix.smul_apply, Matrix.add_apply, base_mul_base, base_mul_base, smul_eq_mul] at e3
    rw [← T2_bases, ← T2_bases, ← T4_dya] at e1 e2
    rw [← T2_bases, ← T2_bases, ← T4_cdya] at e3
    have split : ∀ (α β : ℝ), contract42 (astensor4 (fun i j => α * dya (bases v (GenInv.ia m)) (bases v (GenInv.ib m)) i j +
        (α * transpose (dya (bases v (GenInv.ia m)) (bases v (GenInv.ib m))) i j +
          β * 2 * cdya (bases v (GenInv.ia m)) (bases v (GenInv.ib m)) i j))) X i j =
        α * contract42 (astensor4 (dya (bases v (GenInv.ia m)) (bases v (GenInv.ib m)))) X i j +
        (α * contract42 (astensor4 (dya (bases v (GenInv.ib m)) (bases v (GenInv.ia m)))) X i j +
        β * 2 * contract42 (astensor4 (cdya (bases v (GenInv.ia m)) (bases v (GenInv.ib m)))) X i j) := by
      intro α β
      simp only [contract42, Finset.mul_sum, ← Finset.sum_add_distrib]
      refine Finset.sum_congr rfl fun k _ => Finset.sum_congr rfl fun q _ => ?_
      simp only [astensor4, Hel.transpose, dya]
      ring
    refine (split _ _).trans ?_
    rw [e1, e2, e3, T2_bases, T2_bases]
    simp only [base, cross]
    ring
  · rw [if_neg hne, if_neg hne]
    have hab : GenInv.ib m = GenInv.ia m := not_not.1 hne
    have e1 := congrFun (congrFun (contract42_dyad (base v (GenInv.ia m)) (base v (GenInv.ib m)) X) i) j
    rw [Matrix.smul_apply, contract_base, smul_eq_mul, ← T2_bases, ← T2_bases, ← T4_dya] at e1
    have e2 := congrFun (congrFun (contract42_smul (D (GenInv.ia m) (GenInv.ib m))
      (astensor4 (dya (bases v (GenInv.ia m)) (bases v (GenInv.ib m)))) X) i) j
    rw [Matrix.smul_apply, e1, smul_eq_mul, T2_bases] at e2
    refine (Eq.trans (by rfl) e2).trans ?_
    rw [hab]; rfl

theorem d2Of_eq (l g : Vec3 ℝ) (h : StrHess) (m : Fin 6) :
    d2Of l g h m = Dmat l g (StrHess.mat h) (GenInv.ia m) (GenInv.ib m) := by
  fin_cases m <;> simp [d2Of, Dmat, StrHess.mat, GenInv.ia, GenInv.ib]

theorem contract_hessPure (v : Ten2 ℝ) (l g : Vec3 ℝ) (h : StrHess) {X : Ten2 ℝ} (hX : X.IsSymm) :
    contract42 (astensor4 (hessPure l (bases v) g h)) X =
      v * kmap (Dmat l g (StrHess.mat h)) (cross' l (dlC l g) (Dmat l g (StrHess.mat h)))
        (vᵀ * X * v) * vᵀ := by
  ext i j
  have e : contract42 (astensor4 (hessPure l (bases v) g h)) X i j =
      ∑ m, contract42 (astensor4 (term l (dlC l g) (bases v) (d2Of l g h) m)) X i j := by
    have : ∀ k q, astensor4 (hessPure l (bases v) g h) i j k q =
        ∑ m, astensor4 (term l (dlC l g) (bases v) (d2Of l g h) m) i j k q := fun k q => rfl
    simp only [contract42, this, Finset.sum_mul]
    simp only [Fin.sum_univ_three, Finset.sum_add_distrib]
  rw [e]
  simp only [contract_term v l (dlC l g) (Dmat l g (StrHess.mat h)) _ (d2Of_eq l g h) hX]
  have hD : ∀ a b, Dmat l g (StrHess.mat h) a b = Dmat l g (StrHess.mat h) b a := by
    intro a b
    have : StrHess.mat h a b = StrHess.mat h b a := by
      fin_cases a <;> fin_cases b <;> rfl
    by_cases hab : a = b
    · rw [hab]
    · simp only [Dmat, if_neg hab, if_neg (Ne.symm hab), this]; ring
  rw [Matrix.mul_apply]
  simp only [Matrix.mul_apply, Matrix.transpose_apply (M := v) j]
  generalize hY : (fun a b => ∑ k, (∑ q, vᵀ a q * X q k) * v k b) = Y at *
  have hY' : ∀ a b, ∑ k, (∑ q, vᵀ a q * X q k) * v k b = Y a b := fun a b => by rw [← hY]
  have hYm : vᵀ * X * v = (Y : Ten2 ℝ) := by
    ext a b
    rw [← hY']; simp only [Matrix.mul_apply]
  rw [hYm]
  simp only [hY']
  generalize Dmat l g (StrHess.mat h) = D at *
  simp only [Fin.sum_univ_succ, Fin.sum_univ_three, kmap]
  simp [GenInv.ia, GenInv.ib, cross', Fin.sum_univ_three]
  rw [hD 1 0, hD 2 0, hD 2 1]
  ring

end Stretches
end Hel
