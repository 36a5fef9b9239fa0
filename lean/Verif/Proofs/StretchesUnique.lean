import Verif.Proofs.StretchesCalc

/-! The results of the `Stretches` framework do not depend on the spectral decomposition. -/

namespace Spec
open Matrix

theorem kmap_permute (p : Equiv.Perm (Fin 3)) (u X : Ten2 ℝ) {D f D' f' : Fin 3 → Fin 3 → ℝ}
    (hD : ∀ a b, D' a b = D (p a) (p b)) (hf : ∀ a b, f' a b = f (p a) (p b)) :
    u.submatrix id p * kmap D' f' ((u.submatrix id p)ᵀ * X * u.submatrix id p) * (u.submatrix id p)ᵀ =
      u * kmap D f (uᵀ * X * u) * uᵀ := by
  have hY : (u.submatrix id p)ᵀ * X * u.submatrix id p = (uᵀ * X * u).submatrix p p := rfl
  have hK : kmap D' f' ((uᵀ * X * u).submatrix p p) = (kmap D f (uᵀ * X * u)).submatrix p p := by
    ext a b
    simp only [kmap, Matrix.submatrix_apply, hD, hf, p.injective.eq_iff]
    split_ifs
    · exact Equiv.sum_comp p fun c => D (p a) c * (uᵀ * X * u) c c
    · rfl
  rw [hY, hK]
  ext i j
  simp only [Matrix.mul_apply, Matrix.submatrix_apply, Matrix.transpose_apply, id]
  refine Eq.trans (Finset.sum_congr rfl fun b _ => ?_)
    (Equiv.sum_comp p fun b => (∑ a, u i a * kmap D f (uᵀ * X * u) a b) * u j b)
  exact congrArg (· * u j (p b)) (Equiv.sum_comp p fun a => u i a * kmap D f (uᵀ * X * u) a (p b))

theorem astensor4_ext {M N : Hel.Mat6 ℝ}
    (h : ∀ X : Ten2 ℝ, X.IsSymm → contract42 (Hel.astensor4 M) X = contract42 (Hel.astensor4 N) X) : M = N := by
  have hM := Hel.stores4_astensor4 M
  have hN := Hel.stores4_astensor4 N
  funext a b
  rw [hM.entry a b, hN.entry a b]
  generalize (pos a).1 = i
  generalize (pos a).2 = j
  generalize (pos b).1 = k
  generalize (pos b).2 = l
  let X : Ten2 ℝ := fun m n => (if m = k ∧ n = l then 1 else 0) + if m = l ∧ n = k then 1 else 0
  have hX : X.IsSymm := by
    ext m n
    show (_ : ℝ) + _ = _ + _
    rw [add_comm]
    simp only [and_comm]
  have e : ∀ T : Ten4 ℝ, MinorSymm T → contract42 T X i j = 2 * T i j k l := by
    intro T hT
    simp only [contract42, X, mul_add, Finset.sum_add_distrib, mul_ite, mul_one, mul_zero, ite_and, Finset.sum_ite_eq',
      Finset.mem_univ, if_true]
    simp only [Finset.sum_ite_irrel, Finset.sum_const_zero, Finset.sum_ite_eq', Finset.mem_univ, if_true]
    rw [hT.2 i j l k]; ring
  have := congrFun (congrFun (h X hX) i) j
  rw [e _ hM.minor, e _ hN.minor] at this
  linarith

end Spec

namespace Hel
open Spec Matrix

variable {Z μ : Type}

namespace Stretches

variable {C : Ten2 ℝ} {w w' : Fin 3 → ℝ} {v v' : Ten2 ℝ}

theorem grad_fixed {mat : StrMat Z μ} (hs : StrMat.Symmetric mat) {z z' : Z} {s : μ} {g : Fin 3 → ℝ}
    (hg : Returns (mat.gradient (roots w) z) s (g, z')) (q : Equiv.Perm (Fin 3)) (hq : w ∘ q = w) : g ∘ q = g := by
  have := hs q _ _ _ _ _ hg
  rw [← roots_comp, hq, Returns, hg] at this
  injection this with h1
  injection h1 with h2 _
  exact h2.symm

theorem grad_unique {mat : StrMat Z μ} (hs : StrMat.Symmetric mat) (h : Spectral C w v)
    (h' : Spectral C w' v') {z z' : Z} {s : μ} {g : Fin 3 → ℝ}
    (hg : Returns (mat.gradient (roots w) z) s (g, z')) :
    ∃ g', Returns (mat.gradient (roots w') z) s (g', z') ∧ gradPure (roots w) (bases v) g = gradPure (roots w') (bases v') g' := by
  obtain ⟨p, rfl⟩ := h.perm h'
  refine ⟨g ∘ p, hs p _ _ _ _ _ hg, T2_injective ?_⟩
  rw [T2_gradPure, T2_gradPure]
  have h1 : Spectral C w (fun i a => v' i (p.symm a)) := by
    have := h'.permute p.symm
    have e : (w ∘ p) ∘ p.symm = w := by funext a; simp
    rwa [e] at this
  rw [h.fn_unique h1 fun a b hab => dlC_block (grad_fixed hs hg) hab]
  have h2 := (Spectral.of_eq h'.orthogonal rfl : Spectral _ (dlC (roots (w ∘ p)) (g ∘ p)) v').permute p.symm
  have e2 : dlC (roots (w ∘ p)) (g ∘ p) ∘ p.symm = dlC (roots w) g := by
    funext a
    simp [dlC, roots]
  rw [e2] at h2
  exact h2.eq.symm

theorem fixed_of_symmetric {mat : StrMat Z μ} (hs : StrMat.Symmetric mat) (hs2 : StrMat.SymmetricHess mat) (hC : PosDef C)
    (h : Spectral C w v) {z z' : Z} {s m : μ} {g : Fin 3 → ℝ} {k : StrHess}
    (hg : mat.gradient (roots w) z s = (.ok (g, z'), m))
    (hk : Returns (mat.hessian (roots w) z') m k) : Fixed w g (StrHess.mat k) where
  pos a := h.pos hC a
  symm := hmat_symm k
  grad := grad_fixed hs (congrArg Prod.fst hg)
  hess q hq a b := by
    obtain ⟨k', h1, h2⟩ := hs2 q (roots w) z z' s k (by rw [hg]; exact hk)
    rw [← roots_comp, hq, hg] at h1
    have e : k = k' := by
      have := hk.symm.trans h1
      injection this
    rw [← h2, ← e]

theorem hess_unique {mat : StrMat Z μ} (hs : StrMat.Symmetric mat) (hs2 : StrMat.SymmetricHess mat) (hC : PosDef C)
    (hsep : Separated C)
    (h : Spectral C w v) (h' : Spectral C w' v') {z z' : Z} {s m : μ} {g : Fin 3 → ℝ} {k : StrHess}
    (hg : mat.gradient (roots w) z s = (.ok (g, z'), m)) (hk : Returns (mat.hessian (roots w) z') m k) :
    ∃ g' m' k', mat.gradient (roots w') z s = (.ok (g', z'), m') ∧ Returns (mat.hessian (roots w') z') m' k' ∧
      hessPure (roots w) (bases v) g k = hessPure (roots w') (bases v') g' k' := by
  have hfix := fixed_of_symmetric hs hs2 hC h hg hk
  obtain ⟨p, rfl⟩ := h.perm h'
  obtain ⟨k', hk', hkk⟩ := hs2 p (roots w) z z' s k (by rw [hg]; exact hk)
  have hg' : mat.gradient (roots (w ∘ p)) z s = (.ok (g ∘ p, z'), (mat.gradient (roots (w ∘ p)) z s).2) :=
    Prod.ext (hs p _ _ _ _ _ (congrArg Prod.fst hg)) rfl
  change Returns (mat.hessian (roots (w ∘ p)) z') (mat.gradient (roots (w ∘ p)) z s).2 k' at hk'
  refine ⟨g ∘ p, _, k', hg', hk', astensor4_ext fun X hX => ?_⟩
  have hfix' := fixed_of_symmetric hs hs2 hC h' hg' hk'
  have hsep0 := hsep _ _ h
  have hsep0' := hsep _ _ h'
  rw [contract_hessPure _ _ _ _ hX, contract_hessPure _ _ _ _ hX]
  have h1 : Spectral C w (fun i a => v' i (p.symm a)) := by
    have := h'.permute p.symm
    have e : (w ∘ p) ∘ p.symm = w := by funext a; simp
    rwa [e] at this
  rw [(hfix.compatible hsep0).kmap_unique h h1 X]
  let u : Ten2 ℝ := fun i a => v' i (p.symm a)
  have hu : u.submatrix id p = v' := by
    ext i a
    show v' i (p.symm (p a)) = v' i a
    rw [Equiv.symm_apply_apply]
  have hD : ∀ a b, Dmat (roots (w ∘ p)) (g ∘ p) (StrHess.mat k') a b = Dmat (roots w) g (StrHess.mat k) (p a) (p b) := by
    intro a b
    simp only [Dmat, hkk, p.injective.eq_iff]
    rfl
  have hf : ∀ a b, cross' (roots (w ∘ p)) (dlC (roots (w ∘ p)) (g ∘ p)) (Dmat (roots (w ∘ p)) (g ∘ p) (StrHess.mat k')) a b =
      cross' (roots w) (dlC (roots w) g) (Dmat (roots w) g (StrHess.mat k)) (p a) (p b) := by
    intro a b
    rcases hsep0 (p a) (p b) with hab | hab
    · rw [hfix.cross_eq hab, hfix'.cross_eq (show (w ∘ p) a = (w ∘ p) b from hab), hD, hD]
    · rw [cross_ne hfix.pos hab, cross_ne hfix'.pos (show 1 / 10 ^ 8 < |(w ∘ p) a - (w ∘ p) b| from hab)]
      rfl
  have := kmap_permute p u X hD hf
  rw [hu] at this
  exact this.symm

theorem hess_unique_ascending {mat : StrMat Z μ} (hs : StrMat.Symmetric mat)
    (hs2 : StrMat.SymmetricHess mat) (hC : PosDef C) (hw : Monotone w)
    (hw' : Monotone w') (h : Spectral C w v) (h' : Spectral C w' v') {z z' : Z} {s m : μ} {g : Fin 3 → ℝ} {k : StrHess}
    (hg : mat.gradient (roots w) z s = (.ok (g, z'), m)) (hk : Returns (mat.hessian (roots w) z') m k) :
    w' = w ∧ hessPure (roots w) (bases v) g k = hessPure (roots w') (bases v') g k := by
  obtain ⟨p, rfl⟩ := h.perm h'
  have e : w ∘ p = w := Tuple.unique_monotone (f := w) (σ := p) (τ := 1) hw' hw
  rw [e] at h'
  refine ⟨e, ?_⟩
  rw [e]
  refine astensor4_ext fun X hX => ?_
  rw [contract_hessPure _ _ _ _ hX, contract_hessPure _ _ _ _ hX]
  exact ((fixed_of_symmetric hs hs2 hC h hg hk).compatible_ascending hw).kmap_unique h h' X

end Stretches
end Hel
