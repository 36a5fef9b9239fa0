import Verif.Proofs.StretchesModels
import Verif.Proofs.StretchesUnique
import Verif.Props.Stretches
import Verif.Props.Symmetry

/-! # Property C21 and the consequences for the `Stretches` framework in C36, C37 -/

namespace Props
open Spec Hel Matrix

variable {Z μ : Type}

/-- The same gradient (and state variables, or nothing if the model raises) with every valid
eigen-solver: any order of the eigenvalues, any sign of the vectors, any basis of a repeated
eigenspace. -/
theorem C21_gradient (lapack lapack' : Eigh) (hl : EighValid lapack) (hl' : EighValid lapack') (mat : StrMat Z μ)
    (hs : StrMat.Symmetric mat) {c : Vec6 ℝ} {C : Ten2 ℝ} (hc : Stores c C) (z : Z) (s : StrSt μ)
    (r : Vec6 ℝ × Z) : Returns ((Stretches.material lapack mat).gradient c z) s r ↔
      Returns ((Stretches.material lapack' mat).gradient c z) s r := by
  suffices H : ∀ l l' : Eigh, EighValid l → EighValid l' → ∀ r,
      Returns ((Stretches.material l mat).gradient c z) s r → Returns ((Stretches.material l' mat).gradient c z) s r from
    ⟨H _ _ hl hl' r, H _ _ hl' hl r⟩
  rintro l l' hl hl' ⟨G, z'⟩ h
  obtain ⟨g, hg, rfl⟩ := (Stretches.returns_gradient ..).1 h
  refine (Stretches.returns_gradient ..).2 ?_
  rw [Stretches.eighSqrt_eq l hc] at hg ⊢
  rw [Stretches.eighSqrt_eq l' hc]
  obtain ⟨g', h1, h2⟩ := Stretches.grad_unique hs (hl C hc.symm) (hl' C hc.symm) hg
  exact ⟨g', h1, h2⟩

/-- The same hessian with every valid eigen-solver, unless unequal eigenvalues of `C` are closer
than numpy's tolerance. -/
theorem C21_hessian (lapack lapack' : Eigh) (hl : EighValid lapack) (hl' : EighValid lapack') (mat : StrMat Z μ)
    (hs : StrMat.Symmetric mat) (hs2 : StrMat.SymmetricHess mat) {c : Vec6 ℝ} {C : Ten2 ℝ} (hc : Stores c C) (hC : PosDef C) (hsep : Separated C)
    (z : Z) (s : StrSt μ) (H : Mat6 ℝ) : Returns ((Stretches.material lapack mat).hessian c z) s H ↔
      Returns ((Stretches.material lapack' mat).hessian c z) s H := by
  suffices K : ∀ l l' : Eigh, EighValid l → EighValid l' → ∀ r,
      Returns ((Stretches.material l mat).hessian c z) s r → Returns ((Stretches.material l' mat).hessian c z) s r from
    ⟨K _ _ hl hl' H, K _ _ hl' hl H⟩
  rintro l l' hl hl' H h
  obtain ⟨g, z', m, k, hg, hk, rfl⟩ := (Stretches.returns_hessian ..).1 h
  refine (Stretches.returns_hessian ..).2 ?_
  rw [Stretches.eighSqrt_eq l hc] at hg hk ⊢
  rw [Stretches.eighSqrt_eq l' hc]
  obtain ⟨g', m', k', h1, h2, h3⟩ := Stretches.hess_unique hs hs2 hC hsep (hl C hc.symm) (hl' C hc.symm) hg hk
  exact ⟨g', z', m', k', h1, h2, h3⟩

/-- With two eigen-solvers which return the eigenvalues in ascending order, as LAPACK does, the
hessian is the same at every positive definite tensor. -/
theorem C21_hessian_ascending (lapack lapack' : Eigh) (hl : EighValid lapack) (hl' : EighValid lapack')
    (ha : EighAscending lapack) (ha' : EighAscending lapack') (mat : StrMat Z μ)
    (hs : StrMat.Symmetric mat) (hs2 : StrMat.SymmetricHess mat) {c : Vec6 ℝ} {C : Ten2 ℝ} (hc : Stores c C) (hC : PosDef C)
    (z : Z) (s : StrSt μ) (H : Mat6 ℝ) : Returns ((Stretches.material lapack mat).hessian c z) s H ↔
      Returns ((Stretches.material lapack' mat).hessian c z) s H := by
  have mono : ∀ l : Eigh, EighAscending l → Monotone (Stretches.vals l C) := by
    intro l hl
    have h1 : Stretches.vals l C 0 ≤ Stretches.vals l C 1 := (hl C hc.symm).1
    have h2 : Stretches.vals l C 1 ≤ Stretches.vals l C 2 := (hl C hc.symm).2
    intro a b hab
    fin_cases a <;> fin_cases b <;> simp at hab ⊢ <;> linarith
  suffices K : ∀ l l' : Eigh, EighValid l → EighValid l' → EighAscending l → EighAscending l' → ∀ r,
      Returns ((Stretches.material l mat).hessian c z) s r → Returns ((Stretches.material l' mat).hessian c z) s r from
    ⟨K _ _ hl hl' ha ha' H, K _ _ hl' hl ha' ha H⟩
  rintro l l' hl hl' ha ha' H h
  obtain ⟨g, z', m, k, hg, hk, rfl⟩ := (Stretches.returns_hessian ..).1 h
  refine (Stretches.returns_hessian ..).2 ?_
  rw [Stretches.eighSqrt_eq l hc] at hg hk ⊢
  rw [Stretches.eighSqrt_eq l' hc]
  obtain ⟨h1, h2⟩ := Stretches.hess_unique_ascending hs hs2 hC (mono l ha) (mono l' ha') (hl C hc.symm) (hl' C hc.symm) hg hk
  refine ⟨g, z', m, k, ?_, ?_, h2⟩
  · change mat.gradient (Stretches.roots (Stretches.vals l' C)) z s.material = _
    change Stretches.vals l' C = Stretches.vals l C at h1
    rw [h1]; exact hg
  · change Returns (mat.hessian (Stretches.roots (Stretches.vals l' C)) z') m k
    change Stretches.vals l' C = Stretches.vals l C at h1
    rw [h1]; exact hk

/-! ## C36, C37 -/

/-- The decomposition of a rotated tensor. -/
theorem spectral_rotate {C v Q : Ten2 ℝ} {w : Fin 3 → ℝ} (hQ : Orthogonal Q) (h : Spectral C w v) :
    Spectral (rotate Q C) w (Q * v) := by
  refine Spectral.of_eq ?_ ?_
  · show (Q * v)ᵀ * (Q * v) = 1
    have h1 : Qᵀ * Q = 1 := hQ
    have h2 : vᵀ * v = 1 := h.orthogonal
    rw [Matrix.transpose_mul, Matrix.mul_assoc, ← Matrix.mul_assoc Qᵀ, h1, Matrix.one_mul, h2]
  · rw [rotate, h.eq, Matrix.transpose_mul]
    simp only [Matrix.mul_assoc]

/-- The `Stretches` framework is isotropic with every symmetric model and every valid
eigen-solver. -/
theorem C36_stretches (lapack : Eigh) (hl : EighValid lapack) (mat : StrMat Z μ) (hs : StrMat.Symmetric mat) (z : Z) :
    Material.Isotropic (Stretches.material lapack mat) z := by
  intro Q C G c c' g z' m hQ hC hc hc' hg hr
  obtain ⟨d, hd, rfl⟩ := (Stretches.returns_gradient ..).1 hr
  rw [Stretches.eighSqrt_eq lapack hc] at hd hg
  have hS : Spectral C (Stretches.vals lapack C) (Stretches.vecs lapack C) := hl C hc.symm
  have hS' : Spectral (rotate Q C) (Stretches.vals lapack (rotate Q C)) (Stretches.vecs lapack (rotate Q C)) :=
    hl _ hc'.symm
  obtain ⟨d', h1, h2⟩ := Stretches.grad_unique hs (spectral_rotate hQ hS) hS' hd
  refine ⟨_, ?_, (Stretches.returns_gradient ..).2 ⟨d', ?_, rfl⟩⟩
  · rw [Stretches.eighSqrt_eq lapack hc']
    have e : rotate Q G = T2 (Stretches.gradPure (Stretches.roots (Stretches.vals lapack (rotate Q C)))
        (Stretches.bases (Stretches.vecs lapack (rotate Q C))) d') := by
      rw [← h2, ← T2_eq hg, Stretches.T2_gradPure, rotate]
      erw [Stretches.T2_gradPure]
      rw [Matrix.transpose_mul]
      simp only [Matrix.mul_assoc]
    rw [e]
    exact T2_stores _
  · rw [Stretches.eighSqrt_eq lapack hc']
    exact h1

/-- `P(FQ) = P(F) Q` for the finished material on top of the `Stretches` framework. -/
theorem C36_stretches_gradient (lapack : Eigh) (hl : EighValid lapack) (w : Space) (mat : StrMat Z μ)
    (hs : StrMat.Symmetric mat) (z z' : Z) (s : w.St (StrSt μ)) {F P Q : Ten2 ℝ} (hF : F.det ≠ 0) (hQ : Orthogonal Q)
    (h : Returns ((w.obj {} (Stretches.material lapack mat)).gradient F z) s (.full P, z')) :
    Returns ((w.obj {} (Stretches.material lapack mat)).gradient (F * Q) z) s (.full (P * Q), z') :=
  C36_gradient w _ z z' s (C36_stretches lapack hl mat hs z) hF hQ h

/-- The distortional stress vanishes at scaled rotations. -/
theorem C37_stretches (lapack : Eigh) (hl : EighValid lapack) (mat : StrMat Z μ) (hs : StrMat.Symmetric mat)
    (z z' : Z) (s : Space.distortional.St (StrSt μ)) {Q P : Ten2 ℝ} (hQ : Orthogonal Q) {a : ℝ} (ha : a ≠ 0)
    (h : Returns ((Space.distortional.obj {} (Stretches.material lapack mat)).gradient (a • Q) z) s (.full P, z')) :
    P = 0 :=
  C37_gradient _ z z' s (C36_stretches lapack hl mat hs z) hQ ha h

/-- Two valid solvers that differ (the second flips the sign of an eigenvector), an Ogden material and a
tensor with a repeated eigenvalue meet the hypotheses of C21. -/
example : ∃ lapack lapack' : Eigh, EighValid lapack ∧ EighValid lapack' ∧ lapack ≠ lapack' ∧
    StrMat.Symmetric (Ogden.mat ⟨[2, 1], [2, -3]⟩ : StrMat Unit Unit) ∧
    StrMat.SymmetricHess (Ogden.mat ⟨[2, 1], [2, -3]⟩ : StrMat Unit Unit) ∧
    PosDef (diagonal ![4, 1, 1] : Ten2 ℝ) ∧ Stores ![4, 1, 1, 0, 0, 0] (diagonal ![4, 1, 1] : Ten2 ℝ) := by
  obtain ⟨lapack, hl⟩ := exists_eigh
  refine ⟨lapack, fun C => ((lapack C).1, -(lapack C).2), hl, fun C hC => ?_, ?_, Ogden.symmetric _, Ogden.symmetricHess _, ?_, ?_⟩
  · have h := hl C hC
    obtain ⟨V, hV⟩ : ∃ V : Ten2 ℝ, V = (lapack C).2 := ⟨_, rfl⟩
    refine ⟨?_, fun i j => ?_⟩
    · have h1 : Vᵀ * V = 1 := by rw [hV]; exact h.orthogonal
      change (-(show Ten2 ℝ from (lapack C).2))ᵀ * -(show Ten2 ℝ from (lapack C).2) = 1
      rw [← hV, Matrix.transpose_neg, Matrix.neg_mul, Matrix.mul_neg, neg_neg, h1]
    · rw [h.sum i j]
      exact Finset.sum_congr rfl fun a _ => congrArg _ (neg_mul_neg _ _).symm
  · intro e
    have e1 : (lapack (1 : Ten2 ℝ)).2 = -(lapack (1 : Ten2 ℝ)).2 := congrArg Prod.snd (congrFun e (1 : Ten2 ℝ))
    obtain ⟨V, hV⟩ : ∃ V : Ten2 ℝ, V = (lapack (1 : Ten2 ℝ)).2 := ⟨_, rfl⟩
    have h : Vᵀ * V = 1 := by rw [hV]; exact (hl 1 Matrix.isSymm_one).orthogonal
    have h0 : V = 0 := by
      ext i j
      have h2 : (lapack (1 : Ten2 ℝ)).2 i j = -((lapack (1 : Ten2 ℝ)).2 i j) := congrFun (congrFun e1 i) j
      rw [hV, Matrix.zero_apply]
      linarith
    rw [h0] at h
    have := congrFun (congrFun h 0) 0
    simp at this
  · refine posDef_diagonal fun a => ?_
    fin_cases a <;> simp
  · refine ⟨Matrix.isSymm_diagonal _, fun a => ?_⟩
    fin_cases a <;> simp [pos]

end Props
