import Verif.Proofs.Major
import Verif.Proofs.PosDef
import Verif.Props.Balance

/-! # Properties C23, C36 and C37: symmetries of the finished material -/

namespace Props
open Spec Hel Matrix

variable {Z μ : Type}

/-! ## C23 -/

/-- The hessian of the `Invariants` framework is major-symmetric, for every model. -/
theorem C23_invariants (mat : InvMat ℝ Z μ) (z : Z) {C : Ten2 ℝ} {H : Ten4 ℝ}
    (h : Material.Hess (Invariants.material mat) z C H) : MajorSymm H := by
  obtain ⟨s, c, k, hc, hk, hr⟩ := h
  obtain rfl := T4_eq hk
  obtain ⟨r, h, m, -, -, h3⟩ := (Invariants.returns_hessian _ _ _ _ _).1 hr
  exact (major_iff k).2 (Invariants.hessRes_symm h3)

/-- The hessian of the `Stretches` framework is major-symmetric, for every model and whatever
`eigh` returns. -/
theorem C23_stretches (lapack : Eigh) (mat : StrMat Z μ) (z : Z) {C : Ten2 ℝ} {H : Ten4 ℝ}
    (h : Material.Hess (Stretches.material lapack mat) z C H) : MajorSymm H := by
  obtain ⟨s, c, k, hc, hk, hr⟩ := h
  obtain rfl := T4_eq hk
  obtain ⟨g, z', m, h, -, -, rfl⟩ := (Stretches.returns_hessian _ _ _ _ _ _).1 hr
  exact (major_iff _).2 (Stretches.hessPure_symm _ _ _ _)

/-- The elasticity returned by the three spaces is major-symmetric if the hessian of the material
is: with every configuration, whether finalized to a full tensor or not, at every `F`. -/
theorem C23_spaces (w : Space) (cfg : SpaceCfg) (mat : Material ℝ Z μ) (z : Z) (s : w.St μ) (F : Ten2 ℝ)
    (A : Elasticity) (hm : ∀ C H, Material.Hess mat z C H → MajorSymm H)
    (h : Returns ((w.obj cfg mat).hessian F z) s A) :
    (∀ T, A = .full T → MajorSymm T) ∧ (∀ M T, A = .voigt M → Stores4 M T → MajorSymm T) := by
  obtain ⟨g, z', m, k, h1, h2, rfl⟩ := (Space.returns_hessian ..).1 h
  have hk : Symm6 k := (major_iff k).1 (hm _ _ ⟨m, _, k, T2_stores _, stores4_astensor4 k, h2⟩)
  have := piolaElasticity_major cfg F (stressOf w F g) (detOf w F) (invOf w F) (elastOf_symm w F g hk)
  refine ⟨this.1, ?_⟩
  intro M T hM hT
  obtain rfl := T4_eq hT
  exact (major_iff M).2 (this.2 M hM)

/-- A call which returns an elasticity as in the theorem. -/
example (w : Space) (cfg : SpaceCfg) : ∃ A, Returns ((w.obj cfg (squareMat 1)).hessian (1 : Ten2 ℝ) ())
    (w.fresh ()) A := by
  refine ⟨_, (Space.returns_hessian ..).2 ⟨_, _, _, _, rfl, rfl, rfl⟩⟩

/-! ## C36 -/

/-- The `Invariants` framework is isotropic, with every model. -/
theorem C36_invariants (mat : InvMat ℝ Z μ) (z : Z) : Material.Isotropic (Invariants.material mat) z := by
  intro Q C G c c' g z' m hQ hC hc hc' hg hr
  exact C18_gradient mat z z' hQ hC.det_ne_zero hc hc' m m rfl hg hr

theorem cauchyGreen_mul (F Q : Ten2 ℝ) : cauchyGreen (F * Q) = rotate Qᵀ (cauchyGreen F) := by
  simp only [cauchyGreen, rotate, Matrix.transpose_mul, Matrix.transpose_transpose, Matrix.mul_assoc]

theorem contract22_rotate {Q : Ten2 ℝ} (hQ : Orthogonal Q) (A B : Ten2 ℝ) :
    contract22 (rotate Q A) (rotate Q B) = contract22 A B := by
  rw [contract22_eq_trace, contract22_eq_trace, rotate_transpose, ← rotate_mul _ _ hQ, trace_rotate _ hQ]

/-- The argument handed to the material is positive definite. -/
theorem posDef_arg (w : Space) {F : Ten2 ℝ} (hF : F.det ≠ 0) : PosDef (T2 (arg w F)) := by
  have hp := posDef_cauchyGreen hF
  have hd := det_cauchyGreen_pos hF
  rcases w
  · change PosDef (T2 (rightCauchyGreen F))
    rwa [T2_rcg]
  · change PosDef (T2 (Distortional.cu F))
    rw [Distortional.T2_cu]; exact hp.smul (Real.rpow_pos_of_pos hd _)
  · change PosDef (T2 (Dilatational.co F))
    rw [Dilatational.T2_co]; exact hp.smul (Real.rpow_pos_of_pos hd _)

theorem arg_rotate (w : Space) {F Q : Ten2 ℝ} (hQ : Orthogonal Q) :
    T2 (arg w (F * Q)) = rotate Qᵀ (T2 (arg w F)) := by
  have hq := hQ.transpose
  rcases w
  · change T2 (rightCauchyGreen (F * Q)) = rotate Qᵀ (T2 (rightCauchyGreen F))
    rw [T2_rcg, T2_rcg, cauchyGreen_mul]
  · change T2 (Distortional.cu (F * Q)) = rotate Qᵀ (T2 (Distortional.cu F))
    rw [Distortional.T2_cu, Distortional.T2_cu, cauchyGreen_mul, unimodular, unimodular, rotate_smul,
      det_rotate _ hq]
  · change T2 (Dilatational.co (F * Q)) = rotate Qᵀ (T2 (Dilatational.co F))
    rw [Dilatational.T2_co, Dilatational.T2_co, cauchyGreen_mul, rotate_smul, det_rotate _ hq]

theorem det_mul_orthogonal {F Q : Ten2 ℝ} (hF : F.det ≠ 0) (hQ : Orthogonal Q) : (F * Q).det ≠ 0 := by
  rw [Matrix.det_mul]
  refine mul_ne_zero hF fun h => ?_
  have := hQ.det_sq
  rw [h] at this
  norm_num at this

theorem stressOf_rotate (w : Space) {F Q : Ten2 ℝ} (hF : F.det ≠ 0) (hQ : Orthogonal Q) {g g' : Vec6 ℝ}
    (hg : T2 g' = rotate Qᵀ (T2 g)) : T2 (stressOf w (F * Q) g') = rotate Qᵀ (T2 (stressOf w F g)) := by
  have hq := hQ.transpose
  have hFQ := det_mul_orthogonal hF hQ
  have hd := det_cauchyGreen_pos hF
  rcases w
  · change T2 (fun a => 2 * g' a) = rotate Qᵀ (T2 fun a => 2 * g a)
    rw [T2_smul, T2_smul, hg, rotate_smul]
  · change T2 (Distortional.st (F * Q) g') = rotate Qᵀ (T2 (Distortional.st F g))
    rw [Distortional.T2_st hFQ, Distortional.T2_st hF, cauchyGreen_mul, hg, distS, distS, rotate_sub, rotate_smul,
      rotate_smul, det_rotate _ hq, inv_rotate _ hq hd.ne', ← rotate_smul, contract22_rotate hq]
  · change T2 (Dilatational.st (F * Q) g') = rotate Qᵀ (T2 (Dilatational.st F g))
    rw [Dilatational.T2_st hFQ, Dilatational.T2_st hF, cauchyGreen_mul, hg, dilS, dilS,
      rotate_smul, det_rotate _ hq, inv_rotate _ hq hd.ne', Matrix.trace_smul,
      Matrix.trace_smul, trace_rotate _ hq]

/-- `P(FQ) = P(F) Q` for an isotropic material, in every space, for every `F` and orthogonal `Q`. -/
theorem C36_gradient (w : Space) (mat : Material ℝ Z μ) (z z' : Z) (s : w.St μ)
    (hi : Material.Isotropic mat z) {F P Q : Ten2 ℝ} (hF : F.det ≠ 0) (hQ : Orthogonal Q)
    (h : Returns ((w.obj {} mat).gradient F z) s (.full P, z')) :
    Returns ((w.obj {} mat).gradient (F * Q) z) s (.full (P * Q), z') := by
  obtain ⟨g, h1, rfl⟩ := space_grad h
  have e := arg_rotate w (F := F) hQ
  obtain ⟨g', hg', hr⟩ := hi Qᵀ _ _ _ _ _ z' _ hQ.transpose (posDef_arg w hF) (T2_stores (arg w F))
    (by rw [← e]; exact T2_stores _) (T2_stores g) h1
  refine (Space.returns_gradient ..).2 ⟨g', hr, ?_⟩
  rw [piolaStress_default, stressOf_rotate w hF hQ (T2_eq hg')]
  congr 1
  simp only [rotate, Matrix.transpose_transpose]
  rw [← Matrix.mul_assoc, ← Matrix.mul_assoc, Matrix.mul_assoc F Q, hQ.mul_transpose, Matrix.mul_one,
    Matrix.mul_assoc]

/-- With the area in the deformed configuration (Cauchy stress) the stress does not see `Q`. -/
theorem C36_cauchy (w : Space) (mat : Material ℝ Z μ) (z z' : Z) (s : w.St μ)
    (hi : Material.Isotropic mat z) {F σ Q : Ten2 ℝ} (hF : F.det ≠ 0) (hQ : Orthogonal Q)
    (h : Returns ((w.obj { area := none } mat).gradient F z) s (.full σ, z')) :
    Returns ((w.obj { area := none } mat).gradient (F * Q) z) s (.full σ, z') := by
  obtain ⟨g, h1, h2⟩ := (Space.returns_gradient ..).1 h
  rw [piolaStress_area] at h2
  rw [Stress.full.inj h2]
  have e := arg_rotate w (F := F) hQ
  obtain ⟨g', hg', hr⟩ := hi Qᵀ _ _ _ _ _ z' _ hQ.transpose (posDef_arg w hF) (T2_stores (arg w F))
    (by rw [← e]; exact T2_stores _) (T2_stores g) h1
  refine (Space.returns_gradient ..).2 ⟨g', hr, ?_⟩
  rw [piolaStress_area, detOf_getD, detOf_getD, cauchyGreen_mul, det_rotate _ hQ.transpose,
    stressOf_rotate w hF hQ (T2_eq hg')]
  congr 1
  have e2 : Q * Qᵀ = 1 := hQ.mul_transpose
  simp only [pushArea, rotate, Matrix.transpose_transpose, Matrix.transpose_mul]
  congr 1
  calc F * (T2 (stressOf w F g)) * Fᵀ
      = F * 1 * T2 (stressOf w F g) * 1 * Fᵀ := by rw [Matrix.mul_one, Matrix.mul_one]
    _ = _ := by rw [← e2]; simp only [Matrix.mul_assoc]

/-- The finished material on top of the `Invariants` framework. -/
theorem C36_invariants_gradient (w : Space) (mat : InvMat ℝ Z μ) (z z' : Z) (s : w.St (InvSt ℝ μ))
    {F P Q : Ten2 ℝ} (hF : F.det ≠ 0) (hQ : Orthogonal Q)
    (h : Returns ((w.obj {} (Invariants.material mat)).gradient F z) s (.full P, z')) :
    Returns ((w.obj {} (Invariants.material mat)).gradient (F * Q) z) s (.full (P * Q), z') :=
  C36_gradient w _ z z' s (C36_invariants mat z) hF hQ h

/-! ## C37 -/

/-- A tensor which every orthogonal tensor leaves alone is a multiple of the identity. -/
theorem isotropic_tensor {G : Ten2 ℝ} (h : ∀ Q, Orthogonal Q → rotate Q G = G) :
    ∃ k : ℝ, G = k • (1 : Ten2 ℝ) := by
  have h1 := h !![-1, 0, 0; 0, 1, 0; 0, 0, 1] (by
    ext i j; fin_cases i <;> fin_cases j <;> simp [Matrix.mul_apply, Fin.sum_univ_three])
  have h2 := h !![1, 0, 0; 0, -1, 0; 0, 0, 1] (by
    ext i j; fin_cases i <;> fin_cases j <;> simp [Matrix.mul_apply, Fin.sum_univ_three])
  have h3 := h !![0, 1, 0; 0, 0, 1; 1, 0, 0] (by
    ext i j; fin_cases i <;> fin_cases j <;> simp [Matrix.mul_apply, Fin.sum_univ_three])
  simp only [← Matrix.ext_iff, rotate, Matrix.mul_apply, Fin.sum_univ_three, Fin.forall_fin_succ] at h1 h2 h3
  simp at h1 h2 h3
  refine ⟨G 0 0, ?_⟩
  ext i j
  fin_cases i <;> fin_cases j <;> simp <;> linarith

/-- The stress of the distortional space vanishes at every scaled rotation, for every isotropic
material. -/
theorem C37_gradient (mat : Material ℝ Z μ) (z z' : Z) (s : Space.distortional.St μ)
    (hi : Material.Isotropic mat z) {Q P : Ten2 ℝ} (hQ : Orthogonal Q) {a : ℝ} (ha : a ≠ 0)
    (h : Returns ((Space.distortional.obj {} mat).gradient (a • Q) z) s (.full P, z')) : P = 0 := by
  obtain ⟨g, h1, rfl⟩ := space_grad h
  have hq0 : Q.det ≠ 0 := fun h => by have := hQ.det_sq; rw [h] at this; norm_num at this
  have hF : (a • Q).det ≠ 0 := by rw [Matrix.det_smul]; positivity
  have eC : cauchyGreen (a • Q) = (a ^ 2) • (1 : Ten2 ℝ) := by
    rw [cauchyGreen_smul]; congr 1
  have ea : T2 (arg .distortional (a • Q)) = 1 := by
    change T2 (Distortional.cu (a • Q)) = 1
    rw [Distortional.T2_cu, cauchyGreen_smul, unimodular_smul ha (det_cauchyGreen_pos hq0)]
    have : cauchyGreen Q = 1 := hQ
    rw [this, unimodular, Matrix.det_one, Real.one_rpow, one_smul]
  have hG : ∃ k : ℝ, T2 g = k • (1 : Ten2 ℝ) := by
    refine isotropic_tensor fun R hR => ?_
    obtain ⟨g', hg', hr⟩ := hi R 1 _ (arg .distortional (a • Q)) (arg .distortional (a • Q)) _ z' _ hR
      posDef_one (by rw [← ea]; exact T2_stores _)
      (by rw [rotate_one hR, ← ea]; exact T2_stores _) (T2_stores g) h1
    have : g' = g := by
      have := h1.symm.trans hr
      exact ((Prod.mk.inj (Except.ok.inj this)).1).symm
    rw [← T2_eq hg', this]
  obtain ⟨k, hk⟩ := hG
  have e : T2 (stressOf .distortional (a • Q) g) = distS (cauchyGreen (a • Q)) (T2 g) :=
    Distortional.T2_st hF g
  have ha2 : (a ^ 2) ≠ 0 := by positivity
  have ei : ((a ^ 2) • (1 : Ten2 ℝ))⁻¹ = (a ^ 2)⁻¹ • (1 : Ten2 ℝ) := by
    refine Matrix.inv_eq_left_inv ?_
    rw [Matrix.smul_mul, Matrix.one_mul, smul_smul, inv_mul_cancel₀ ha2, one_smul]
  rw [e, hk, distS, eC, ei]
  have e3 : ∀ x y : ℝ, contract22 (x • (y • (1 : Ten2 ℝ))) (a ^ 2 • (1 : Ten2 ℝ)) = x * y * a ^ 2 * 3 := by
    intro x y
    rw [contract22_smul_left, contract22_smul_left, contract22_smul_right, contract22_one_left, Matrix.trace_one]
    simp; ring
  rw [e3, smul_smul, smul_smul, ← sub_smul]
  rw [show ∀ x : ℝ, x * k - x * k * a ^ 2 * 3 / 3 * (a ^ 2)⁻¹ = 0 from fun x => by field_simp; ring, zero_smul,
    Matrix.mul_zero]

/-- The same for the finished material on top of the `Invariants` framework, for every model. -/
theorem C37_invariants (mat : InvMat ℝ Z μ) (z z' : Z) (s : Space.distortional.St (InvSt ℝ μ))
    {Q P : Ten2 ℝ} (hQ : Orthogonal Q) {a : ℝ} (ha : a ≠ 0)
    (h : Returns ((Space.distortional.obj {} (Invariants.material mat)).gradient (a • Q) z) s (.full P, z')) :
    P = 0 :=
  C37_gradient _ z z' s (C36_invariants mat z) hQ ha h

/-- In particular at `F = I`. -/
theorem C37_identity (mat : InvMat ℝ Z μ) (z z' : Z) (s : Space.distortional.St (InvSt ℝ μ)) {P : Ten2 ℝ}
    (h : Returns ((Space.distortional.obj {} (Invariants.material mat)).gradient (1 : Ten2 ℝ) z) s
      (.full P, z')) : P = 0 := by
  refine C37_invariants mat z z' s (Q := 1) (a := 1) (by simp [Orthogonal]) one_ne_zero ?_
  rw [one_smul]; exact h

/-- Such calls exist: a Neo-Hookean solid returns a stress at every `F`. -/
example (w : Space) (F : Ten2 ℝ) (m : TOD ℝ) : ∃ P, Returns
    ((w.obj {} (Invariants.material (Z := Unit) m.mat)).gradient F ()) (w.fresh { material := () }) (.full P, ()) := by
  have h1 : Returns ((Invariants.material (Z := Unit) m.mat).gradient (arg w F) ())
      (w.inner (w.fresh { material := () } : w.St (InvSt ℝ Unit))) _ :=
    (Invariants.returns_gradient ..).2 ⟨_, congrArg (fun r => (PyM.lift r () : _ × Unit).1)
      (TOD.gradient_eq m _ _ _ ()), rfl, rfl⟩
  exact ⟨_, (Space.returns_gradient ..).2 ⟨_, h1, (piolaStress_default ..).symm⟩⟩

end Props
