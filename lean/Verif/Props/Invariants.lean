import Verif.Proofs.InvFramework
import Verif.Proofs.Rotate
import Verif.Props.Models

/-! # Properties C16-C18: the `Invariants` framework -/

namespace Props
open Spec Hel Filter Topology

variable {Z μ : Type}

/-- The motions considered: symmetric, invertible `C` with invariants in the domain of the
model. -/
def InvDom (D : (Fin 3 → ℝ) → Prop) (C : Ten2 ℝ) : Prop := SymInv C ∧ D (invariants C)

/-! ## C16 -/

/-- If the model's gradient is the derivative of `ψ` with respect to the invariants, the
framework's gradient is the derivative of `ψ` with respect to `C`. -/
theorem C16_gradient (mat : InvMat ℝ Z μ) (z : Z) (D : (Fin 3 → ℝ) → Prop) (ψ : (Fin 3 → ℝ) → ℝ)
    (h : IsGradient3 D ψ (InvMat.Grad mat z)) :
    IsGradient (InvDom D) (fun C => ψ (invariants C)) (Material.Grad (Invariants.material mat) z) := by
  intro X X' t₀ G hX hm hG
  have h0 := hX.self_of_nhds
  obtain ⟨g, hg, rfl⟩ := (Invariants.grad_iff mat z h0.1).1 hG
  rw [contract22_invGradT]
  exact h _ _ _ _ (hX.mono fun t ht => ht.2) (moves_invariants h0.1 hm) hg

/-- The framework returns whenever the model does, whatever derivatives are `None`. -/
theorem C16_returns (mat : InvMat ℝ Z μ) (z : Z) {c : Vec6 ℝ} {C : Ten2 ℝ} (hc : Stores c C)
    (s : InvSt ℝ μ) (r : InvGrad ℝ Z)
    (hr : Returns (mat.gradient (invariants C 0) (invariants C 1) (invariants C 2) z) s.material r) :
    ∃ g, Returns ((Invariants.material mat).gradient c z) s (g, r.sv) := by
  obtain rfl := T2_eq hc
  exact ⟨_, (Invariants.returns_gradient _ _ _ _ _ _).2 ⟨r, hr, rfl, rfl⟩⟩

/-- A model that depends on the first invariant only (`None`, `None` for the others),
`C = diag(4, 1, 1/4)`: the hypotheses of C16 hold and `G = I`. -/
example : IsGradient3 (fun _ => True) (todEnergy 1 0 0 0 0 3)
      (InvMat.Grad (TOD.init 1 0 0 0 0 false).mat ()) ∧
    InvDom (fun _ => True) !![4, 0, 0; 0, 1, 0; 0, 0, 1 / 4] ∧
    Material.Grad (Invariants.material (TOD.init 1 0 0 0 0 false).mat) ()
      !![4, 0, 0; 0, 1, 0; 0, 0, 1 / 4] 1 := by
  have hC : SymInv !![4, 0, 0; 0, 1, 0; 0, 0, (1 / 4 : ℝ)] := by
    refine ⟨?_, by simp [Matrix.det_fin_three]⟩
    ext i j; fin_cases i <;> fin_cases j <;> rfl
  refine ⟨C10_gradient 1 0 0 0 0 false (), ⟨hC, trivial⟩, ?_⟩
  rw [Invariants.grad_iff _ _ hC]
  refine ⟨_, (TOD.grad_iff ..).2 rfl, ?_⟩
  simp [invGradT, TOD.init]

/-! ## C17 -/

/-- The full statement of C17. -/
def C17_Full : Prop :=
  ∀ (Z μ : Type) (mat : InvMat ℝ Z μ) (z : Z) (D : (Fin 3 → ℝ) → Prop),
    IsHessian3 D (InvMat.Grad mat z) (InvMat.Hess mat z) → InvMat.KeepsState mat z →
    IsHessian (InvDom D) (Material.Grad (Invariants.material mat) z)
      (Material.Hess (Invariants.material mat) z)

/-- C17 for the models whose `d2WdI3dI3` is `None`.  Missing: models that return a second
derivative with respect to the third invariant; for these the claim is false, see
`C17_hessian_false`. -/
theorem C17_hessian_partial (mat : InvMat ℝ Z μ) (z : Z) (D : (Fin 3 → ℝ) → Prop)
    (h : IsHessian3 D (InvMat.Grad mat z) (InvMat.Hess mat z)) (hz : InvMat.KeepsState mat z)
    (h33 : ∀ I1 I2 I3 s r, Returns (mat.hessian I1 I2 I3 z) s r → r.h33 = none) :
    IsHessian (InvDom D) (Material.Grad (Invariants.material mat) z)
      (Material.Hess (Invariants.material mat) z) := by
  intro X X' t₀ G H hX hm hG hH
  have h0 := hX.self_of_nhds
  have hX' : X'.IsSymm := hm.symm (hX.mono fun t ht => ht.1.1)
  obtain ⟨s, c, M, hc, hM, hr⟩ := hH
  have hc := T2_eq hc
  have hM := T4_eq hM
  obtain ⟨r, k, m, h1, h2, h3⟩ := (Invariants.returns_hessian _ _ _ _ _).1 hr
  have hsv : r.sv = z := hz _ _ _ s.material r (by rw [Returns, h1])
  rw [hsv] at h2
  have hk := h33 _ _ _ _ _ h2
  rw [hc] at h1 h2
  have hgr : InvMat.Grad mat z (invariants (X t₀)) (InvGrad.vec r) := ⟨s.material, r, by rw [Returns, h1], rfl⟩
  have hhk : InvMat.Hess mat z (invariants (X t₀)) (InvHess.mat k) := ⟨m, k, h2, rfl⟩
  -- the gradients along the motion
  have hG' : ∀ᶠ t in 𝓝 t₀, ∃ g, InvMat.Grad mat z (invariants (X t)) g ∧ G t = invGradT (X t) g := by
    filter_upwards [hX, hG] with t h4 h5
    exact (Invariants.grad_iff mat z h4.1).1 h5
  obtain ⟨g, hg⟩ := hG'.choice
  have hg0 : g t₀ = InvGrad.vec r := h.unique h0.2 hg.self_of_nhds.1 hgr hhk
  have hmg := h _ _ _ g _ (hX.mono fun t ht => ht.2) (moves_invariants h0.1 hm) (hg.mono fun t ht => ht.1) hhk
  have hmove := (moves_invGradT h0.1 hm hmg).congr (hg.mono fun t ht => ht.2)
  have hval : contract42 H X' = invHessT (X t₀) X' (g t₀)
      (fun a => ∑ b, InvHess.mat k a b * invariants' (X t₀) X' b) := by
    have e := Invariants.hessRes_ok h3
    rw [hk] at e
    simp only [Option.elim, add_zero] at e
    rw [← hM, show M = Invariants.hessPure c r k from e, Invariants.T4_hessPure c (by rw [hc]; exact h0.1.2), hc]
    refine contract42_invHess h0.1.1 hX' _ _ _ _ _ _ _ _ ?_ ?_ _ ?_
    · rw [hg0]; rfl
    · rw [hg0]; rfl
    · simp only [InvHess.mat, hk, Option.getD_none]
  intro i j
  rw [hval]
  exact hmove i j

/-- The exact error of the hessian for every model, in terms of what the model's `hessian` has returned (`k`): along every
motion, the derivative of the gradient is `H : C'`, plus the missing term of `d2WdI3dI3`, minus the term
`d2WdI2dI2` which is added a second time if `d2WdI3dI3` is not `None`. -/
theorem C17_error (mat : InvMat ℝ Z μ) (z : Z) (D : (Fin 3 → ℝ) → Prop)
    (h : IsHessian3 D (InvMat.Grad mat z) (InvMat.Hess mat z)) (hz : InvMat.KeepsState mat z)
    (X : ℝ → Ten2 ℝ) (X' : Ten2 ℝ) (t₀ : ℝ) (G : ℝ → Ten2 ℝ) (H : Ten4 ℝ)
    (hX : ∀ᶠ t in 𝓝 t₀, InvDom D (X t)) (hm : Moves X X' t₀)
    (hG : ∀ᶠ t in 𝓝 t₀, Material.Grad (Invariants.material mat) z (X t) (G t))
    (hH : Material.Hess (Invariants.material mat) z (X t₀) H) :
    ∃ m k, Returns (mat.hessian (invariants (X t₀) 0) (invariants (X t₀) 1) (invariants (X t₀) 2) z) m k ∧
      Moves G (contract42 H X' +
        (k.h33.getD 0 * ((X t₀).det * contract22 (X t₀)⁻¹ X')) • ((X t₀).det • (X t₀)⁻¹) -
        (if k.h33.isSome then (k.h22.getD 0 * contract22 ((X t₀).trace • (1 : Ten2 ℝ) - X t₀) X') •
          ((X t₀).trace • (1 : Ten2 ℝ) - X t₀) else 0)) t₀ := by
  have h0 := hX.self_of_nhds
  have hX' : X'.IsSymm := hm.symm (hX.mono fun t ht => ht.1.1)
  obtain ⟨s, c, M, hc, hM, hr⟩ := hH
  have hc := T2_eq hc
  have hM := T4_eq hM
  obtain ⟨r, k, m, h1, h2, h3⟩ := (Invariants.returns_hessian _ _ _ _ _).1 hr
  have hsv : r.sv = z := hz _ _ _ s.material r (by rw [Returns, h1])
  rw [hsv] at h2
  rw [hc] at h1 h2
  refine ⟨m, k, h2, ?_⟩
  have hgr : InvMat.Grad mat z (invariants (X t₀)) (InvGrad.vec r) := ⟨s.material, r, by rw [Returns, h1], rfl⟩
  have hhk : InvMat.Hess mat z (invariants (X t₀)) (InvHess.mat k) := ⟨m, k, h2, rfl⟩
  have hG' : ∀ᶠ t in 𝓝 t₀, ∃ g, InvMat.Grad mat z (invariants (X t)) g ∧ G t = invGradT (X t) g := by
    filter_upwards [hX, hG] with t h4 h5
    exact (Invariants.grad_iff mat z h4.1).1 h5
  obtain ⟨g, hg⟩ := hG'.choice
  have hg0 : g t₀ = InvGrad.vec r := h.unique h0.2 hg.self_of_nhds.1 hgr hhk
  have hmg := h _ _ _ g _ (hX.mono fun t ht => ht.2) (moves_invariants h0.1 hm) (hg.mono fun t ht => ht.1) hhk
  have hmove := (moves_invGradT h0.1 hm hmg).congr (hg.mono fun t ht => ht.2)
  -- the hessian without the two wrong terms
  have hpure : contract42 (astensor4 (Invariants.hessPure c r k)) X' = invHessT (X t₀) X' (g t₀)
      (fun a => ∑ b, (![![k.h11.getD 0, k.h12.getD 0, k.h13.getD 0], ![k.h12.getD 0, k.h22.getD 0, k.h23.getD 0],
        ![k.h13.getD 0, k.h23.getD 0, 0]] : Fin 3 → Fin 3 → ℝ) a b * invariants' (X t₀) X' b) := by
    rw [Invariants.T4_hessPure c (by rw [hc]; exact h0.1.2), hc]
    refine contract42_invHess h0.1.1 hX' _ _ _ _ _ _ _ _ ?_ ?_ _ rfl
    · rw [hg0]; rfl
    · rw [hg0]; rfl
  have e1 : T2 (fun a => trace c * eye a - c a) = (X t₀).trace • (1 : Ten2 ℝ) - X t₀ := by
    rw [T2_sub, T2_smul, T2_eye, T2_trace, hc]
  have hval : contract42 H X' = contract42 (astensor4 (Invariants.hessPure c r k)) X' +
      (if k.h33.isSome then (k.h22.getD 0 * contract22 ((X t₀).trace • (1 : Ten2 ℝ) - X t₀) X') •
          ((X t₀).trace • (1 : Ten2 ℝ) - X t₀) else 0) := by
    rw [← hM, Invariants.hessRes_ok h3]
    rcases k.h33 with _ | w
    · simp only [Option.elim, add_zero, Option.isSome_none, Bool.false_eq_true, if_false]
    · simp only [Option.elim, Option.isSome_some, if_true]
      rw [show (astensor4 fun a b => Invariants.hessPure c r k a b + k.h22.getD 0 *
          dya (fun a => trace c * eye a - c a) (fun a => trace c * eye a - c a) a b) = fun i j k' l =>
          astensor4 (Invariants.hessPure c r k) i j k' l + k.h22.getD 0 *
          astensor4 (dya (fun a => trace c * eye a - c a) (fun a => trace c * eye a - c a)) i j k' l from rfl,
        contract42_add, contract42_smul, T4_dya, contract42_dyad, e1, smul_smul]
  intro i j
  refine (hmove i j).congr_deriv ?_
  rw [hval, hpure]
  have : ∀ A B E : Ten2 ℝ, (A + E + B - E) i j = A i j + B i j := by
    intro A B E
    simp only [Matrix.add_apply, Matrix.sub_apply]; ring
  rw [this]
  simp only [invHessT, invGradT, invariants', InvHess.mat, Fin.sum_univ_three, Matrix.cons_val, Matrix.add_apply,
    Matrix.smul_apply, Matrix.sub_apply, smul_eq_mul]
  ring

/-- Hence, along a motion the hessian is right exactly if the two errors cancel. -/
theorem C17_exact (mat : InvMat ℝ Z μ) (z : Z) (D : (Fin 3 → ℝ) → Prop)
    (h : IsHessian3 D (InvMat.Grad mat z) (InvMat.Hess mat z)) (hz : InvMat.KeepsState mat z)
    (X : ℝ → Ten2 ℝ) (X' : Ten2 ℝ) (t₀ : ℝ) (G : ℝ → Ten2 ℝ) (H : Ten4 ℝ)
    (hX : ∀ᶠ t in 𝓝 t₀, InvDom D (X t)) (hm : Moves X X' t₀)
    (hG : ∀ᶠ t in 𝓝 t₀, Material.Grad (Invariants.material mat) z (X t) (G t))
    (hH : Material.Hess (Invariants.material mat) z (X t₀) H) :
    ∃ m k, Returns (mat.hessian (invariants (X t₀) 0) (invariants (X t₀) 1) (invariants (X t₀) 2) z) m k ∧
      (Moves G (contract42 H X') t₀ ↔
        (k.h33.getD 0 * ((X t₀).det * contract22 (X t₀)⁻¹ X')) • ((X t₀).det • (X t₀)⁻¹) =
        (if k.h33.isSome then (k.h22.getD 0 * contract22 ((X t₀).trace • (1 : Ten2 ℝ) - X t₀) X') •
          ((X t₀).trace • (1 : Ten2 ℝ) - X t₀) else 0)) := by
  obtain ⟨m, k, h1, h2⟩ := C17_error mat z D h hz X X' t₀ G H hX hm hG hH
  refine ⟨m, k, h1, fun h3 => ?_, fun h3 => ?_⟩
  · ext i j
    have := (h2 i j).unique (h3 i j)
    simp only [Matrix.add_apply, Matrix.sub_apply] at this
    linarith
  · rwa [h3, add_sub_cancel_right] at h2

/-- `hessian` returns exactly if every needed first derivative is given: an entry
`d2WdIadIb` requires `dWdIa` and `dWdIb`; but `d2WdI3dI3` requires `dWdI2` and `d2WdI2dI2`. -/
theorem C17_returns (mat : InvMat ℝ Z μ) (z : Z) {c : Vec6 ℝ} {C : Ten2 ℝ} (hc : Stores c C)
    (s : InvSt ℝ μ) (r : InvGrad ℝ Z) (k : InvHess ℝ) (m : μ)
    (hr : mat.gradient (invariants C 0) (invariants C 1) (invariants C 2) z s.material = (.ok r, m))
    (hk : Returns (mat.hessian (invariants C 0) (invariants C 1) (invariants C 2) r.sv) m k) :
    (∃ M, Returns ((Invariants.material mat).hessian c z) s M) ↔
      (k.h11.isSome → r.d1.isSome) ∧ (k.h22.isSome → r.d2.isSome) ∧
      (k.h33.isSome → r.d2.isSome ∧ k.h22.isSome) ∧ (k.h12.isSome → r.d1.isSome ∧ r.d2.isSome) ∧
      (k.h23.isSome → r.d2.isSome ∧ r.d3.isSome) ∧ (k.h13.isSome → r.d1.isSome ∧ r.d3.isSome) := by
  obtain rfl := T2_eq hc
  rw [← Invariants.okPattern, ← Invariants.hessRes_returns c r k]
  constructor
  · rintro ⟨M, hM⟩
    obtain ⟨r', k', m', h1, h2, h3⟩ := (Invariants.returns_hessian _ _ _ _ _).1 hM
    rw [hr] at h1
    cases h1
    rw [Returns, hk] at h2
    cases h2
    exact ⟨M, h3⟩
  · rintro ⟨M, hM⟩
    exact ⟨M, (Invariants.returns_hessian _ _ _ _ _).2 ⟨r, k, m, hr, hk, hM⟩⟩

/-- A model with energy `½ I3²`. -/
noncomputable def cubeModel : InvMat ℝ Unit Unit where
  gradient _ _ I3 _ := pure ⟨some 0, some 0, some I3, ()⟩
  hessian _ _ _ _ := pure ⟨some 0, some 0, some 1, some 0, some 0, some 0⟩

theorem cubeModel_grad (x g : Fin 3 → ℝ) : InvMat.Grad cubeModel () x g ↔ g = ![0, 0, x 2] := by
  simp [InvMat.Grad, cubeModel, Returns, InvGrad.vec]

theorem cubeModel_hess (x : Fin 3 → ℝ) (h : Fin 3 → Fin 3 → ℝ) :
    InvMat.Hess cubeModel () x h ↔ h = ![![0, 0, 0], ![0, 0, 0], ![0, 0, 1]] := by
  simp [InvMat.Hess, cubeModel, Returns, InvHess.mat]

/-- The model meets all hypotheses of C17: its gradient and hessian are the derivatives of
`½ I3²`. -/
theorem cubeModel_derivatives :
    IsGradient3 (fun _ => True) (fun x => x 2 ^ 2 / 2) (InvMat.Grad cubeModel ()) ∧
    IsHessian3 (fun _ => True) (InvMat.Grad cubeModel ()) (InvMat.Hess cubeModel ()) := by
  constructor
  · intro x x' t₀ g _ hx hg
    rw [cubeModel_grad] at hg
    refine (((hx 2).pow 2).div_const 2).congr_deriv ?_
    simp [hg, Fin.sum_univ_three]
    ring
  · intro x x' t₀ g h _ hx hg hh a
    rw [cubeModel_hess] at hh
    subst hh
    have hg' : (fun t => g t a) =ᶠ[𝓝 t₀] fun t => (![0, 0, x t 2] : Fin 3 → ℝ) a := by
      filter_upwards [hg] with t ht
      rw [(cubeModel_grad _ _).1 ht]
    refine HasDerivAt.congr_of_eventuallyEq ?_ hg'
    fin_cases a
    · refine (hasDerivAt_const t₀ (0 : ℝ)).congr_deriv ?_
      simp [Fin.sum_univ_three]
    · refine (hasDerivAt_const t₀ (0 : ℝ)).congr_deriv ?_
      simp [Fin.sum_univ_three]
    · refine (hx 2).congr_deriv ?_
      simp [Fin.sum_univ_three]

/-- C17 fails: for the energy `½ I3²` and `C(t) = (1 + t) I` the gradient is `(1 + t)^5 I`,
whose derivative at `t = 0` is `5 I`, but the returned hessian gives `2 I`. -/
theorem C17_hessian_false : ¬ C17_Full := by
  intro hfull
  have hm : Moves (fun t => (1 : Ten2 ℝ) + (t - 0) • (1 : Ten2 ℝ)) 1 0 := Moves.add_const_smul 1 1
  have hS : ∀ t : ℝ, t ∈ Set.Ioi (-1 : ℝ) → SymInv ((1 : Ten2 ℝ) + (t - 0) • (1 : Ten2 ℝ)) := by
    intro t ht
    refine ⟨?_, ?_⟩
    · exact Matrix.isSymm_one.add (Matrix.isSymm_one.smul _)
    · have : (1 : Ten2 ℝ) + (t - 0) • (1 : Ten2 ℝ) = (1 + t) • 1 := by rw [add_smul]; simp
      rw [this, Matrix.det_smul]
      have : (1 + t) ≠ 0 := by have := Set.mem_Ioi.1 ht; linarith
      simpa using this
  have hev : ∀ᶠ t : ℝ in 𝓝 0, t ∈ Set.Ioi (-1 : ℝ) := Ioi_mem_nhds (by norm_num)
  have hdom : ∀ᶠ t : ℝ in 𝓝 0, InvDom (fun _ => True) ((1 : Ten2 ℝ) + (t - 0) • (1 : Ten2 ℝ)) :=
    hev.mono fun t ht => ⟨hS t ht, trivial⟩
  -- the returned hessian
  obtain ⟨M, hM⟩ : ∃ M, Invariants.hessRes (eye : Vec6 ℝ) (⟨some 0, some 0, some 1, ()⟩ : InvGrad ℝ Unit)
      ⟨some 0, some 0, some 1, some 0, some 0, some 0⟩ = .ok M :=
    (Invariants.hessRes_returns _ _ _).2 (by simp [Invariants.okPattern])
  have hret : Returns ((Invariants.material cubeModel).hessian eye ()) { material := () } M := by
    refine (Invariants.returns_hessian _ _ _ _ _).2 ⟨⟨some 0, some 0, some 1, ()⟩,
      ⟨some 0, some 0, some 1, some 0, some 0, some 0⟩, (), ?_, rfl, hM⟩
    rw [T2_eye]
    simp [cubeModel, invariants]
  have hH : Material.Hess (Invariants.material cubeModel) ()
      ((1 : Ten2 ℝ) + ((0 : ℝ) - 0) • (1 : Ten2 ℝ)) (astensor4 M) := by
    refine ⟨_, eye, M, ?_, stores4_astensor4 M, hret⟩
    rw [sub_self, zero_smul, add_zero, ← T2_eye]
    exact T2_stores _
  have key := hfull Unit Unit cubeModel () (fun _ => True) cubeModel_derivatives.2
    (fun _ _ _ _ _ _ => rfl) _ _ 0 (fun t => invGradT ((1 : Ten2 ℝ) + (t - 0) • (1 : Ten2 ℝ))
      ![0, 0, ((1 : Ten2 ℝ) + (t - 0) • (1 : Ten2 ℝ)).det]) (astensor4 M) hdom hm
    (hev.mono fun t ht => (Invariants.grad_iff cubeModel () (hS t ht)).2
      ⟨_, (cubeModel_grad _ _).2 rfl, rfl⟩) hH 0 0
  have htrue : HasDerivAt (fun t : ℝ => (1 + t) ^ 5) 5 0 := by
    have := ((hasDerivAt_id (0 : ℝ)).const_add 1).pow 5
    refine this.congr_deriv ?_
    norm_num
  have heq : (fun t : ℝ => invGradT ((1 : Ten2 ℝ) + (t - 0) • (1 : Ten2 ℝ))
      ![0, 0, ((1 : Ten2 ℝ) + (t - 0) • (1 : Ten2 ℝ)).det] 0 0) =ᶠ[𝓝 0] fun t => (1 + t) ^ 5 := by
    filter_upwards [hev] with t ht
    have h1 : (1 : Ten2 ℝ) + (t - 0) • (1 : Ten2 ℝ) = (1 + t) • 1 := by rw [add_smul]; simp
    have h2 : (1 + t) ≠ 0 := by have := Set.mem_Ioi.1 ht; linarith
    have h3 : ((1 + t) • (1 : Ten2 ℝ))⁻¹ = (1 + t)⁻¹ • 1 :=
      Matrix.inv_eq_right_inv (by simp [smul_smul, h2])
    rw [h1]
    simp only [invGradT, h3]
    simp
    field_simp
  have hc := (htrue.congr_of_eventuallyEq heq).unique key
  have e := Invariants.hessRes_ok hM
  simp only [Option.elim, Option.getD_some, zero_mul, add_zero] at e
  rw [show M = Invariants.hessPure _ _ _ from e, Invariants.T4_hessPure _ (by rw [T2_eye]; simp), T2_eye] at hc
  rw [contract42_invHess Matrix.isSymm_one Matrix.isSymm_one _ _ _ _ _ _ _ ![0, 0, 1]
    (by simp) (by simp) ![![0, 0, 0], ![0, 0, 0], ![0, 0, 0]] (by simp)] at hc
  simp [invHessT, invGradT, invariants', Fin.sum_univ_three, contract22_one_left,
    Matrix.trace_one] at hc
  norm_num at hc

/-- A model meeting the hypotheses of `C17_hessian_partial`: the third-order-deformation model
with all five coefficients. -/
example : IsHessian3 (fun _ => True) (InvMat.Grad (TOD.init 1 2 3 4 5 false).mat ())
      (InvMat.Hess (TOD.init 1 2 3 4 5 false).mat ()) ∧
    InvMat.KeepsState (TOD.init (1 : ℝ) 2 3 4 5 false).mat () ∧
    ∀ I1 I2 I3 s r, Returns ((TOD.init (1 : ℝ) 2 3 4 5 false).mat.hessian I1 I2 I3 ()) s r →
      r.h33 = none := by
  refine ⟨C10_hessian _ _ _ _ _ _ _, C10_statevars _ _ _ _ _ _ _, ?_⟩
  intro I1 I2 I3 s r hr
  simp only [Returns, TOD.mat, PyM.lift_run, TOD.hessian_eq, Except.ok.injEq] at hr
  rw [← hr]; rfl

/-! ## C18 -/

/-- The gradient rotates with `C`: for every model, and with the model in the same state. -/
theorem C18_gradient (mat : InvMat ℝ Z μ) (z z' : Z) {Q C G : Ten2 ℝ} (hQ : Orthogonal Q)
    (hC : C.det ≠ 0) {c c' g : Vec6 ℝ} (hc : Stores c C) (hc' : Stores c' (rotate Q C))
    (s s' : InvSt ℝ μ) (hs : s'.material = s.material)
    (hg : Stores g G) (hr : Returns ((Invariants.material mat).gradient c z) s (g, z')) :
    ∃ g', Stores g' (rotate Q G) ∧
      Returns ((Invariants.material mat).gradient c' z) s' (g', z') := by
  obtain rfl := T2_eq hc
  obtain rfl := T2_eq hg
  have hc' := T2_eq hc'
  obtain ⟨r, h1, rfl, rfl⟩ := (Invariants.returns_gradient _ _ _ _ _ _).1 hr
  refine ⟨Invariants.gradPure c' r, ?_, ?_⟩
  · have e : T2 (Invariants.gradPure c' r) = rotate Q (T2 (Invariants.gradPure c r)) := by
      rw [Invariants.T2_gradPure _ (by rw [hc', det_rotate _ hQ]; exact hC),
        Invariants.T2_gradPure _ hC, hc']
      simp only [invGradT, rotate_add, rotate_smul, rotate_sub, rotate_one hQ, trace_rotate _ hQ,
        det_rotate _ hQ, inv_rotate _ hQ hC]
    rw [← e]
    exact T2_stores _
  · refine (Invariants.returns_gradient _ _ _ _ _ _).2 ⟨r, ?_, rfl, rfl⟩
    rw [hc', invariants_rotate _ hQ, hs]
    exact h1

/-- The hessian rotates with `C`. -/
theorem C18_hessian (mat : InvMat ℝ Z μ) (z : Z) {Q C : Ten2 ℝ} {H : Ten4 ℝ} (hQ : Orthogonal Q)
    (hC : C.det ≠ 0) {c c' : Vec6 ℝ} {h : Mat6 ℝ} (hc : Stores c C) (hc' : Stores c' (rotate Q C))
    (s s' : InvSt ℝ μ) (hs : s'.material = s.material)
    (hh : Stores4 h H) (hr : Returns ((Invariants.material mat).hessian c z) s h) :
    ∃ h', Stores4 h' (rotate4 Q H) ∧
      Returns ((Invariants.material mat).hessian c' z) s' h' := by
  obtain rfl := T2_eq hc
  obtain rfl := T4_eq hh
  have hc' := T2_eq hc'
  obtain ⟨r, k, m, h1, h2, h3⟩ := (Invariants.returns_hessian _ _ _ _ _).1 hr
  obtain ⟨M, hM⟩ := (Invariants.hessRes_returns c' r k).2 ((Invariants.hessRes_returns c r k).1 ⟨_, h3⟩)
  refine ⟨M, ?_, ?_⟩
  · have e : astensor4 M = rotate4 Q (astensor4 h) := by
      have e1 := Invariants.hessRes_ok hM
      have e2 := Invariants.hessRes_ok h3
      have hsplit : ∀ (c : Vec6 ℝ) (w : ℝ), astensor4 (fun a b => Invariants.hessPure c r k a b + w *
          dya (fun a => trace c * eye a - c a) (fun a => trace c * eye a - c a) a b) =
          fun i j l n => astensor4 (Invariants.hessPure c r k) i j l n +
            w * dyad ((T2 c).trace • (1 : Ten2 ℝ) - T2 c) ((T2 c).trace • (1 : Ten2 ℝ) - T2 c) i j l n := by
        intro c w
        have e1 : T2 (fun a => trace c * eye a - c a) = (T2 c).trace • (1 : Ten2 ℝ) - T2 c := by
          rw [T2_sub, T2_smul, T2_eye, T2_trace]
        rw [← e1]
        rfl
      have hw : ∀ (c : Vec6 ℝ), (fun a b => Invariants.hessPure c r k a b + (k.h33.elim 0 fun _ => k.h22.getD 0 *
          dya (fun a => trace c * eye a - c a) (fun a => trace c * eye a - c a) a b)) = 
          (fun a b => Invariants.hessPure c r k a b + (k.h33.elim 0 fun _ => k.h22.getD 0) *
          dya (fun a => trace c * eye a - c a) (fun a => trace c * eye a - c a) a b) := by
        intro c; cases k.h33 <;> simp
      rw [e1, e2, hw, hw, hsplit, hsplit, Invariants.T4_hessPure _ hC,
        Invariants.T4_hessPure _ (by rw [hc', det_rotate _ hQ]; exact hC), hc']
      simp only [rotate4_add, rotate4_sub, rotate4_smul, rotate4_dyad, rotate4_dyadSym, rotate_smul,
        rotate_sub, rotate_one hQ, trace_rotate _ hQ, det_rotate _ hQ, inv_rotate _ hQ hC]
    rw [← e]
    exact stores4_astensor4 M
  · refine (Invariants.returns_hessian _ _ _ _ _).2 ⟨r, k, m, ?_, ?_, hM⟩
    · rw [hc', invariants_rotate _ hQ, hs]; exact h1
    · rw [hc', invariants_rotate _ hQ]; exact h2

/-- A non-trivial rotation and a `C` as in C18: `Q` turns by a right angle about the third
axis. -/
example : Orthogonal (!![0, -1, 0; 1, 0, 0; 0, 0, 1] : Ten2 ℝ) ∧
    (!![4, 0, 0; 0, 1, 0; 0, 0, 1 / 4] : Ten2 ℝ).det ≠ 0 ∧
    rotate (!![0, -1, 0; 1, 0, 0; 0, 0, 1] : Ten2 ℝ) !![4, 0, 0; 0, 1, 0; 0, 0, 1 / 4] =
      !![1, 0, 0; 0, 4, 0; 0, 0, 1 / 4] := by
  refine ⟨?_, ?_, ?_⟩
  · ext i j; fin_cases i <;> fin_cases j <;>
      simp [Matrix.mul_apply, Fin.sum_univ_three]
  · simp [Matrix.det_fin_three]
  · ext i j; fin_cases i <;> fin_cases j <;>
      simp [rotate_apply, Fin.sum_univ_three]

end Props
