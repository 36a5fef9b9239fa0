import Verif.Proofs.Invariants
import Verif.Proofs.Tensor

/-! The `Invariants` framework in terms of full tensors. -/

namespace Spec
open Matrix Filter Topology

variable {X : ℝ → Ten2 ℝ} {X' : Ten2 ℝ} {t₀ : ℝ}

/-- velocity of the three invariants -/
noncomputable def invariants' (C C' : Ten2 ℝ) : Fin 3 → ℝ :=
  ![C'.trace, C.trace * C'.trace - contract22 C C', C.det * contract22 C⁻¹ C']

theorem moves_invariants (h : SymInv (X t₀)) (hX : Moves X X' t₀) :
    Moves3 (fun t => invariants (X t)) (invariants' (X t₀) X') t₀ := by
  intro a
  fin_cases a
  · exact hX.trace
  · have h1 := ((hX.trace.pow 2).sub (hX.mul hX).trace).div_const 2
    refine h1.congr_deriv ?_
    have e : (X' * X t₀ + X t₀ * X').trace = 2 * contract22 (X t₀) X' := by
      rw [Matrix.trace_add, Matrix.trace_mul_comm, contract22_eq_trace, h.1.eq]; ring
    rw [e]
    simp [invariants']
    ring
  · refine hX.det.congr_deriv ?_
    have hs : ((X t₀)⁻¹)ᵀ = (X t₀)⁻¹ := by rw [Matrix.transpose_nonsing_inv, h.1.eq]
    show _ = (X t₀).det * contract22 (X t₀)⁻¹ X'
    rw [adjugate_eq h.2, contract22_eq_trace, hs]
    simp

/-- the gradient formula -/
noncomputable def invGradT (C : Ten2 ℝ) (g : Fin 3 → ℝ) : Ten2 ℝ :=
  g 0 • (1 : Ten2 ℝ) + g 1 • (C.trace • (1 : Ten2 ℝ) - C) + g 2 • (C.det • C⁻¹)

theorem contract22_invGradT (C C' : Ten2 ℝ) (g : Fin 3 → ℝ) :
    contract22 (invGradT C g) C' = ∑ a, g a * invariants' C C' a := by
  simp only [invGradT, contract22_add_left, contract22_smul_left, contract22_sub_left,
    contract22_one_left, Fin.sum_univ_three, invariants', Matrix.cons_val]

/-- the hessian formula, applied to a velocity -/
noncomputable def invHessT (C C' : Ten2 ℝ) (g : Fin 3 → ℝ) (g' : Fin 3 → ℝ) : Ten2 ℝ :=
  invGradT C g' + g 1 • (C'.trace • (1 : Ten2 ℝ) - C') +
    g 2 • ((C.det * contract22 C⁻¹ C') • C⁻¹ - C.det • (C⁻¹ * C' * C⁻¹))

theorem moves_invGradT (h : SymInv (X t₀)) (hX : Moves X X' t₀) {g : ℝ → Fin 3 → ℝ}
    {g' : Fin 3 → ℝ} (hg : Moves3 g g' t₀) :
    Moves (fun t => invGradT (X t) (g t)) (invHessT (X t₀) X' (g t₀) g') t₀ := by
  have hd : HasDerivAt (fun t => (X t).det) ((X t₀).det * contract22 (X t₀)⁻¹ X') t₀ :=
    moves_invariants h hX 2
  have h1 := Moves.smul (hg 0) (Moves.const (t₀ := t₀) 1)
  have h2 := Moves.smul (hg 1) ((Moves.smul hX.trace (Moves.const (t₀ := t₀) 1)).sub hX)
  have h3 := Moves.smul (hg 2) (Moves.smul hd (hX.inv h.2))
  have h4 := (h1.add h2).add h3
  intro i j
  refine (h4 i j).congr_deriv ?_
  simp only [invHessT, invGradT, Matrix.add_apply, Matrix.smul_apply, Matrix.sub_apply,
    Matrix.zero_apply, Matrix.neg_apply, smul_eq_mul]
  ring

end Spec

namespace Hel
namespace Invariants
open Spec PyM Matrix

variable {Z μ : Type}

theorem invariants_T2 (c : Vec6 ℝ) :
    invariants (T2 c) = ![trace c, (trace c ^ 2 - ddot c c) / 2, det c] := by
  rw [invariants, T2_trace, ← T2_inv2, T2_det, T2_trace]

theorem T2_gradPure (c : Vec6 ℝ) (hd : (T2 c).det ≠ 0) (r : InvGrad ℝ Z) :
    T2 (gradPure c r) = invGradT (T2 c) (InvGrad.vec r) := by
  have : gradPure c r = fun a => (r.d1.getD 0 * eye a + r.d2.getD 0 * (trace c * eye a - c a)) +
    r.d3.getD 0 * (det c * inv c (some (det c)) a) := rfl
  rw [this, T2_add, T2_add, T2_smul, T2_smul, T2_smul, T2_sub, T2_smul, T2_smul, T2_eye,
    T2_inv c hd, T2_det, T2_trace]
  rfl

/-- what `gradient` returns -/
theorem returns_gradient (mat : InvMat ℝ Z μ) (c : Vec6 ℝ) (z : Z) (s : InvSt ℝ μ) (g : Vec6 ℝ)
    (z' : Z) : Returns (gradient mat c z) s (g, z') ↔
    ∃ r, Returns (mat.gradient (invariants (T2 c) 0) (invariants (T2 c) 1) (invariants (T2 c) 2) z)
      s.material r ∧ g = gradPure c r ∧ z' = r.sv := by
  unfold Returns
  rw [gradient_run, invariants_T2]
  simp only [Matrix.cons_val]
  rcases mat.gradient (trace c) ((trace c ^ 2 - ddot c c) / 2) (det c) z s.material with ⟨r | r, m⟩
  · simp
  · simp [eq_comm]

theorem grad_iff (mat : InvMat ℝ Z μ) (z : Z) {C G : Ten2 ℝ} (hC : SymInv C) :
    Material.Grad (material mat) z C G ↔
      ∃ g, InvMat.Grad mat z (invariants C) g ∧ G = invGradT C g := by
  constructor
  · rintro ⟨s, c, g, z', hc, hg, hr⟩
    obtain rfl := T2_eq hc
    obtain rfl := T2_eq hg
    obtain ⟨r, h1, rfl, -⟩ := (returns_gradient _ _ _ _ _ _).1 hr
    exact ⟨_, ⟨_, r, h1, rfl⟩, T2_gradPure _ hC.2 _⟩
  · rintro ⟨g, ⟨m, r, hr, rfl⟩, rfl⟩
    have hc := stores_asvoigt hC.1
    have he := T2_eq hc
    refine ⟨{ material := m }, asvoigt C, gradPure (asvoigt C) r, r.sv, hc, ?_, ?_⟩
    · have := T2_gradPure (asvoigt C) (by rw [he]; exact hC.2) r
      rw [he] at this
      rw [← this]; exact T2_stores _
    · exact (returns_gradient _ _ _ _ _ _).2 ⟨r, by rw [he]; exact hr, rfl, rfl⟩

/-- what `hessian` returns -/
theorem returns_hessian (mat : InvMat ℝ Z μ) (c : Vec6 ℝ) (z : Z) (s : InvSt ℝ μ) (M : Mat6 ℝ) :
    Returns (hessian mat c z) s M ↔
    ∃ r h m, mat.gradient (invariants (T2 c) 0) (invariants (T2 c) 1) (invariants (T2 c) 2) z
      s.material = (.ok r, m) ∧
      Returns (mat.hessian (invariants (T2 c) 0) (invariants (T2 c) 1) (invariants (T2 c) 2) r.sv) m h ∧
      hessRes c r h = .ok M := by
  unfold Returns
  rw [hessian_run, invariants_T2]
  simp only [Matrix.cons_val]
  rcases mat.gradient (trace c) ((trace c ^ 2 - ddot c c) / 2) (det c) z s.material with ⟨r | r, m⟩
  · simp
  · simp only [Prod.mk.injEq, Except.ok.injEq]
    rcases h : mat.hessian (trace c) ((trace c ^ 2 - ddot c c) / 2) (det c) r.sv m with ⟨h' | h', m'⟩
    · simp
      intro r' h''
      rw [h] at h''
      simp at h''
    · constructor
      · intro h1; exact ⟨r, h', m, ⟨rfl, rfl⟩, by rw [h], h1⟩
      · rintro ⟨r', h'', m'', ⟨rfl, rfl⟩, h2, h3⟩
        rw [h] at h2
        cases h2
        exact h3

theorem addTermRes_same {acc M : Mat6 ℝ} {d : Option ℝ} {a b : Option ℝ} {x y : Vec6 ℝ}
    {T : Vec6 ℝ → Vec6 ℝ → Mat6 ℝ} (h : addTermRes acc d d (loc a x) (loc b y) T = .ok M) :
    M = fun i j => acc i j + d.getD 0 * T x y i j := by
  cases d <;> cases a <;> cases b <;> simp [addTermRes, loc] at h ⊢ <;> simp [← h]

/-- the terms of the hessian other than the mis-typed one -/
noncomputable def hessPure (C : Vec6 ℝ) (r : InvGrad ℝ Z) (h : InvHess ℝ) : Mat6 ℝ := fun a b =>
  r.d2.getD 0 * (dya eye eye a b - cdyaSelf eye a b) +
    r.d3.getD 0 * (det C * (dya (inv C (some (det C))) (inv C (some (det C))) a b -
      cdyaSelf (inv C (some (det C))) a b)) +
  h.h11.getD 0 * dya eye eye a b +
  h.h22.getD 0 * dya (fun a => trace C * eye a - C a) (fun a => trace C * eye a - C a) a b +
  h.h12.getD 0 * dyaSum eye (fun a => trace C * eye a - C a) a b +
  h.h23.getD 0 * dyaSum (fun a => trace C * eye a - C a) (fun a => det C * inv C (some (det C)) a) a b +
  h.h13.getD 0 * dyaSum eye (fun a => det C * inv C (some (det C)) a) a b

/-- The value returned by `hessian`: the intended terms without the `I3 I3` term, plus the
`I2 I2` term once more if `d2WdI3dI3` is given. -/
theorem hessRes_ok {C : Vec6 ℝ} {r : InvGrad ℝ Z} {h : InvHess ℝ} {M : Mat6 ℝ}
    (hM : hessRes C r h = .ok M) :
    M = fun a b => hessPure C r h a b + (h.h33.elim 0 fun _ => h.h22.getD 0 *
      dya (fun a => trace C * eye a - C a) (fun a => trace C * eye a - C a) a b) := by
  unfold hessRes at hM
  simp only [bind, Except.bind] at hM
  split at hM
  · simp at hM
  rename_i _ M1 h1
  split at hM
  · simp at hM
  rename_i _ M2 h2
  split at hM
  · simp at hM
  rename_i _ M3 h3
  split at hM
  · simp at hM
  rename_i _ M4 h4
  split at hM
  · simp at hM
  rename_i _ M5 h5
  have e1 := addTermRes_same h1
  have e2 := addTermRes_same h2
  have e4 := addTermRes_same h4
  have e5 := addTermRes_same h5
  have e6 := addTermRes_same hM
  have e3 : M3 = fun a b => M2 a b + (h.h33.elim 0 fun _ => h.h22.getD 0 *
      dya (fun a => trace C * eye a - C a) (fun a => trace C * eye a - C a) a b) := by
    cases h33 : h.h33 with
    | none => simp [h33, addTermRes] at h3; simp [h3]
    | some d =>
      rw [h33] at h3
      cases h22 : h.h22 with
      | none =>
        rw [h22] at h3
        cases hd2 : r.d2 <;> simp [addTermRes, loc, hd2] at h3
      | some d' =>
        rw [h22] at h3
        cases hd2 : r.d2 <;> simp [addTermRes, loc, hd2] at h3
        simp [← h3]
  subst e1 e2 e3 e4 e5 e6
  funext a b
  simp only [hessPure]
  ring

theorem T4_hessPure (c : Vec6 ℝ) (hd : (T2 c).det ≠ 0) (r : InvGrad ℝ Z) (h : InvHess ℝ) :
    astensor4 (hessPure c r h) = fun i j k l =>
      r.d2.getD 0 * (dyad (1 : Ten2 ℝ) 1 i j k l - dyadSym (1 : Ten2 ℝ) 1 i j k l) +
      r.d3.getD 0 * ((T2 c).det * (dyad (T2 c)⁻¹ (T2 c)⁻¹ i j k l - dyadSym (T2 c)⁻¹ (T2 c)⁻¹ i j k l)) +
      h.h11.getD 0 * dyad (1 : Ten2 ℝ) 1 i j k l +
      h.h22.getD 0 * dyad ((T2 c).trace • (1 : Ten2 ℝ) - T2 c) ((T2 c).trace • (1 : Ten2 ℝ) - T2 c) i j k l +
      h.h12.getD 0 * (dyad (1 : Ten2 ℝ) ((T2 c).trace • (1 : Ten2 ℝ) - T2 c) i j k l +
        dyad ((T2 c).trace • (1 : Ten2 ℝ) - T2 c) (1 : Ten2 ℝ) i j k l) +
      h.h23.getD 0 * (dyad ((T2 c).trace • (1 : Ten2 ℝ) - T2 c) ((T2 c).det • (T2 c)⁻¹) i j k l +
        dyad ((T2 c).det • (T2 c)⁻¹) ((T2 c).trace • (1 : Ten2 ℝ) - T2 c) i j k l) +
      h.h13.getD 0 * (dyad (1 : Ten2 ℝ) ((T2 c).det • (T2 c)⁻¹) i j k l +
        dyad ((T2 c).det • (T2 c)⁻¹) (1 : Ten2 ℝ) i j k l) := by
  have e1 : T2 (fun a => trace c * eye a - c a) = (T2 c).trace • (1 : Ten2 ℝ) - T2 c := by
    rw [T2_sub, T2_smul, T2_eye, T2_trace]
  have e2 : T2 (fun a => det c * inv c (some (det c)) a) = (T2 c).det • (T2 c)⁻¹ := by
    rw [T2_smul, T2_inv c hd, T2_det]
  rw [← e1, ← e2, ← T2_inv c hd, ← T2_eye, ← T4_cdyaSelf, ← T4_cdyaSelf, ← T2_det]
  simp only [← T4_dya]
  rfl

end Invariants
end Hel

namespace Spec
open Filter Topology Matrix

theorem Moves3.const (x : Fin 3 → ℝ) (t₀ : ℝ) : Moves3 (fun _ => x) 0 t₀ := fun a =>
  hasDerivAt_const t₀ (x a)

theorem eq_of_hasDerivAt_ite {a b c t₀ : ℝ}
    (h : HasDerivAt (fun t => if t = t₀ then a else b) c t₀) : a = b := by
  have h1 := h.continuousAt
  have h2 : Tendsto (fun t => if t = t₀ then a else b) (𝓝[≠] t₀) (𝓝 a) := by
    have := h1.tendsto.mono_left (nhdsWithin_le_nhds (s := {t₀}ᶜ))
    simpa using this
  have h3 : Tendsto (fun t => if t = t₀ then a else b) (𝓝[≠] t₀) (𝓝 b) := by
    refine tendsto_const_nhds.congr' ?_
    filter_upwards [self_mem_nhdsWithin] with t ht
    rw [if_neg (by simpa using ht)]
  exact tendsto_nhds_unique h2 h3

/-- where there is a hessian, the gradient is unique -/
theorem IsHessian3.unique {dom ret retH} (hH : IsHessian3 dom ret retH) {x g₁ g₂ h} (hx : dom x)
    (h₁ : ret x g₁) (h₂ : ret x g₂) (hh : retH x h) : g₁ = g₂ := by
  funext a
  have := hH (fun _ => x) 0 0 (fun t => if t = 0 then g₁ else g₂) h (.of_forall fun _ => hx)
    (Moves3.const x 0) (.of_forall fun t => by split_ifs <;> assumption) hh a
  refine eq_of_hasDerivAt_ite (t₀ := 0) (c := ∑ b, h a b * (0 : Fin 3 → ℝ) b) ?_
  refine this.congr_of_eventuallyEq (.of_forall fun t => ?_)
  dsimp only
  split_ifs <;> rfl

theorem IsHessian.unique {dom ret retH} (hH : IsHessian dom ret retH) {X G₁ G₂ H} (hX : dom X)
    (h₁ : ret X G₁) (h₂ : ret X G₂) (hh : retH X H) : G₁ = G₂ := by
  ext i j
  have := hH (fun _ => X) 0 0 (fun t => if t = 0 then G₁ else G₂) H (.of_forall fun _ => hX)
    (Moves.const X) (.of_forall fun t => by split_ifs <;> assumption) hh i j
  refine eq_of_hasDerivAt_ite (t₀ := 0) (c := contract42 H 0 i j) ?_
  refine this.congr_of_eventuallyEq (.of_forall fun t => ?_)
  dsimp only
  split_ifs <;> rfl

theorem Moves.symm {X : ℝ → Ten2 ℝ} {X' : Ten2 ℝ} {t₀ : ℝ} (hX : Moves X X' t₀)
    (h : ∀ᶠ t in 𝓝 t₀, (X t).IsSymm) : X'.IsSymm := by
  have h2 : Moves X X'ᵀ t₀ := hX.transpose.congr (h.mono fun t ht => ht.eq.symm)
  exact h2.unique hX

/-- applying the intended hessian to a symmetric velocity -/
theorem contract42_invHess {C C' : Ten2 ℝ} (hC : C.IsSymm) (hC' : C'.IsSymm) (d2 d3 : ℝ)
    (h11 h22 h12 h23 h13 : ℝ) (g : Fin 3 → ℝ) (hg1 : g 1 = d2) (hg2 : g 2 = d3)
    (h : Fin 3 → Fin 3 → ℝ)
    (hh : h = ![![h11, h12, h13], ![h12, h22, h23], ![h13, h23, 0]]) :
    contract42 (fun i j k l =>
      d2 * (dyad (1 : Ten2 ℝ) 1 i j k l - dyadSym (1 : Ten2 ℝ) 1 i j k l) +
      d3 * (C.det * (dyad C⁻¹ C⁻¹ i j k l - dyadSym C⁻¹ C⁻¹ i j k l)) +
      h11 * dyad (1 : Ten2 ℝ) 1 i j k l +
      h22 * dyad (C.trace • (1 : Ten2 ℝ) - C) (C.trace • (1 : Ten2 ℝ) - C) i j k l +
      h12 * (dyad (1 : Ten2 ℝ) (C.trace • (1 : Ten2 ℝ) - C) i j k l +
        dyad (C.trace • (1 : Ten2 ℝ) - C) (1 : Ten2 ℝ) i j k l) +
      h23 * (dyad (C.trace • (1 : Ten2 ℝ) - C) (C.det • C⁻¹) i j k l +
        dyad (C.det • C⁻¹) (C.trace • (1 : Ten2 ℝ) - C) i j k l) +
      h13 * (dyad (1 : Ten2 ℝ) (C.det • C⁻¹) i j k l +
        dyad (C.det • C⁻¹) (1 : Ten2 ℝ) i j k l)) C' =
    invHessT C C' g fun a => ∑ b, h a b * invariants' C C' b := by
  subst hg1 hg2
  have hi : (C⁻¹).IsSymm := by rw [Matrix.IsSymm, Matrix.transpose_nonsing_inv, hC.eq]
  simp only [contract42_add, contract42_sub, contract42_smul, contract42_dyad,
    contract42_dyadSym_self (Matrix.isSymm_one) hC', contract42_dyadSym_self hi hC',
    contract22_sub_left, contract22_smul_left, contract22_one_left]
  ext i j
  simp only [invHessT, invGradT, invariants', hh, Fin.sum_univ_three, Matrix.cons_val,
    Matrix.add_apply, Matrix.sub_apply, Matrix.smul_apply, smul_eq_mul, Matrix.one_mul,
    Matrix.mul_one]
  ring

end Spec

namespace Hel
namespace Invariants
open Spec PyM Matrix

variable {Z μ : Type}

/-- the pattern of `None`s with which `hessian` returns -/
def okPattern (r : InvGrad ℝ Z) (h : InvHess ℝ) : Prop :=
  (h.h11.isSome → r.d1.isSome) ∧ (h.h22.isSome → r.d2.isSome) ∧
  (h.h33.isSome → r.d2.isSome ∧ h.h22.isSome) ∧ (h.h12.isSome → r.d1.isSome ∧ r.d2.isSome) ∧
  (h.h23.isSome → r.d2.isSome ∧ r.d3.isSome) ∧ (h.h13.isSome → r.d1.isSome ∧ r.d3.isSome)

theorem addTermRes_returns {acc : Mat6 ℝ} {d c : Option ℝ} {a b : Option ℝ} {x y : Vec6 ℝ}
    {T : Vec6 ℝ → Vec6 ℝ → Mat6 ℝ} : (∃ M, addTermRes acc d c (loc a x) (loc b y) T = .ok M) ↔
      (d.isSome → (a.isSome ∧ b.isSome) ∧ c.isSome) := by
  cases d <;> cases a <;> cases b <;> cases c <;> simp [addTermRes, loc]

theorem bind_returns {α β : Type} {a : Res α} {f : α → Res β} {p q : Prop}
    (ha : (∃ x, a = .ok x) ↔ q) (h : ∀ x, (∃ M, f x = .ok M) ↔ p) :
    (∃ M, (a >>= f) = .ok M) ↔ q ∧ p := by
  rw [← ha]
  cases a with
  | error e => simp [bind, Except.bind]
  | ok x => simpa [bind, Except.bind] using h x

theorem hessRes_returns (C : Vec6 ℝ) (r : InvGrad ℝ Z) (h : InvHess ℝ) :
    (∃ M, hessRes C r h = .ok M) ↔ okPattern r h := by
  unfold hessRes
  dsimp only
  refine (bind_returns addTermRes_returns fun _ => bind_returns addTermRes_returns fun _ =>
    bind_returns addTermRes_returns fun _ => bind_returns addTermRes_returns fun _ =>
    bind_returns addTermRes_returns fun _ => addTermRes_returns).trans ?_
  simp only [okPattern]
  cases h.h11 <;> cases h.h22 <;> cases h.h33 <;> cases h.h12 <;> cases h.h23 <;> cases h.h13 <;> simp

end Invariants
end Hel
