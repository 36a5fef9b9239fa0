import Verif.Proofs.StretchesModels
import Verif.Props.StretchesChoice
import Verif.Props.Generalized

/-! # Property C22: the deformation measure with exponent 2 -/

namespace Props
open Spec Hel Matrix

variable {Z μ : Type}

/-- The model with the deformation measure of exponent 2. -/
theorem exponent2 {g : GenInv} (hg : GenInv.init (deformationFun 2) = .ok g) :
    g.c1 = 1 ∧ g.c2 = 1 ∧ ∀ w : Fin 3 → ℝ, (∀ a, 0 < w a) → ∀ a, g.ev (Stretches.roots w) a = w a ∧
      g.dev (Stretches.roots w) a = 2 * Stretches.roots w a ∧ g.d2ev (Stretches.roots w) a = 2 := by
  obtain ⟨h1, h2, h3, -⟩ := GenInv.init_ok hg (measures_deformation 2)
  obtain ⟨-, e1, e2⟩ := C13_init_deformation (k := 2) two_ne_zero
  refine ⟨by rw [h2, e1]; norm_num, by rw [h3, e2]; norm_num, fun w hw a => ?_⟩
  have hr := Stretches.roots_sq hw a
  simp only [GenInv.ev, GenInv.dev, GenInv.d2ev, h1, deformationFun, deformationEval]
  refine ⟨by rw [Real.rpow_two, hr], ?_, ?_⟩
  · norm_num
  · norm_num

/-- The invariants of the model are the invariants of `C`. -/
theorem exponent2_J {g : GenInv} (hg : GenInv.init (deformationFun 2) = .ok g) {C v : Ten2 ℝ} {w : Fin 3 → ℝ}
    (h : Spectral C w v) (hw : ∀ a, 0 < w a) : g.J (Stretches.roots w) = invariants C := by
  obtain ⟨h1, h2, he⟩ := exponent2 hg
  have hC : C = rotate v (diagonal w) := h.eq
  rw [hC, invariants_rotate _ h.orthogonal]
  funext k
  fin_cases k
  · simp [GenInv.J, GenInv.J1, h1, (he w hw _).1, invariants, Matrix.trace, Fin.sum_univ_three]
  · simp [GenInv.J, GenInv.J2, h2, (he w hw _).1, invariants, inv2, Matrix.trace, Fin.sum_univ_three]
    ring
  · simp [GenInv.J, GenInv.J3, (he w hw _).1, invariants, Fin.prod_univ_three]

theorem inv_diagonal' {w : Fin 3 → ℝ} (hw : ∀ a, 0 < w a) : (diagonal w : Ten2 ℝ)⁻¹ = diagonal fun a => (w a)⁻¹ := by
  refine Matrix.inv_eq_left_inv ?_
  rw [Matrix.diagonal_mul_diagonal]
  have : (fun i => (w i)⁻¹ * w i) = fun _ => 1 := funext fun a => inv_mul_cancel₀ (hw a).ne'
  rw [this, Matrix.diagonal_one]

/-- The principal values of the gradient of the `Invariants` framework. -/
theorem exponent2_dlC {g : GenInv} (hg : GenInv.init (deformationFun 2) = .ok g) {w : Fin 3 → ℝ} (hw : ∀ a, 0 < w a)
    (r : Fin 3 → ℝ) : diagonal (Stretches.dlC (Stretches.roots w) fun a => ∑ k, r k * g.dJ (Stretches.roots w) k a) =
      invGradT (diagonal w) r := by
  obtain ⟨h1, h2, he⟩ := exponent2 hg
  have h0 : ∀ a, Stretches.roots w a ≠ 0 := fun a => (Stretches.roots_pos hw a).ne'
  have hw0 : ∀ a, w a ≠ 0 := fun a => (hw a).ne'
  rw [invGradT, inv_diagonal' hw]
  ext i j
  rcases eq_or_ne i j with rfl | hij
  · have e0 := h0 0; have e1 := h0 1; have e2 := h0 2
    have f0 := hw0 0; have f1 := hw0 1; have f2 := hw0 2
    fin_cases i <;>
    · simp [Stretches.dlC, GenInv.dJ, GenInv.dJ2, GenInv.dJ3, take, h1, h2, (he w hw _).1, (he w hw _).2.1, Fin.sum_univ_three,
        Matrix.trace, Fin.prod_univ_three]
      field_simp
      try ring
  · simp [hij]

/-- The second derivatives with respect to the eigenvalues. -/
theorem exponent2_Dmat {g : GenInv} (hg : GenInv.init (deformationFun 2) = .ok g) {w : Fin 3 → ℝ} (hw : ∀ a, 0 < w a)
    (q : InvGrad ℝ Z) (k : InvHess ℝ) (h3 : q.d3.getD 0 = 0) (h13 : k.h13.getD 0 = 0) (h23 : k.h23.getD 0 = 0)
    (h33 : k.h33.getD 0 = 0) (a b : Fin 3) :
    Stretches.Dmat (Stretches.roots w) (GenInv.gradPure g (Stretches.roots w) q)
      (StrHess.mat (.array (GenInv.hessPure g (Stretches.roots w) q k))) a b =
    k.h11.getD 0 + k.h12.getD 0 * ((w 0 + w 1 + w 2 - w a) + (w 0 + w 1 + w 2 - w b)) +
      k.h22.getD 0 * ((w 0 + w 1 + w 2 - w a) * (w 0 + w 1 + w 2 - w b)) + (if a = b then 0 else q.d2.getD 0) := by
  obtain ⟨h1, h2, he⟩ := exponent2 hg
  have h0 : ∀ a, Stretches.roots w a ≠ 0 := fun a => (Stretches.roots_pos hw a).ne'
  have hsq := Stretches.roots_sq hw
  have hw0 : ∀ a, w a ≠ 0 := fun a => (hw a).ne'
  simp only [Stretches.Dmat, GenInv.hessPure_eq, Stretches.dlC, GenInv.gradPure_eq, GenInv.dJ, GenInv.d2J, (he w hw _).2.1,
    (he w hw _).2.2, h3, zero_mul, ite_self, add_zero, hsq, InvHess.mat, InvGrad.vec, h13, h23, h33, h1, h2]
  have e0 := h0 0; have e1 := h0 1; have e2 := h0 2
  have f0 := hw0 0; have f1 := hw0 1; have f2 := hw0 2
  have s0 := hsq 0; have s1 := hsq 1; have s2 := hsq 2
  fin_cases a <;> fin_cases b <;>
  · simp [GenInv.dJ2, GenInv.dJ3, take, h1, h2, (he w hw _).1, Fin.sum_univ_three]
    field_simp
    try rw [s0]
    try rw [s1]
    try rw [s2]
    try field_simp
    try ring

/-- The hessian of the `Invariants` framework, applied to a velocity. -/
theorem invariants_contract {c : Vec6 ℝ} {C X : Ten2 ℝ} (hc : Stores c C) (hC : PosDef C) (hX : X.IsSymm)
    {q : InvGrad ℝ Z} {k : InvHess ℝ} {M : Mat6 ℝ} (h : Invariants.hessRes c q k = .ok M) (h33 : k.h33 = none) :
    contract42 (astensor4 M) X = invHessT C X (InvGrad.vec q) (fun a => ∑ b, InvHess.mat k a b * invariants' C X b) := by
  have hTc := T2_eq hc
  have e := Invariants.hessRes_ok h
  rw [h33] at e
  simp only [Option.elim, add_zero] at e
  rw [show M = Invariants.hessPure c q k from e, Invariants.T4_hessPure c (by rw [hTc]; exact hC.det_ne_zero), hTc]
  refine contract42_invHess hC.1 hX _ _ _ _ _ _ _ _ ?_ ?_ _ ?_
  · rfl
  · rfl
  · simp only [InvHess.mat, h33, Option.getD_none]

variable (lapack : Eigh) (hl : EighValid lapack)
include hl

/-- `GeneralizedInvariants(model, deformation, exponent=2)` returns the same gradient and state
variables as `Invariants(model)`, for every model: also when derivatives are `None`, with any state
variables, and raises if the other raises. -/
theorem C22_gradient {g : GenInv} (hg : GenInv.init (deformationFun 2) = .ok g) (mat : InvMat ℝ Z μ) (z : Z)
    {c : Vec6 ℝ} {C : Ten2 ℝ} (hc : Stores c C) (hC : PosDef C) (s : InvSt ℝ μ) (s' : StrSt (GenSt μ))
    (hs : s'.material.material = s.material) (r : Vec6 ℝ × Z) :
    Returns ((Invariants.material mat).gradient c z) s r ↔
      Returns ((generalizedFramework lapack g mat).gradient c z) s' r := by
  obtain ⟨G, z'⟩ := r
  have hS : Spectral C (Stretches.vals lapack C) (Stretches.vecs lapack C) := hl C hc.symm
  have hw : ∀ a, 0 < Stretches.vals lapack C a := fun a => hS.pos hC a
  have hJ := exponent2_J hg hS hw
  have hTc := T2_eq hc
  have key : ∀ q : InvGrad ℝ Z, Invariants.gradPure c q = Stretches.gradPure (Stretches.roots (Stretches.vals lapack C))
      (Stretches.bases (Stretches.vecs lapack C)) (GenInv.gradPure g (Stretches.roots (Stretches.vals lapack C)) q) := by
    intro q
    apply T2_injective
    have e : GenInv.gradPure g (Stretches.roots (Stretches.vals lapack C)) q = fun a => ∑ k, InvGrad.vec q k *
        g.dJ (Stretches.roots (Stretches.vals lapack C)) k a := funext fun a => GenInv.gradPure_eq ..
    rw [Invariants.T2_gradPure _ (by rw [hTc]; exact hC.det_ne_zero), hTc, Stretches.T2_gradPure, e, exponent2_dlC hg hw]
    have hd : (diagonal (Stretches.vals lapack C) : Ten2 ℝ).det ≠ 0 := (posDef_diagonal hw).det_ne_zero
    have e2 : C = rotate (Stretches.vecs lapack C) (diagonal (Stretches.vals lapack C)) := hS.eq
    conv_lhs => rw [e2]
    change _ = rotate (Stretches.vecs lapack C) _
    simp only [invGradT, rotate_add, rotate_smul, rotate_sub, rotate_one hS.orthogonal, trace_rotate _ hS.orthogonal,
      det_rotate _ hS.orthogonal, inv_rotate _ hS.orthogonal hd]
  have e0 := congrFun hJ 0
  have e1 := congrFun hJ 1
  have e2 := congrFun hJ 2
  constructor
  · intro h
    obtain ⟨q, h1, rfl, rfl⟩ := (Invariants.returns_gradient ..).1 h
    refine (Stretches.returns_gradient ..).2 ?_
    rw [Stretches.eighSqrt_eq lapack hc]
    refine ⟨_, (GenInv.returns_gradient ..).2 ⟨q, ?_, rfl, rfl⟩, key q⟩
    rw [hTc, ← e0, ← e1, ← e2] at h1
    rw [hs]; exact h1
  · intro h
    obtain ⟨d, h1, rfl⟩ := (Stretches.returns_gradient ..).1 h
    rw [Stretches.eighSqrt_eq lapack hc] at h1 ⊢
    obtain ⟨q, h2, rfl, rfl⟩ := (GenInv.returns_gradient ..).1 h1
    refine (Invariants.returns_gradient ..).2 ⟨q, ?_, (key q).symm, rfl⟩
    rw [hTc, ← e0, ← e1, ← e2, ← hs]
    exact h2


/-- The same hessian for every model without dependence on the third invariant which keeps its
state variables and whose results do not depend on earlier calls: whenever the `Invariants`
framework returns, the other returns the same.  Unequal eigenvalues of `C` have to differ by more
than numpy's tolerance. -/
theorem C22_hessian {g : GenInv} (hg : GenInv.init (deformationFun 2) = .ok g) (mat : InvMat ℝ Z μ) (z : Z)
    (hz : InvMat.KeepsState mat z) (hf : InvMat.HistoryFree mat)
    (h3 : ∀ I1 I2 I3 s r, Returns (mat.gradient I1 I2 I3 z) s r → r.d3.getD 0 = 0)
    (h33 : ∀ I1 I2 I3 s r, Returns (mat.hessian I1 I2 I3 z) s r → r.h33 = none ∧ r.h13.getD 0 = 0 ∧ r.h23.getD 0 = 0)
    {c : Vec6 ℝ} {C : Ten2 ℝ} (hc : Stores c C) (hC : PosDef C) (hsep : Separated C) (s : InvSt ℝ μ)
    (s' : StrSt (GenSt μ)) (M : Mat6 ℝ) (h : Returns ((Invariants.material mat).hessian c z) s M) :
    Returns ((generalizedFramework lapack g mat).hessian c z) s' M := by
  have hS : Spectral C (Stretches.vals lapack C) (Stretches.vecs lapack C) := hl C hc.symm
  generalize hwv : Stretches.vals lapack C = w at hS
  generalize hvv : Stretches.vecs lapack C = v at hS
  have hw : ∀ a, 0 < w a := fun a => hS.pos hC a
  have hJ := exponent2_J hg hS hw
  have hTc := T2_eq hc
  have e0 := congrFun hJ 0
  have e1 := congrFun hJ 1
  have e2 := congrFun hJ 2
  obtain ⟨q, k, m, h1, h2, h4⟩ := (Invariants.returns_hessian ..).1 h
  have hq : Returns (mat.gradient (invariants (T2 c) 0) (invariants (T2 c) 1) (invariants (T2 c) 2) z) s.material q :=
    congrArg Prod.fst h1
  have hsv := hz _ _ _ _ _ hq
  rw [hsv] at h2
  obtain ⟨k33, k13, k23⟩ := h33 _ _ _ _ _ h2
  have q3 := h3 _ _ _ _ _ hq
  -- the calls of the model
  rw [hTc, ← e0, ← e1, ← e2] at hq h2
  have hgm : ∀ m', mat.gradient (g.J1 (g.ev (Stretches.roots w))) (g.J2 (g.ev (Stretches.roots w)))
      (GenInv.J3 (g.ev (Stretches.roots w))) z m' = (.ok q, (mat.gradient (g.J1 (g.ev (Stretches.roots w)))
        (g.J2 (g.ev (Stretches.roots w))) (GenInv.J3 (g.ev (Stretches.roots w))) z m').2) := fun m' =>
    Prod.ext ((hf _ _ _ _ _ _).1.trans hq) rfl
  have hhm : ∀ m', Returns (mat.hessian (g.J1 (g.ev (Stretches.roots w))) (g.J2 (g.ev (Stretches.roots w)))
      (GenInv.J3 (g.ev (Stretches.roots w))) z) m' k := fun m' => (hf _ _ _ _ _ _).2.trans h2
  have hgg : ∀ t : GenSt μ, (g.mat mat).gradient (Stretches.roots w) z t =
      (.ok (GenInv.gradPure g (Stretches.roots w) q, z), ((g.mat mat).gradient (Stretches.roots w) z t).2) := fun t =>
    Prod.ext ((GenInv.returns_gradient ..).2 ⟨q, congrArg Prod.fst (hgm _), rfl, hsv.symm⟩) rfl
  refine (Stretches.returns_hessian ..).2 ?_
  rw [Stretches.eighSqrt_eq lapack hc, hwv, hvv]
  refine ⟨_, _, _, _, hgg _, (GenInv.returns_hessian ..).2 ⟨q, _, k, hgm _, hhm _, rfl⟩, ?_⟩
  refine astensor4_ext fun X hX => ?_
  rw [Stretches.contract_hessPure _ _ _ _ hX]
  -- the hessian of the `Invariants` framework
  have eM : contract42 (astensor4 M) X = invHessT C X (InvGrad.vec q)
      (fun a => ∑ b, InvHess.mat k a b * invariants' C X b) :=
    invariants_contract hc hC hX h4 k33
  rw [eM]
  let Y : Ten2 ℝ := vᵀ * X * v
  have eX : X = rotate v Y := by
    have := hS.orthogonal.mul_transpose
    calc X = (v * vᵀ) * X * (v * vᵀ) := by rw [this, Matrix.one_mul, Matrix.mul_one]
      _ = _ := by simp only [rotate, Y, Matrix.mul_assoc]
  have eC : C = rotate v (diagonal w) := hS.eq
  have h20 : InvGrad.vec q 2 = 0 := q3
  have eH : invHessT C X (InvGrad.vec q) (fun a => ∑ b, InvHess.mat k a b * invariants' C X b) =
      rotate v ((∑ b, InvHess.mat k 0 b * invariants' (diagonal w) Y b) • (1 : Ten2 ℝ) +
        (∑ b, InvHess.mat k 1 b * invariants' (diagonal w) Y b) • ((diagonal w : Ten2 ℝ).trace • (1 : Ten2 ℝ) - diagonal w) +
        q.d2.getD 0 • (Y.trace • (1 : Ten2 ℝ) - Y)) := by
    have hk2 : ∀ b, InvHess.mat k 2 b = 0 := by
      intro b
      fin_cases b
      · exact k13
      · exact k23
      · show k.h33.getD 0 = 0
        rw [k33]; rfl
    have hinv : ∀ a, ∑ b, InvHess.mat k a b * invariants' C X b = ∑ b, InvHess.mat k a b * invariants' (diagonal w) Y b := by
      intro a
      have h0 : invariants' C X 0 = invariants' (diagonal w) Y 0 := by
        show X.trace = Y.trace
        rw [eX, trace_rotate _ hS.orthogonal]
      have h1 : invariants' C X 1 = invariants' (diagonal w) Y 1 := by
        show C.trace * X.trace - contract22 C X = (diagonal w : Ten2 ℝ).trace * Y.trace - contract22 (diagonal w) Y
        rw [eX, eC, trace_rotate _ hS.orthogonal, trace_rotate _ hS.orthogonal, contract22_rotate hS.orthogonal]
      have h2 : InvHess.mat k a 2 = 0 := by
        rw [← hk2 a]
        fin_cases a <;> rfl
      simp only [Fin.sum_univ_three, h0, h1, h2, zero_mul]
    simp only [hinv]
    rw [invHessT, invGradT]
    simp only [hk2, zero_mul, Finset.sum_const_zero, zero_smul, add_zero, h20]
    simp only [rotate_add, rotate_smul, rotate_sub, rotate_one hS.orthogonal]
    rw [← eC, ← eX, eC, eX, trace_rotate _ hS.orthogonal, trace_rotate _ hS.orthogonal]
    rfl
  rw [eH]
  show rotate v _ = rotate v _
  congr 1
  have hk2 : InvHess.mat k 0 2 = 0 ∧ InvHess.mat k 1 2 = 0 := ⟨k13, k23⟩
  have hc22 : contract22 (diagonal w : Ten2 ℝ) Y = w 0 * Y 0 0 + w 1 * Y 1 1 + w 2 * Y 2 2 := by
    simp [contract22, Fin.sum_univ_three]
  have htr : (diagonal w : Ten2 ℝ).trace = w 0 + w 1 + w 2 := by
    simp [Matrix.trace, Fin.sum_univ_three]
  ext a b
  rcases eq_or_ne a b with rfl | hab
  · simp only [kmap, if_true, exponent2_Dmat hg hw q k q3 k13 k23 (by rw [k33]; rfl), Matrix.add_apply, Matrix.smul_apply,
      Matrix.sub_apply, Matrix.one_apply_eq, Matrix.diagonal_apply_eq, smul_eq_mul, Fin.sum_univ_three, hk2.1, hk2.2, htr]
    simp only [invariants', InvHess.mat, Matrix.cons_val, htr, hc22]
    rw [Matrix.trace, Fin.sum_univ_three]
    fin_cases a <;> simp [Y] <;> ring
  · simp only [kmap, if_neg hab, Matrix.add_apply, Matrix.smul_apply,
      Matrix.sub_apply, Matrix.one_apply_ne hab, Matrix.diagonal_apply_ne _ hab, smul_eq_mul, mul_zero, sub_zero, zero_add,
      zero_sub]
    have hcr : Stretches.cross' (Stretches.roots w)
        (Stretches.dlC (Stretches.roots w) (GenInv.gradPure g (Stretches.roots w) q))
        (Stretches.Dmat (Stretches.roots w) (GenInv.gradPure g (Stretches.roots w) q)
          (StrHess.mat (.array (GenInv.hessPure g (Stretches.roots w) q k)))) a b = - q.d2.getD 0 := by
      rcases hsep _ _ hS a b with heq | hne
      · have hd : ∀ i j, i ≠ j → w i = w j → Stretches.cross (Stretches.roots w)
            (Stretches.dlC (Stretches.roots w) (GenInv.gradPure g (Stretches.roots w) q))
            (Stretches.Dmat (Stretches.roots w) (GenInv.gradPure g (Stretches.roots w) q)
            (StrHess.mat (.array (GenInv.hessPure g (Stretches.roots w) q k)))) i j = - q.d2.getD 0 := by
          intro i j hij hw'
          have hcl : Stretches.isclose0 (Stretches.roots w i ^ 2 - Stretches.roots w j ^ 2) := by
            rw [Stretches.isclose_iff hw, hw', sub_self, abs_zero]; positivity
          rw [Stretches.cross, if_pos hcl, exponent2_Dmat hg hw q k q3 k13 k23 (by rw [k33]; rfl),
            exponent2_Dmat hg hw q k q3 k13 k23 (by rw [k33]; rfl), if_pos rfl, if_neg hij, hw']
          ring
        unfold Stretches.cross'
        split_ifs
        · exact hd _ _ hab heq
        · exact hd _ _ (Ne.symm hab) heq.symm
      · rw [Stretches.cross_ne hw hne]
        have hdl : ∀ i, Stretches.dlC (Stretches.roots w) (GenInv.gradPure g (Stretches.roots w) q) i =
            q.d1.getD 0 + q.d2.getD 0 * (w 0 + w 1 + w 2 - w i) := by
          intro i
          have e : GenInv.gradPure g (Stretches.roots w) q = fun a => ∑ k, InvGrad.vec q k *
            g.dJ (Stretches.roots w) k a := funext fun a => GenInv.gradPure_eq ..
          have := congrFun (congrFun (exponent2_dlC hg hw (InvGrad.vec q)) i) i
          rw [Matrix.diagonal_apply_eq] at this
          rw [e, this, invGradT, h20, zero_smul, add_zero, htr]
          simp [InvGrad.vec]
        have hne' : w a - w b ≠ 0 := by
          intro h0; rw [h0, abs_zero] at hne
          norm_num at hne
        rw [hdl, hdl]
        field_simp
        ring
    rw [hcr]
    ring

/-- A Mooney-Rivlin material meets the hypotheses of C22 on the material. -/
example : (∃ g, GenInv.init (deformationFun 2) = .ok g) ∧
    InvMat.KeepsState (TOD.init 1 2 0 0 0 false).mat () ∧
    (∀ I1 I2 I3 s r, Returns ((TOD.init 1 2 0 0 0 false : TOD ℝ).mat.gradient I1 I2 I3 ()) s r → r.d3.getD 0 = 0) := by
  refine ⟨?_, C10_statevars _ _ _ _ _ _ _, ?_⟩
  · exact (C13_init_deformation two_ne_zero).1
  · intro I1 I2 I3 s r h
    simp only [Returns, TOD.mat, PyM.lift_run, TOD.gradient_eq, Except.ok.injEq] at h
    rw [← h]
    rfl

end Props
