import Verif.Props.Initial
import Verif.Props.LabOgden

/-! # Property C60: material stability - ellipticity of the elasticity tensors, sign of the stress -/

namespace Props
open Spec Hel Matrix Filter Topology

variable {Z μ : Type}

/-- `A_iJkL a_i b_J a_k b_L`: the quadratic form of an elasticity tensor on the displacement gradient `a ⊗ b` of a plane wave. -/
noncomputable def acoustic (A : Ten4 ℝ) (a b : Fin 3 → ℝ) : ℝ :=
  contract22 (contract42 A (vecMulVec a b)) (vecMulVec a b)

/-- The quadratic form of the elasticity is the second derivative of the energy along a straight line. -/
theorem second_derivative {dom : Ten2 ℝ → Prop} {ψ : Ten2 ℝ → ℝ} {ret : Ten2 ℝ → Ten2 ℝ → Prop} {retH : Ten2 ℝ → Ten4 ℝ → Prop}
    (hg : IsGradient dom ψ ret) (hh : IsHessian dom ret retH) (F U : Ten2 ℝ) (hdom : ∀ᶠ t in 𝓝 (0 : ℝ), dom (F + t • U))
    (hret : ∀ᶠ t in 𝓝 (0 : ℝ), ∃ P, ret (F + t • U) P) {A : Ten4 ℝ} (hA : retH F A) {f f' : ℝ → ℝ} {c : ℝ}
    (hf : ∀ t, ψ (F + t • U) = f t) (hf' : ∀ᶠ t in 𝓝 (0 : ℝ), HasDerivAt f (f' t) t) (hf'' : HasDerivAt f' c 0) :
    contract22 (contract42 A U) U = c := by
  obtain ⟨P, hP⟩ := hret.choice
  have hm : ∀ t₀ : ℝ, Moves (fun t => F + t • U) U t₀ := fun t₀ i j => by
    simpa using ((hasDerivAt_id t₀).mul_const (U i j)).const_add (F i j)
  have h1 := hh (fun t => F + t • U) U 0 P A hdom (hm 0) hP (by simpa using hA)
  have h2 : HasDerivAt (fun t => contract22 (P t) U) (contract22 (contract42 A U) U) 0 := by
    unfold contract22
    exact HasDerivAt.fun_sum fun i _ => HasDerivAt.fun_sum fun j _ => (h1 i j).mul_const (U i j)
  refine h2.unique (hf''.congr_of_eventuallyEq ?_)
  filter_upwards [hP, hf', hdom.eventually_nhds] with t h3 h4 h5
  have h6 := hg (fun t => F + t • U) U t (P t) h5 (hm t) h3
  simp only [hf] at h6
  exact h6.unique h4

theorem tod_deformation_returns (m : TOD ℝ) (z : Z) {F : Ten2 ℝ} (hF : F.det ≠ 0) :
    ∃ P, SpaceObj.Grad (Deformation.obj {} (Invariants.material m.mat)) z F P :=
  ⟨_, (Deformation.grad_iff ..).2 ⟨_, (tod_grad m z (symInv_cauchyGreen hF)).2 rfl, rfl⟩⟩

theorem tod_distortional_returns (m : TOD ℝ) (z : Z) {F : Ten2 ℝ} (hF : F.det ≠ 0) :
    ∃ P, SpaceObj.Grad (Distortional.obj {} (Invariants.material m.mat)) z F P :=
  ⟨_, (Distortional.grad_iff _ _ hF).2 ⟨_, (tod_grad m z (symInv_unimodular hF)).2 rfl, rfl⟩⟩

theorem det_line_ne {F : Ten2 ℝ} (hF : F.det ≠ 0) (U : Ten2 ℝ) : ∀ᶠ t in 𝓝 (0 : ℝ), (F + t • U).det ≠ 0 := by
  have : Continuous fun t : ℝ => (F + t • U).det := by fun_prop
  exact this.continuousAt.eventually_ne (by simpa using hF)

/-- The determinant along a rank-one line. -/
theorem det_rank_one (F : Ten2 ℝ) (a b : Fin 3 → ℝ) : ∃ d : ℝ, ∀ t : ℝ, (F + t • vecMulVec a b).det = F.det + t * d := by
  refine ⟨a 0 * b 0 * (F 1 1 * F 2 2 - F 1 2 * F 2 1) - a 0 * b 1 * (F 1 0 * F 2 2 - F 1 2 * F 2 0) +
    a 0 * b 2 * (F 1 0 * F 2 1 - F 1 1 * F 2 0) - a 1 * b 0 * (F 0 1 * F 2 2 - F 0 2 * F 2 1) +
    a 1 * b 1 * (F 0 0 * F 2 2 - F 0 2 * F 2 0) - a 1 * b 2 * (F 0 0 * F 2 1 - F 0 1 * F 2 0) +
    a 2 * b 0 * (F 0 1 * F 1 2 - F 0 2 * F 1 1) - a 2 * b 1 * (F 0 0 * F 1 2 - F 0 2 * F 1 0) +
    a 2 * b 2 * (F 0 0 * F 1 1 - F 0 1 * F 1 0), fun t => ?_⟩
  rw [det_fin_three, det_fin_three]
  simp only [Matrix.add_apply, Matrix.smul_apply, vecMulVec_apply, smul_eq_mul]
  ring

/-- The first invariant along a line. -/
theorem trace_line (F : Ten2 ℝ) (a b : Fin 3 → ℝ) : ∃ e : ℝ, e ^ 2 ≤ (cauchyGreen F).trace * ((a ⬝ᵥ a) * (b ⬝ᵥ b)) ∧
    ∀ t : ℝ, (cauchyGreen (F + t • vecMulVec a b)).trace =
      (cauchyGreen F).trace + 2 * t * e + t ^ 2 * ((a ⬝ᵥ a) * (b ⬝ᵥ b)) := by
  have tr : ∀ G : Ten2 ℝ, (cauchyGreen G).trace = ∑ i, ∑ j, G i j ^ 2 := by
    intro G
    simp only [cauchyGreen, Matrix.trace, Matrix.diag_apply, Matrix.mul_apply, Matrix.transpose_apply]
    rw [Finset.sum_comm]
    exact Finset.sum_congr rfl fun i _ => Finset.sum_congr rfl fun j _ => by ring
  refine ⟨∑ i, ∑ j, F i j * (a i * b j), ?_, fun t => ?_⟩
  · rw [tr]
    have h := Finset.sum_mul_sq_le_sq_mul_sq (Finset.univ : Finset (Fin 3 × Fin 3)) (fun p => F p.1 p.2) fun p => a p.1 * b p.2
    simp only [Fintype.sum_prod_type] at h
    refine h.trans (le_of_eq ?_)
    congr 1
    simp only [dotProduct, Fin.sum_univ_three]
    ring
  · rw [tr, tr]
    simp only [Fin.sum_univ_three, Matrix.add_apply, Matrix.smul_apply, vecMulVec_apply, smul_eq_mul, dotProduct]
    ring

/-- The second invariant along a rank-one line is a quadratic function with a sum of squares as leading coefficient. -/
theorem inv2_line (F : Ten2 ℝ) (a b : Fin 3 → ℝ) : ∃ e q : ℝ, 0 ≤ q ∧
    ∀ t : ℝ, inv2 (cauchyGreen (F + t • vecMulVec a b)) = inv2 (cauchyGreen F) + t * e + t ^ 2 * q := by
  -- `cof (F + t a ⊗ b) = cof F + t K`
  let c : Ten2 ℝ → Fin 3 → Fin 3 → ℝ := fun G i j => G (i + 1) (j + 1) * G (i + 2) (j + 2) - G (i + 1) (j + 2) * G (i + 2) (j + 1)
  have h1 : ∀ G : Ten2 ℝ, inv2 (cauchyGreen G) = ∑ i, ∑ j, c G i j ^ 2 := by
    intro G
    simp only [inv2, cauchyGreen, Matrix.trace, Matrix.diag_apply, Matrix.mul_apply, Matrix.transpose_apply, Fin.sum_univ_three, c,
      Fin.isValue, Fin.reduceAdd]
    ring
  let K : Fin 3 → Fin 3 → ℝ := fun i j => F (i + 1) (j + 1) * (a (i + 2) * b (j + 2)) + F (i + 2) (j + 2) * (a (i + 1) * b (j + 1)) -
    F (i + 1) (j + 2) * (a (i + 2) * b (j + 1)) - F (i + 2) (j + 1) * (a (i + 1) * b (j + 2))
  have h2 : ∀ (t : ℝ) i j, c (F + t • vecMulVec a b) i j = c F i j + t * K i j := by
    intro t i j
    simp only [c, K, Matrix.add_apply, Matrix.smul_apply, vecMulVec_apply, smul_eq_mul]
    ring
  refine ⟨∑ i, ∑ j, 2 * c F i j * K i j, ∑ i, ∑ j, K i j ^ 2,
    Finset.sum_nonneg fun i _ => Finset.sum_nonneg fun j _ => sq_nonneg _, fun t => ?_⟩
  rw [h1, h1]
  simp only [h2, Fin.sum_univ_three]
  ring

/-- On the deformation space the elasticity of a Mooney-Rivlin material with nonnegative coefficients is elliptic at every
deformation gradient: plane waves have nonnegative (for `C10 > 0` positive) squared speed. -/
theorem C60_mooney_rivlin (C10 C01 : ℝ) (h01 : 0 ≤ C01) (strain : Bool) (z : Z) {F : Ten2 ℝ} (hF : F.det ≠ 0) {A : Ten4 ℝ}
    (hA : SpaceObj.Hess (Deformation.obj {} (Invariants.material (TOD.init C10 C01 0 0 0 strain).mat)) z F A) (a b : Fin 3 → ℝ) :
    2 * C10 * ((a ⬝ᵥ a) * (b ⬝ᵥ b)) ≤ acoustic A a b := by
  obtain ⟨e, -, he⟩ := trace_line F a b
  obtain ⟨e', q, hq, he'⟩ := inv2_line F a b
  set n := (a ⬝ᵥ a) * (b ⬝ᵥ b)
  set r : ℝ := if strain then 0 else 3
  have := second_derivative (C25_third_order C10 C01 0 0 0 strain z) (C26_third_order C10 C01 0 0 0 strain z) F (vecMulVec a b)
    (det_line_ne hF _) ((det_line_ne hF _).mono fun t ht => tod_deformation_returns _ z ht) hA
    (f := fun t => C10 * ((cauchyGreen F).trace + 2 * t * e + t ^ 2 * n - r) + C01 * (inv2 (cauchyGreen F) + t * e' + t ^ 2 * q - r))
    (f' := fun t => C10 * (2 * e + 2 * t * n) + C01 * (e' + 2 * t * q)) (c := C10 * (2 * n) + C01 * (2 * q))
    (fun t => by simp [todEnergy, invariants, he, he', r])
    (Eventually.of_forall fun t => by
      have i := hasDerivAt_id' t
      have i2 := (hasDerivAt_id' t).fun_pow 2
      refine (((((i.const_mul 2).mul_const e).const_add (cauchyGreen F).trace).fun_add (i2.mul_const n)).sub_const r |>.const_mul C10
        |>.fun_add ((((i.mul_const e').const_add (inv2 (cauchyGreen F))).fun_add (i2.mul_const q)).sub_const r |>.const_mul C01)).congr_deriv ?_
      simp)
    (by
      have i := hasDerivAt_id' (0 : ℝ)
      refine (((((i.const_mul 2).mul_const n).const_add (2 * e)).const_mul C10).fun_add
        ((((i.const_mul 2).mul_const q).const_add e').const_mul C01)).congr_deriv ?_
      ring)
  rw [acoustic, this]
  have := mul_nonneg h01 hq
  linarith

/-- The isochoric factor along a rank-one line. -/
theorem hasDerivAt_isochoric {J d p : ℝ} {t : ℝ} (h : J + t * d ≠ 0) :
    HasDerivAt (fun t => ((J + t * d) ^ 2) ^ p) (2 * p * d / (J + t * d) * ((J + t * d) ^ 2) ^ p) t := by
  have h1 : HasDerivAt (fun t : ℝ => (J + t * d) ^ 2) (2 * (J + t * d) * d) t := by
    have := (((hasDerivAt_id' t).mul_const d).const_add J).fun_pow 2
    refine this.congr_deriv ?_
    simp
  have hpos : 0 < (J + t * d) ^ 2 := by positivity
  refine (h1.rpow_const (p := p) (Or.inl hpos.ne')).congr_deriv ?_
  rw [Real.rpow_sub_one hpos.ne']
  field_simp

theorem hasDerivAt_isochoric' {J d p : ℝ} {t : ℝ} (h : J + t * d ≠ 0) :
    HasDerivAt (fun t => 2 * p * d / (J + t * d) * ((J + t * d) ^ 2) ^ p)
      ((4 * p ^ 2 - 2 * p) * (d / (J + t * d)) ^ 2 * ((J + t * d) ^ 2) ^ p) t := by
  have h1 : HasDerivAt (fun t : ℝ => J + t * d) d t := by simpa using ((hasDerivAt_id' t).mul_const d).const_add J
  have h2 : HasDerivAt (fun t : ℝ => 2 * p * d / (J + t * d)) (-(2 * p * d * d) / (J + t * d) ^ 2) t := by
    refine ((hasDerivAt_const t (2 * p * d)).fun_div h1 h).congr_deriv ?_
    simp
  refine (h2.fun_mul (hasDerivAt_isochoric h)).congr_deriv ?_
  field_simp
  ring

/-- `(det C)^(p)` times a quadratic function along a rank-one line: the second derivative at the origin. -/
theorem isochoric_second {J d p I e n r : ℝ} (hJ : J ≠ 0) : ∃ f' : ℝ → ℝ,
    (∀ᶠ t in 𝓝 (0 : ℝ), HasDerivAt (fun t => ((J + t * d) ^ 2) ^ p * (I + t * e + t ^ 2 * n) - r) (f' t) t) ∧
    HasDerivAt f' ((J ^ 2) ^ p * (2 * n + 4 * p * (d / J) * e + (4 * p ^ 2 - 2 * p) * (d / J) ^ 2 * I)) 0 := by
  have hq : ∀ t : ℝ, HasDerivAt (fun t => I + t * e + t ^ 2 * n) (e + 2 * t * n) t := by
    intro t
    refine ((((hasDerivAt_id' t).mul_const e).const_add I).fun_add (((hasDerivAt_id' t).fun_pow 2).mul_const n)).congr_deriv ?_
    simp
  have hne : ∀ᶠ t in 𝓝 (0 : ℝ), J + t * d ≠ 0 := by
    have : Continuous fun t : ℝ => J + t * d := by fun_prop
    exact this.continuousAt.eventually_ne (by simpa using hJ)
  refine ⟨fun t => 2 * p * d / (J + t * d) * ((J + t * d) ^ 2) ^ p * (I + t * e + t ^ 2 * n) +
    ((J + t * d) ^ 2) ^ p * (e + 2 * t * n), hne.mono fun t ht => ((hasDerivAt_isochoric ht).fun_mul (hq t)).sub_const r, ?_⟩
  have h0 := hne.self_of_nhds
  have hq' : HasDerivAt (fun t : ℝ => e + 2 * t * n) (2 * n) 0 := by
    refine (((((hasDerivAt_id' (0 : ℝ)).const_mul 2).mul_const n).const_add e)).congr_deriv ?_
    ring
  refine (((hasDerivAt_isochoric' h0).fun_mul (hq 0)).fun_add ((hasDerivAt_isochoric h0).fun_mul hq')).congr_deriv ?_
  simp only [zero_mul, add_zero, mul_zero]
  ring

theorem det_cauchyGreen (F : Ten2 ℝ) : (cauchyGreen F).det = F.det ^ 2 := by
  rw [cauchyGreen, det_mul, det_transpose, sq]

theorem tod_distortional_second (C10 C01 : ℝ) (strain : Bool) (z : Z) {F : Ten2 ℝ} (hF : F.det ≠ 0) {A : Ten4 ℝ}
    (htol : C01 = 0 ∨ 1 / 10 ^ 8 < |4 * (cauchyGreen F).det ^ (-2 / 3 : ℝ) * C01|)
    (hA : SpaceObj.Hess (Distortional.obj {} (Invariants.material (TOD.init C10 C01 0 0 0 strain).mat)) z F A) (U : Ten2 ℝ)
    {f f' : ℝ → ℝ} {c : ℝ}
    (hf : ∀ t, C10 * ((cauchyGreen (F + t • U)).det ^ (-1 / 3 : ℝ) * (cauchyGreen (F + t • U)).trace - if strain then 0 else 3) +
      C01 * ((cauchyGreen (F + t • U)).det ^ (-2 / 3 : ℝ) * inv2 (cauchyGreen (F + t • U)) - if strain then 0 else 3) = f t)
    (hf' : ∀ᶠ t in 𝓝 (0 : ℝ), HasDerivAt f (f' t) t) (hf'' : HasDerivAt f' c 0) : contract22 (contract42 A U) U = c := by
  have h := C28_hessian_partial _ z _ (C17_hessian_partial _ z (fun _ => True)
    (C10_hessian C10 C01 0 0 0 strain z) (C10_statevars C10 C01 0 0 0 strain z)
    (by
      intro I1 I2 I3 s r hr
      simp only [Returns, TOD.mat, PyM.lift_run, TOD.hessian_eq, Except.ok.injEq] at hr
      rw [← hr]; rfl))
  have hd := fun (F : Ten2 ℝ) (hF : F.det ≠ 0) => (show F.det ≠ 0 ∧ InvDom (fun _ => True) (unimodular (cauchyGreen F)) from
    ⟨hF, symInv_unimodular hF, trivial⟩)
  refine second_derivative
    (ψ := fun F => todEnergy C10 C01 0 0 0 (if strain then 0 else 3) (invariants (unimodular (cauchyGreen F))))
    (fun F F' t₀ P hF hm hP => C27_third_order C10 C01 0 0 0 strain z F F' t₀ P (hF.mono fun t ht => ht.1) hm hP)
    h F U ((det_line_ne hF U).mono fun t ht => hd _ ht) ((det_line_ne hF U).mono fun t ht => tod_distortional_returns _ z ht)
    ⟨fun H hH => ?_, hA⟩ (fun t => ?_) hf' hf''
  · rw [tod_hess _ _ (symInv_unimodular hF)] at hH
    subst hH
    rcases htol with rfl | h
    · left
      funext i j k l
      simp [todHessT, TOD.init]
    · right
      refine ⟨0, 0, 1, 1, ?_⟩
      simpa [todHessT, TOD.init, dyad, dyadSym] using h
  · rw [← hf t]
    by_cases h0 : (cauchyGreen (F + t • U)).det = 0
    · have e1 : unimodular (cauchyGreen (F + t • U)) = 0 := by
        rw [unimodular, h0, Real.zero_rpow (by norm_num), zero_smul]
      rw [e1, h0, Real.zero_rpow (by norm_num), Real.zero_rpow (by norm_num)]
      simp [todEnergy, invariants, inv2]
    have hp : 0 < (cauchyGreen (F + t • U)).det := by
      rw [det_cauchyGreen] at h0 ⊢
      positivity
    have e2 : ((cauchyGreen (F + t • U)).det ^ (-1 / 3 : ℝ)) ^ 2 = (cauchyGreen (F + t • U)).det ^ (-2 / 3 : ℝ) := by
      rw [← Real.rpow_natCast, ← Real.rpow_mul hp.le]
      norm_num
    simp only [todEnergy, invariants, unimodular, inv2, trace_smul, smul_eq_mul, Matrix.smul_mul, Matrix.mul_smul, cons_val_zero,
      cons_val_one, ← e2]
    ring

/-- On the distortional space the elasticity of a Neo-Hookean material is elliptic at every deformation gradient. -/
theorem C60_neo_hooke (C10 : ℝ) (h10 : 0 ≤ C10) (strain : Bool) (z : Z) {F : Ten2 ℝ} (hF : F.det ≠ 0) {A : Ten4 ℝ}
    (hA : SpaceObj.Hess (Distortional.obj {} (Invariants.material (TOD.init C10 0 0 0 0 strain).mat)) z F A) (a b : Fin 3 → ℝ) :
    2 / 5 * C10 * (cauchyGreen F).det ^ (-1 / 3 : ℝ) * ((a ⬝ᵥ a) * (b ⬝ᵥ b)) ≤ acoustic A a b := by
  obtain ⟨e, hle, he⟩ := trace_line F a b
  obtain ⟨d, hd⟩ := det_rank_one F a b
  set n := (a ⬝ᵥ a) * (b ⬝ᵥ b)
  obtain ⟨f', h1, h2⟩ := isochoric_second (J := F.det) (d := d) (p := -1 / 3) (I := C10 * (cauchyGreen F).trace) (e := C10 * (2 * e))
    (n := C10 * n) (r := C10 * if strain then 0 else 3) hF
  have := tod_distortional_second C10 0 strain z hF (Or.inl rfl) hA (vecMulVec a b) (fun t => by
    rw [det_cauchyGreen, hd, he, zero_mul, add_zero]
    ring) h1 h2
  rw [acoustic, this, det_cauchyGreen]
  have hp : 0 < (F.det ^ 2) ^ (-1 / 3 : ℝ) := Real.rpow_pos_of_pos (by positivity) _
  set J := (F.det ^ 2) ^ (-1 / 3 : ℝ)
  set I := (cauchyGreen F).trace
  set q := d / F.det
  have hI : 0 < I := by
    rw [show I = ∑ i, cauchyGreen F i i from rfl]
    refine Finset.sum_pos (fun i _ => ?_) Finset.univ_nonempty
    simpa using (posDef_cauchyGreen hF).2 (Pi.single i 1) (by simp)
  have key : 0 ≤ 8 / 5 * n - 8 / 3 * q * e + 10 / 9 * q ^ 2 * I := by
    have : 0 ≤ 10 / 9 * I * (8 / 5 * n - 8 / 3 * q * e + 10 / 9 * q ^ 2 * I) := by
      have : 10 / 9 * I * (8 / 5 * n - 8 / 3 * q * e + 10 / 9 * q ^ 2 * I) =
        (10 / 9 * I * q - 4 / 3 * e) ^ 2 + 16 / 9 * (I * n - e ^ 2) := by ring
      rw [this]
      have := sq_nonneg (10 / 9 * I * q - 4 / 3 * e)
      linarith
    exact nonneg_of_mul_nonneg_right this (by positivity)
  have := mul_nonneg (mul_nonneg h10 hp.le) key
  have e3 : J * (2 * (C10 * n) + 4 * (-1 / 3) * q * (C10 * (2 * e)) + (4 * (-1 / 3) ^ 2 - 2 * (-1 / 3)) * q ^ 2 * (C10 * I)) -
      2 / 5 * C10 * J * n = C10 * J * (8 / 5 * n - 8 / 3 * q * e + 10 / 9 * q ^ 2 * I) := by ring
  linarith

/-- A limit of the statement: with `C01 = 1` the distortional space does lose ellipticity (at a stretch of three). -/
theorem C60_mooney_limit (z : Z) (s : DistSt (InvSt ℝ Unit)) :
    ∃ A, Returns ((Distortional.obj {} (Invariants.material (TOD.init 0 1 0 0 0 false).mat)).hessian
        (diagonal ![3, 1, 1] : Ten2 ℝ) z) s (.full A) ∧ acoustic A ![1, 0, 0] ![1, 0, 0] < 0 := by
  obtain ⟨A, hA⟩ := tod_dist_hess_total (TOD.init 0 1 0 0 0 false) (diagonal ![3, 1, 1] : Ten2 ℝ) z s
  refine ⟨A, hA, ?_⟩
  have hline : ∀ t : ℝ, (diagonal ![3, 1, 1] : Ten2 ℝ) + t • vecMulVec ![1, 0, 0] ![1, 0, 0] = diagonal ![3 + t, 1, 1] := by
    intro t
    ext i j
    fin_cases i <;> fin_cases j <;> simp [vecMulVec_apply]
  have hC : ∀ l : ℝ, cauchyGreen (diagonal ![l, 1, 1] : Ten2 ℝ) = diagonal ![l ^ 2, 1, 1] := by
    intro l
    rw [cauchyGreen, diagonal_transpose, diagonal_mul_diagonal]
    congr 1; funext i; fin_cases i <;> simp [sq]
  have hdet : ∀ l : ℝ, (diagonal ![l ^ 2, 1, 1] : Ten2 ℝ).det = l ^ 2 := by
    intro l; simp [det_diagonal, Fin.prod_univ_three]
  obtain ⟨f', h1, h2⟩ := isochoric_second (J := 3) (d := 1) (p := -2 / 3) (I := 19) (e := 12) (n := 2) (r := 3) (by norm_num)
  have := tod_distortional_second 0 1 false z (F := (diagonal ![3, 1, 1] : Ten2 ℝ)) (by simp [det_diagonal, Fin.prod_univ_three])
    (Or.inr (by
      rw [hC, hdet, mul_one, abs_of_pos (by positivity)]
      have : (1 / 9 : ℝ) ≤ (3 ^ 2 : ℝ) ^ (-2 / 3 : ℝ) := by
        have := Real.rpow_le_rpow_of_exponent_le (x := (3 ^ 2 : ℝ)) (by norm_num) (show (-1 : ℝ) ≤ -2 / 3 by norm_num)
        rw [Real.rpow_neg_one] at this
        norm_num at this ⊢
        exact this
      have : (1 : ℝ) / 10 ^ 8 < 4 * (1 / 9) := by norm_num
      linarith)) ⟨s, hA⟩ (vecMulVec ![1, 0, 0] ![1, 0, 0]) (fun t => by
    rw [hline, hC, hdet]
    simp only [zero_mul, zero_add, one_mul, mul_one, Bool.false_eq_true, if_false]
    congr 2
    simp [inv2, diagonal_mul_diagonal, trace_diagonal, Fin.sum_univ_three]
    ring) h1 h2
  rw [acoustic, this]
  have : 0 < ((3 : ℝ) ^ 2) ^ (-2 / 3 : ℝ) := by positivity
  norm_num at this ⊢
  linarith

/-- The hypotheses are met: on both spaces an elasticity tensor is returned at every deformation gradient, by every object. -/
example (C10 : ℝ) (z : Z) (F : Ten2 ℝ) (s : DistSt (InvSt ℝ Unit)) :
    ∃ A, Returns ((Distortional.obj {} (Invariants.material (TOD.init C10 0 0 0 0 false).mat)).hessian F z) s (.full A) :=
  tod_dist_hess_total _ F z s

example (C10 C01 : ℝ) (z : Z) (F : Ten2 ℝ) (s : DefSt (InvSt ℝ Unit)) :
    ∃ A, Returns ((Deformation.obj {} (Invariants.material (TOD.init C10 C01 0 0 0 false).mat)).hessian F z) s (.full A) := by
  set m := TOD.init C10 C01 0 0 0 false
  obtain ⟨g, z', m', hg⟩ : ∃ g z' m', (Invariants.material (Z := Z) m.mat).gradient
      (rightCauchyGreen F) z s.material = (.ok (g, z'), m') := by
    change ∃ g z' m', Invariants.gradient _ _ _ _ = (.ok (g, z'), m')
    rw [Invariants.gradient_run]
    simp only [TOD.mat, PyM.lift_run, TOD.gradient_eq]
    exact ⟨_, _, _, rfl⟩
  obtain ⟨h, hh⟩ := tod_hess_total m (rightCauchyGreen F) z m'
  exact ⟨_, (Deformation.returns_hessian ..).2 ⟨g, z', m', h, hg, hh, (piolaElasticity_default ..).symm⟩⟩

/-! ### sign and monotonicity of the stress-stretch curves -/

/-- A strictly increasing function with a zero at one, times a positive function with its minimum at one. -/
theorem mul_monotone {g h : ℝ → ℝ} (hg : ∀ a b, 0 < a → a < b → g a < g b) (h1 : g 1 = 0) (h0 : ∀ a, 0 < a → 0 ≤ h a)
    (hl : ∀ a b, 0 < a → a < b → b ≤ 1 → h b ≤ h a) (hr : ∀ a b, 1 ≤ a → a < b → h a ≤ h b) (a b : ℝ) (ha : 0 < a) (hab : a < b) :
    g a * h a ≤ g b * h b := by
  have hb := ha.trans hab
  have hneg : ∀ c, 0 < c → c ≤ 1 → g c ≤ 0 := fun c hc h => by
    rcases h.eq_or_lt with rfl | h
    · exact h1.le
    · exact h1 ▸ (hg c 1 hc h).le
  have hpos : ∀ c, 1 ≤ c → 0 ≤ g c := fun c h => by
    rcases h.eq_or_lt with rfl | h
    · exact h1.ge
    · exact h1 ▸ (hg 1 c one_pos h).le
  rcases le_total b 1 with hb1 | hb1
  · have := hl a b ha hab hb1
    nlinarith [hg a b ha hab, hneg a ha (hab.le.trans hb1), h0 a ha, h0 b hb]
  · rcases le_total a 1 with ha1 | ha1
    · exact (mul_nonpos_of_nonpos_of_nonneg (hneg a ha ha1) (h0 a ha)).trans (mul_nonneg (hpos b hb1) (h0 b hb))
    · exact mul_le_mul (hg a b ha hab).le (hr a b ha1 hab) (h0 a ha) (hpos b hb1)

/-- The kinematic factors of the textbook curves increase. -/
theorem factor_lt {n m : ℕ} (hm : m ≠ 0) (a b : ℝ) (ha : 0 < a) (hab : a < b) : a ^ n - 1 / a ^ m < b ^ n - 1 / b ^ m := by
  have h1 : a ^ n ≤ b ^ n := pow_le_pow_left₀ ha.le hab.le n
  have h2 : 1 / b ^ m < 1 / a ^ m := one_div_lt_one_div_of_lt (by positivity) (pow_lt_pow_left₀ hab ha.le hm)
  linarith

/-- `p l^n + q / l^m` with `p n = q m` has its minimum at one. -/
theorem valley {p q : ℝ} {n m : ℕ} (hp : 0 < p) (hpq : p * n = q * m) :
    (∀ a b : ℝ, 0 < a → a < b → b ≤ 1 → p * b ^ n + q / b ^ m ≤ p * a ^ n + q / a ^ m) ∧
    (∀ a b : ℝ, 1 ≤ a → a < b → p * a ^ n + q / a ^ m ≤ p * b ^ n + q / b ^ m) := by
  have hd : ∀ l : ℝ, 0 < l → HasDerivAt (fun l : ℝ => p * l ^ n + q / l ^ m) (p * n * ((l ^ (n + m) - 1) / l ^ (m + 1))) l := by
    intro l hl
    have hl0 := hl.ne'
    refine (((hasDerivAt_pow n l).const_mul p).fun_add ((hasDerivAt_const l q).fun_div (hasDerivAt_pow m l) (by positivity))).congr_deriv ?_
    rcases n with _ | n <;> rcases m with _ | m
    · simp
    · simp at hpq; rcases hpq with rfl | h
      · simp
      · exact absurd h (by positivity)
    · simp at hpq; rcases hpq with rfl | h
      · simp at hp
      · exact absurd h (by positivity)
    · simp only [Nat.add_sub_cancel] at *
      have : q = p * ((n + 1 : ℕ) : ℝ) / ((m + 1 : ℕ) : ℝ) := by
        rw [hpq]; field_simp
      rw [this]
      field_simp
      ring
  constructor
  · intro a b ha hab hb
    have : AntitoneOn (fun l : ℝ => p * l ^ n + q / l ^ m) (Set.Icc a b) := by
      refine antitoneOn_of_hasDerivWithinAt_nonpos (convex_Icc a b)
        (fun l hl => (hd l (ha.trans_le hl.1)).continuousAt.continuousWithinAt)
        (fun l hl => (hd l (ha.trans_le (interior_subset hl).1)).hasDerivWithinAt) (fun l hl => ?_)
      obtain ⟨h1, h2⟩ := interior_subset hl
      have hl0 := ha.trans_le h1
      have : l ^ (n + m) ≤ 1 := pow_le_one₀ hl0.le (h2.trans hb)
      exact mul_nonpos_of_nonneg_of_nonpos (by positivity) (div_nonpos_of_nonpos_of_nonneg (by linarith) (by positivity))
    exact this (Set.left_mem_Icc.2 hab.le) (Set.right_mem_Icc.2 hab.le) hab.le
  · intro a b ha hab
    have : MonotoneOn (fun l : ℝ => p * l ^ n + q / l ^ m) (Set.Icc a b) := by
      refine monotoneOn_of_hasDerivWithinAt_nonneg (convex_Icc a b)
        (fun l hl => (hd l (one_pos.trans_le (ha.trans hl.1))).continuousAt.continuousWithinAt)
        (fun l hl => (hd l (one_pos.trans_le (ha.trans (interior_subset hl).1))).hasDerivWithinAt) (fun l hl => ?_)
      obtain ⟨h1, h2⟩ := interior_subset hl
      have hl0 := one_pos.trans_le (ha.trans h1)
      have : 1 ≤ l ^ (n + m) := one_le_pow₀ (ha.trans h1)
      exact mul_nonneg (by positivity) (div_nonneg (by linarith) (by positivity))
    exact this (Set.left_mem_Icc.2 hab.le) (Set.right_mem_Icc.2 hab.le) hab.le

/-- A function on the stretches with its minimum, zero, at one. -/
structure Valley (g : ℝ → ℝ) : Prop where
  pos : ∀ a, 0 < a → 0 ≤ g a
  left : ∀ a b, 0 < a → a < b → b ≤ 1 → g b ≤ g a
  right : ∀ a b, 1 ≤ a → a < b → g a ≤ g b

theorem Valley.of_pow {p q c : ℝ} {n m : ℕ} (hp : 0 < p) (hpq : p * n = q * m) (hc : p + q = c) :
    Valley fun l : ℝ => p * l ^ n + q / l ^ m - c := by
  obtain ⟨hl, hr⟩ := valley hp hpq
  refine ⟨fun a ha => ?_, fun a b ha hab hb => sub_le_sub_right (hl a b ha hab hb) c, fun a b ha hab => sub_le_sub_right (hr a b ha hab) c⟩
  rcases lt_trichotomy a 1 with h | rfl | h
  · have := hl a 1 ha h le_rfl
    simp at this
    linarith
  · simp [hc]
  · have := hr 1 a le_rfl h
    simp at this
    linarith

theorem Valley.const {c : ℝ} (hc : 0 ≤ c) : Valley fun _ => c := ⟨fun _ _ => hc, fun _ _ _ _ _ => le_rfl, fun _ _ _ _ => le_rfl⟩

theorem Valley.add {g h : ℝ → ℝ} (hg : Valley g) (hh : Valley h) : Valley fun l => g l + h l :=
  ⟨fun a ha => add_nonneg (hg.pos a ha) (hh.pos a ha), fun a b ha hab hb => add_le_add (hg.left a b ha hab hb) (hh.left a b ha hab hb),
    fun a b ha hab => add_le_add (hg.right a b ha hab) (hh.right a b ha hab)⟩

theorem Valley.mul {g h : ℝ → ℝ} (hg : Valley g) (hh : Valley h) : Valley fun l => g l * h l :=
  ⟨fun a ha => mul_nonneg (hg.pos a ha) (hh.pos a ha),
    fun a b ha hab hb => mul_le_mul (hg.left a b ha hab hb) (hh.left a b ha hab hb) (hh.pos b (ha.trans hab)) (hg.pos a ha),
    fun a b ha hab => mul_le_mul (hg.right a b ha hab) (hh.right a b ha hab) (hh.pos a (one_pos.trans_le ha)) (hg.pos b ((one_pos.trans_le ha).trans hab))⟩

theorem Valley.congr {g h : ℝ → ℝ} (hg : Valley g) (e : ∀ l, 0 < l → g l = h l) : Valley h :=
  ⟨fun a ha => e a ha ▸ hg.pos a ha,
    fun a b ha hab hb => e a ha ▸ e b (ha.trans hab) ▸ hg.left a b ha hab hb,
    fun a b ha hab => e a (one_pos.trans_le ha) ▸ e b ((one_pos.trans_le ha).trans hab) ▸ hg.right a b ha hab⟩

/-- The first two invariants along a load case have their minimum, three, at stretch one. -/
theorem invariants_load (k : LoadKind) : (Valley fun l => invariants (cauchyGreen (k.F l)) 0 - 3) ∧
    Valley fun l => invariants (cauchyGreen (k.F l)) 1 - 3 := by
  cases k
  · exact ⟨(Valley.of_pow (p := 1) (q := 2) (n := 2) (m := 1) (c := 3) one_pos (by norm_num) (by norm_num)).congr fun l hl => by
        rw [(C42_invariants hl).1]; simp,
      (Valley.of_pow (p := 2) (q := 1) (n := 1) (m := 2) (c := 3) two_pos (by norm_num) (by norm_num)).congr fun l hl => by
        rw [(C42_invariants hl).1]; simp⟩
  · have := (Valley.of_pow (p := 1) (q := 1) (n := 2) (m := 2) (c := 2) one_pos (by norm_num) (by norm_num))
    exact ⟨this.congr fun l hl => by rw [(C42_invariants hl).2.1]; simp; ring,
      this.congr fun l hl => by rw [(C42_invariants hl).2.1]; simp; ring⟩
  · exact ⟨(Valley.of_pow (p := 2) (q := 1) (n := 2) (m := 4) (c := 3) two_pos (by norm_num) (by norm_num)).congr fun l hl => by
        rw [(C42_invariants hl).2.2]; simp,
      (Valley.of_pow (p := 1) (q := 2) (n := 4) (m := 2) (c := 3) one_pos (by norm_num) (by norm_num)).congr fun l hl => by
        rw [(C42_invariants hl).2.2]; simp⟩

/-- Hypotheses of the statements on the curves: no negative coefficient, and a positive one of first order. -/
def NonnegCoefficients (labels : List String) (p : List ℝ) : Prop :=
  0 ≤ coef labels p "C10" ∧ 0 ≤ coef labels p "C01" ∧ 0 ≤ coef labels p "C11" ∧ 0 ≤ coef labels p "C20" ∧ 0 ≤ coef labels p "C30" ∧
    0 < coef labels p "C10" + coef labels p "C01"

theorem W_valley {labels : List String} {p : List ℝ} (h : NonnegCoefficients labels p) (k : LoadKind) :
    (Valley fun l => W1 labels p k l - coef labels p "C10") ∧ Valley fun l => W2 labels p k l - coef labels p "C01" := by
  obtain ⟨h1, h2, h3, h4, h5, -⟩ := h
  obtain ⟨v1, v2⟩ := invariants_load k
  refine ⟨(((Valley.const h3).mul v2).add (((Valley.const h4).mul ((Valley.const zero_le_two).mul v1)).add
    ((Valley.const h5).mul ((Valley.const zero_le_three).mul (v1.mul v1))))).congr fun l _ => ?_, ((Valley.const h3).mul v1).congr fun l _ => ?_⟩
  · rw [W1_eq _ _ _ _ _ rfl]; ring
  · rw [W2_eq _ _ _ _ _ rfl]; ring

/-- The textbook curve as the sum of two increasing terms. -/
theorem textbook_split (k : LoadKind) : ∃ (g1 g2 : ℝ → ℝ), (∀ a b, 0 < a → a < b → g1 a < g1 b) ∧ (∀ a b, 0 < a → a < b → g2 a < g2 b) ∧
    g1 1 = 0 ∧ g2 1 = 0 ∧ ∀ l w1 w2, 0 < l → textbook k w1 w2 l = 2 * (g1 l * w1 + g2 l * w2) := by
  cases k
  · refine ⟨fun l => l ^ 1 - 1 / l ^ 2, fun l => l ^ 0 - 1 / l ^ 3, factor_lt two_ne_zero, factor_lt three_ne_zero, by simp, by simp,
      fun l w1 w2 hl => ?_⟩
    simp only [textbook]; field_simp
  · refine ⟨fun l => l ^ 1 - 1 / l ^ 3, fun l => l ^ 1 - 1 / l ^ 3, factor_lt three_ne_zero, factor_lt three_ne_zero, by simp, by simp,
      fun l w1 w2 hl => ?_⟩
    simp only [textbook]; field_simp
  · refine ⟨fun l => l ^ 1 - 1 / l ^ 5, fun l => l ^ 3 - 1 / l ^ 3, factor_lt (by norm_num), factor_lt three_ne_zero, by simp, by simp,
      fun l w1 w2 hl => ?_⟩
    simp only [textbook]; field_simp

/-- Every curve of a third-order-deformation material with nonnegative coefficients increases with the stretch, from pressure
below one to tension above one. -/
theorem C60_curve (sim : Simulation Z) (k : LoadKind) (lab : Option String) (hk : sim.loadcase = k.case lab)
    (hm : sim.material = todDeformation ∨ sim.material = todDistortional) (p : List ℝ)
    (hn : ∀ name ∈ (sim.labels.zip p).map (·.1), name ∈ ["C10", "C01", "C11", "C20", "C30"]) (hc : NonnegCoefficients sim.labels p)
    (x : List ℝ) (hx : ∀ l ∈ x, 0 < l) :
    ∃ y, sim.stressCurveFit x p = .ok y ∧ (x.Pairwise (· < ·) → y.Pairwise (· < ·)) ∧
      List.Forall₂ (fun l f => (1 < l ↔ 0 < f) ∧ (l < 1 ↔ f < 0)) x y := by
  obtain ⟨v1, v2⟩ := W_valley hc k
  obtain ⟨g1, g2, m1, m2, z1, z2, e⟩ := textbook_split k
  have hlt : ∀ a b, 0 < a → a < b →
      textbook k (W1 sim.labels p k a) (W2 sim.labels p k a) a < textbook k (W1 sim.labels p k b) (W2 sim.labels p k b) b := by
    intro a b ha hab
    rw [e a _ _ ha, e b _ _ (ha.trans hab)]
    have t1 := mul_monotone m1 z1 v1.pos v1.left v1.right a b ha hab
    have t2 := mul_monotone m2 z2 v2.pos v2.left v2.right a b ha hab
    have t3 : g1 a * coef sim.labels p "C10" + g2 a * coef sim.labels p "C01" <
        g1 b * coef sim.labels p "C10" + g2 b * coef sim.labels p "C01" := by
      have u1 := mul_nonneg (sub_nonneg.2 (m1 a b ha hab).le) hc.1
      have u2 := mul_nonneg (sub_nonneg.2 (m2 a b ha hab).le) hc.2.1
      rcases hc.1.eq_or_lt with h0 | h0
      · have := mul_pos (sub_pos.2 (m2 a b ha hab)) (show 0 < coef sim.labels p "C01" by have := hc.2.2.2.2.2; rwa [← h0, zero_add] at this)
        linarith
      · have := mul_pos (sub_pos.2 (m1 a b ha hab)) h0
        linarith
    linarith
  have h1 : textbook k (W1 sim.labels p k 1) (W2 sim.labels p k 1) 1 = 0 := by
    rw [e _ _ _ one_pos, z1, z2]; ring
  refine ⟨_, C42_curve sim k lab hk hm p hn x hx, fun h => ?_, ?_⟩
  · rw [List.pairwise_map]
    exact h.imp_of_mem fun {a b} ha _ hab => hlt a b (hx a ha) hab
  · rw [List.forall₂_map_right_iff, List.forall₂_same]
    intro l hl
    have hp := hx l hl
    rcases lt_trichotomy l 1 with h | rfl | h
    · have := hlt l 1 hp h
      rw [h1] at this
      exact ⟨⟨fun h' => absurd h h'.not_gt, fun h' => absurd this h'.not_gt⟩, ⟨fun _ => this, fun _ => h⟩⟩
    · rw [h1]; simp
    · have := hlt 1 l one_pos h
      rw [h1] at this
      exact ⟨⟨fun _ => this, fun _ => h⟩, ⟨fun h' => absurd h h'.not_gt, fun h' => absurd this h'.not_gt⟩⟩

/-- The hypotheses are met: a Yeoh-type simulation with three coefficients. -/
example : NonnegCoefficients ["C10", "C20", "C30"] [2, 0, 1] := by
  refine ⟨?_, ?_, ?_, ?_, ?_, ?_⟩ <;> simp [coef, assigned]

/-- One term of Ogden's curve: the sign of the stress. -/
theorem ogdenCurve_sign (k : LoadKind) {mu alpha l : ℝ} (hmu : 0 < mu) (ha : alpha ≠ 0) (hl : 0 < l) :
    (1 < l → 0 < ogdenCurve k mu alpha l) ∧ (l = 1 → ogdenCurve k mu alpha l = 0) ∧ (l < 1 → ogdenCurve k mu alpha l < 0) := by
  have key : ∀ c d : ℝ, (0 < alpha → d < c) → (alpha < 0 → c < d) →
      (1 < l → 0 < 2 * mu / alpha * (l ^ c - l ^ d)) ∧ (l = 1 → 2 * mu / alpha * (l ^ c - l ^ d) = 0) ∧
      (l < 1 → 2 * mu / alpha * (l ^ c - l ^ d) < 0) := by
    intro c d h1 h2
    refine ⟨fun h => ?_, fun h => by subst h; simp, fun h => ?_⟩ <;> rcases ha.lt_or_gt with h0 | h0
    · exact mul_pos_of_neg_of_neg (div_neg_of_pos_of_neg (by positivity) h0) (sub_neg.2 (Real.rpow_lt_rpow_of_exponent_lt h (h2 h0)))
    · exact mul_pos (by positivity) (sub_pos.2 (Real.rpow_lt_rpow_of_exponent_lt h (h1 h0)))
    · exact mul_neg_of_neg_of_pos (div_neg_of_pos_of_neg (by positivity) h0) (sub_pos.2 (Real.rpow_lt_rpow_of_exponent_gt hl h (h2 h0)))
    · exact mul_neg_of_pos_of_neg (by positivity) (sub_neg.2 (Real.rpow_lt_rpow_of_exponent_gt hl h (h1 h0)))
  cases k <;> simp only [ogdenCurve] <;> exact key _ _ (fun h => by linarith) (fun h => by linarith)

/-- One term of Ogden's curve increases if its exponent is not between minus two and one. -/
theorem ogdenCurve_lt (k : LoadKind) {mu alpha : ℝ} (hmu : 0 < mu) (ha : 1 ≤ alpha ∨ alpha ≤ -2) (a b : ℝ) (ha0 : 0 < a) (hab : a < b) :
    ogdenCurve k mu alpha a < ogdenCurve k mu alpha b := by
  have key : ∀ c d : ℝ, (1 ≤ alpha → 0 ≤ c ∧ d < 0) → (alpha ≤ -2 → c < 0 ∧ 0 ≤ d) →
      2 * mu / alpha * (a ^ c - a ^ d) < 2 * mu / alpha * (b ^ c - b ^ d) := by
    intro c d h1 h2
    rcases ha with h | h
    · obtain ⟨hc, hd⟩ := h1 h
      have := Real.rpow_le_rpow ha0.le hab.le hc
      have := Real.rpow_lt_rpow_of_neg ha0 hab hd
      exact mul_lt_mul_of_pos_left (by linarith) (div_pos (by positivity) (by linarith))
    · obtain ⟨hc, hd⟩ := h2 h
      have := Real.rpow_le_rpow ha0.le hab.le hd
      have := Real.rpow_lt_rpow_of_neg ha0 hab hc
      exact mul_lt_mul_of_neg_left (by linarith) (div_neg_of_pos_of_neg (by positivity) (by linarith))
  cases k <;> simp only [ogdenCurve] <;>
    exact key _ _ (fun h => ⟨by linarith, by linarith⟩) (fun h => ⟨by linarith, by linarith⟩)

/-- Every curve of Ogden's model with positive moduli has the sign of the stretch minus one, and it increases if no exponent is
between minus two and one. -/
theorem C60_ogden (lapack : Eigh) (hl : EighValid lapack) (mu alpha : List ℝ) (hmu : ∀ m ∈ mu, 0 < m) (ha : ∀ a ∈ alpha, a ≠ 0)
    (hne : mu.zip alpha ≠ [])
    (sim : Simulation Z) (k : LoadKind) (lab : Option String) (hk : sim.loadcase = k.case lab) (p : List ℝ)
    (hm : sim.material (Kwargs.ofList (sim.labels.zip p)) = .ok (ogdenDeformation lapack mu alpha) ∨
      sim.material (Kwargs.ofList (sim.labels.zip p)) = .ok (ogdenDistortional lapack mu alpha))
    (x : List ℝ) (hx0 : x ≠ []) (hx : ∀ l ∈ x, 0 < l) :
    ∃ y, sim.stressCurveFit x p = .ok y ∧ List.Forall₂ (fun l f => (1 < l ↔ 0 < f) ∧ (l < 1 ↔ f < 0)) x y ∧
      ((∀ a ∈ alpha, 1 ≤ a ∨ a ≤ -2) → x.Pairwise (· < ·) → y.Pairwise (· < ·)) := by
  have hz : ∀ q ∈ mu.zip alpha, 0 < q.1 ∧ q.2 ∈ alpha := fun q hq => ⟨hmu _ (List.of_mem_zip hq).1, (List.of_mem_zip hq).2⟩
  refine ⟨_, C42_ogden lapack hl mu alpha ha sim k lab hk p hm x hx0 hx, ?_, fun hexp h => ?_⟩
  · rw [List.forall₂_map_right_iff, List.forall₂_same]
    intro l hl
    have hp := hx l hl
    have sg := fun q hq => ogdenCurve_sign k (hz q hq).1 (ha _ (hz q hq).2) hp
    have pos : 1 < l → 0 < ((mu.zip alpha).map fun q => ogdenCurve k q.1 q.2 l).sum := fun h =>
      List.sum_pos _ (List.forall_mem_map.2 fun q hq => (sg q hq).1 h) (by simpa using hne)
    have neg : l < 1 → ((mu.zip alpha).map fun q => ogdenCurve k q.1 q.2 l).sum < 0 := fun h => by
      obtain ⟨q, hq⟩ := List.exists_mem_of_ne_nil _ hne
      have := List.sum_lt_sum (l := mu.zip alpha) (fun q => ogdenCurve k q.1 q.2 l) (fun _ => (0 : ℝ))
        (fun q hq => ((sg q hq).2.2 h).le) ⟨q, hq, (sg q hq).2.2 h⟩
      simpa using this
    have zero : l = 1 → ((mu.zip alpha).map fun q => ogdenCurve k q.1 q.2 l).sum = 0 := fun h =>
      List.sum_eq_zero (List.forall_mem_map.2 fun q hq => (sg q hq).2.1 h)
    rcases lt_trichotomy l 1 with h | h | h
    · exact ⟨⟨fun h' => absurd h h'.not_gt, fun h' => absurd (neg h) h'.not_gt⟩, ⟨fun _ => neg h, fun _ => h⟩⟩
    · rw [zero h, h]; simp
    · exact ⟨⟨fun _ => pos h, fun _ => h⟩, ⟨fun h' => absurd h h'.not_gt, fun h' => absurd (pos h) h'.not_gt⟩⟩
  · rw [List.pairwise_map]
    refine h.imp_of_mem fun {a b} ha' _ hab => ?_
    obtain ⟨q, hq⟩ := List.exists_mem_of_ne_nil _ hne
    exact List.sum_lt_sum _ _ (fun q hq => (ogdenCurve_lt k (hz q hq).1 (hexp _ (hz q hq).2) a b (hx a ha') hab).le)
      ⟨q, hq, ogdenCurve_lt k (hz q hq).1 (hexp _ (hz q hq).2) a b (hx a ha') hab⟩

end Props
