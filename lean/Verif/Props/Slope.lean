import Verif.Props.Initial
import Verif.Props.LabOgden

/-! # Property C59: the initial slope of the load curves -/

namespace Props
open Spec Hel Matrix Filter Topology

variable {Z μ : Type}

/-- The velocity of the stretches at the undeformed state. -/
noncomputable def loadRate : LoadKind → Fin 3 → ℝ
  | .uniaxial => ![1, -(1 / 2), -(1 / 2)]
  | .planar => ![1, 0, -1]
  | .biaxial => ![1, 1, -2]

theorem loadStretches_one (k : LoadKind) : loadStretches k 1 = fun _ => 1 := by
  funext a; cases k <;> fin_cases a <;> simp [loadStretches]

theorem moves_loadStretches (k : LoadKind) : Moves3 (loadStretches k) (loadRate k) 1 := by
  intro a
  have h := moves_load k one_pos a a
  simp only [loadF_eq, diagonal_apply_eq] at h
  refine h.congr_deriv ?_
  cases k <;> fin_cases a <;> simp [loadRate] <;> norm_num

theorem rate_ratio (k : LoadKind) : 2 * (loadRate k 0 - loadRate k 2) = k.initialRatio := by
  cases k <;> simp [loadRate, LoadKind.initialRatio] <;> norm_num

/-- From the distortional to the deformation space. -/
theorem slope_space (k : LoadKind) (mat : Material ℝ Z μ) (z : Z) (f' : ℝ)
    (h : ∀ P : ℝ → Ten2 ℝ, (∀ᶠ l in 𝓝 1, SpaceObj.Grad (Deformation.obj {} mat) z (k.F l) (P l)) →
      HasDerivAt (fun l => normalForce (k.F l) (P l)) f' 1)
    (w : Space) (hw : w ≠ .dilatational) (P : ℝ → Ten2 ℝ)
    (hP : ∀ᶠ l in 𝓝 1, SpaceObj.Grad (w.obj {} mat) z (k.F l) (P l)) :
    HasDerivAt (fun l => normalForce (k.F l) (P l)) f' 1 := by
  cases w with
  | deformation => exact h P hP
  | dilatational => exact absurd rfl hw
  | distortional =>
    have hpos : ∀ᶠ l in 𝓝 (1 : ℝ), 0 < l := lt_mem_nhds one_pos
    have : ∀ᶠ l in 𝓝 (1 : ℝ), ∃ P', SpaceObj.Grad (Deformation.obj {} mat) z (k.F l) P' ∧
        normalForce (k.F l) (P l) = normalForce (k.F l) P' := by
      filter_upwards [hP, hpos] with l hl h0
      obtain ⟨s, z', hr⟩ := hl
      obtain ⟨P', h1, h2⟩ := (same_point k h0 mat z z' { material := DistSt.material s } s rfl _).2 ⟨_, hr, rfl⟩
      exact ⟨P', ⟨_, _, h1⟩, h2⟩
    obtain ⟨P', h'⟩ := this.choice
    exact (h P' (h'.mono fun _ h => h.1)).congr_of_eventuallyEq (h'.mono fun _ h => h.2)

/-- Conversely to C52: what is returned on the deformation space at a diagonal deformation gradient. -/
theorem stretches_diagonal (lapack : Eigh) (hl : EighValid lapack) (mat : StrMat Z μ) (hs : StrMat.Symmetric mat) {z : Z}
    {l : Fin 3 → ℝ} (hpos : Positive l) {P : Ten2 ℝ}
    (h : SpaceObj.Grad (Deformation.obj {} (Stretches.material lapack mat)) z (diagonal l) P) :
    ∃ g, StrMat.Grad mat z l g ∧ P = diagonal g := by
  obtain ⟨G, ⟨s, c, g6, z', hc, hg6, hr⟩, rfl⟩ := (Deformation.grad_iff ..).1 h
  have eC : cauchyGreen (diagonal l) = 1 * diagonal (fun a => l a ^ 2) * 1ᵀ := by
    have := cauchyGreen_svd orthogonal_one 1 l
    simpa using this
  have hS : Spectral (cauchyGreen (diagonal l)) (fun a => l a ^ 2) 1 := Spectral.of_eq orthogonal_one eC
  obtain ⟨g', h1, h2⟩ := (Stretches.returns_gradient ..).1 hr
  rw [Stretches.eighSqrt_eq lapack hc] at h1 h2
  obtain ⟨g, h3, h4⟩ := Stretches.grad_unique hs (hl _ hc.symm) hS h1
  rw [roots_sq_eq hpos] at h3
  refine ⟨g, ⟨_, _, h3⟩, ?_⟩
  have h5 : G = T2 g6 := (T2_eq hg6).symm
  have h6 : T2 g6 = diagonal fun a => g a / (2 * l a) := by
    rw [h2]
    change T2 (Stretches.gradPure (Stretches.roots (lapack _).1) (Stretches.bases (lapack _).2) g') = _
    rw [h4, Stretches.T2_gradPure, roots_sq_eq hpos, Matrix.one_mul, transpose_one, Matrix.mul_one]
    rfl
  rw [h5, h6, ← diagonal_smul, diagonal_mul_diagonal]
  congr 1; funext a
  have := (hpos a).ne'
  simp only [Pi.smul_apply, smul_eq_mul]
  field_simp

/-- Materials in terms of stretches: the initial slope of the normal force in every load case, on the deformation and on the
distortional space, is the classical multiple (3, 4, 6) of the shear modulus `(ψ,11 - ψ,12 + ψ,1)/2` of C54. -/
theorem C59_stretches (lapack : Eigh) (hl : EighValid lapack) (mat : StrMat Z μ) (z : Z) (hs : StrMat.Symmetric mat)
    (h : IsHessian3 Positive (StrMat.Grad mat z) (StrMat.Hess mat z)) (d p q : ℝ)
    (hd : StrMat.Grad mat z (fun _ => 1) fun _ => d)
    (hk : StrMat.Hess mat z (fun _ => 1) fun a b => if a = b then p else q)
    (k : LoadKind) (w : Space) (hw : w ≠ .dilatational) (P : ℝ → Ten2 ℝ)
    (hP : ∀ᶠ l in 𝓝 1, SpaceObj.Grad (w.obj {} (Stretches.material lapack mat)) z (k.F l) (P l)) :
    HasDerivAt (fun l => normalForce (k.F l) (P l)) (k.initialRatio * ((p - q + d) / 2)) 1 := by
  refine slope_space k _ z _ (fun P hP => ?_) w hw P hP
  have hpos : ∀ᶠ l in 𝓝 (1 : ℝ), 0 < l := lt_mem_nhds one_pos
  have : ∀ᶠ l in 𝓝 (1 : ℝ), ∃ g, StrMat.Grad mat z (loadStretches k l) g ∧ P l = diagonal g := by
    filter_upwards [hP, hpos] with l h1 h0
    rw [loadF_eq] at h1
    exact stretches_diagonal lapack hl mat hs (loadStretches_pos k h0) h1
  obtain ⟨g, hg⟩ := this.choice
  have hg1 := hg.mono fun _ h => h.1
  have hm := moves_loadStretches k
  have hdom : ∀ᶠ l in 𝓝 (1 : ℝ), Positive (loadStretches k l) := hpos.mono fun l h0 => loadStretches_pos k h0
  have hgm := h _ _ 1 g _ hdom hm hg1 (by rw [loadStretches_one]; exact hk)
  have hg0 : g 1 = fun _ => d := by
    have := hg1.self_of_nhds
    rw [loadStretches_one] at this
    exact h.unique (fun _ => one_pos) this hd hk
  have e : (fun l => normalForce (k.F l) (P l)) =ᶠ[𝓝 1] fun l => g l 0 - g l 2 * loadStretches k l 2 / loadStretches k l 0 := by
    filter_upwards [hg] with l hl
    rw [normalForce, hl.2, loadF_eq]
    simp only [diagonal_apply_eq]
  refine HasDerivAt.congr_of_eventuallyEq ?_ e
  have h0 : loadStretches k 1 0 ≠ 0 := by rw [loadStretches_one]; exact one_ne_zero
  refine ((hgm 0).sub (((hgm 2).mul (hm 2)).div (hm 0) h0)).congr_deriv ?_
  rw [← rate_ratio]
  simp only [Pi.mul_apply, hg0, loadStretches_one, Fin.sum_univ_three, Fin.isValue, Fin.reduceEq, if_true, if_false]
  ring

/-- Materials in terms of invariants with derivatives which are continuous at the undeformed state: the
initial slope of the normal force is the classical multiple of the shear modulus `2 (W1 + W2)` of C54. -/
theorem C59_invariants (mat : InvMat ℝ Z μ) (z : Z) (W : (Fin 3 → ℝ) → Fin 3 → ℝ)
    (hW : ∀ x g, InvMat.Grad mat z x g → g = W x) (hc : ContinuousAt W ![3, 3, 1])
    (k : LoadKind) (w : Space) (hw : w ≠ .dilatational) (P : ℝ → Ten2 ℝ)
    (hP : ∀ᶠ l in 𝓝 1, SpaceObj.Grad (w.obj {} (Invariants.material mat)) z (k.F l) (P l)) :
    HasDerivAt (fun l => normalForce (k.F l) (P l)) (k.initialRatio * (2 * (W ![3, 3, 1] 0 + W ![3, 3, 1] 1))) 1 := by
  refine slope_space k _ z _ (fun P hP => ?_) w hw P hP
  have hpos : ∀ᶠ l in 𝓝 (1 : ℝ), 0 < l := lt_mem_nhds one_pos
  have hm := moves_loadStretches k
  let x : ℝ → Fin 3 → ℝ := fun l => ![loadStretches k l 0 ^ 2 + loadStretches k l 1 ^ 2 + loadStretches k l 2 ^ 2,
    loadStretches k l 0 ^ 2 * loadStretches k l 1 ^ 2 + loadStretches k l 1 ^ 2 * loadStretches k l 2 ^ 2 +
      loadStretches k l 0 ^ 2 * loadStretches k l 2 ^ 2, loadStretches k l 0 ^ 2 * loadStretches k l 1 ^ 2 * loadStretches k l 2 ^ 2]
  have eC : ∀ l, cauchyGreen (k.F l) = diagonal fun a => loadStretches k l a ^ 2 := by
    intro l
    rw [loadF_eq, cauchyGreen, diagonal_transpose, diagonal_mul_diagonal]
    congr 1; funext a; ring
  have hx : ∀ l, invariants (cauchyGreen (k.F l)) = x l := by
    intro l
    rw [eC, invariants, inv2]
    simp only [x, trace_diagonal, det_diagonal, Fin.sum_univ_three, Fin.prod_univ_three, diagonal_mul_diagonal]
    congr 2
    ring
  have e : (fun l => normalForce (k.F l) (P l)) =ᶠ[𝓝 1] fun l => 2 * (loadStretches k l 0 - loadStretches k l 2 ^ 2 / loadStretches k l 0) *
      (W (x l) 0 + loadStretches k l 1 ^ 2 * W (x l) 1) := by
    filter_upwards [hP, hpos] with l hl h0
    obtain ⟨G, hG, hPl⟩ := (Deformation.grad_iff ..).1 hl
    have hd : (k.F l).det ≠ 0 := by rw [loadF_det k h0]; exact one_ne_zero
    obtain ⟨g, hg, rfl⟩ := (Invariants.grad_iff mat z (symInv_cauchyGreen hd)).1 hG
    have hgW := hW _ _ hg
    rw [hx] at hgW
    have hp := loadStretches_pos k h0
    have n0 := (hp 0).ne'
    have n2 := (hp 2).ne'
    have hdd : ∀ a, (k.F l * ((2 : ℝ) • invGradT (cauchyGreen (k.F l)) g)) a a =
        2 * loadStretches k l a * (g 0 + g 1 * (loadStretches k l 0 ^ 2 + loadStretches k l 1 ^ 2 + loadStretches k l 2 ^ 2 - loadStretches k l a ^ 2)
          + g 2 * ((cauchyGreen (k.F l)).det * (loadStretches k l a ^ 2)⁻¹)) := by
      intro a
      have einv : (cauchyGreen (k.F l))⁻¹ = diagonal fun a => (loadStretches k l a ^ 2)⁻¹ := by
        refine Matrix.inv_eq_left_inv ?_
        rw [eC, Matrix.diagonal_mul_diagonal, ← Matrix.diagonal_one]
        congr 1; funext a; exact inv_mul_cancel₀ (pow_pos (hp a) 2).ne'
      rw [loadF_eq, Matrix.diagonal_mul, ← loadF_eq]
      simp only [invGradT, einv]
      simp only [eC, Matrix.smul_apply, Matrix.add_apply, Matrix.sub_apply,
        Matrix.one_apply_eq, diagonal_apply_eq, Matrix.trace_diagonal, Fin.sum_univ_three, smul_eq_mul]
      ring
    rw [hPl, normalForce, hdd, hdd, loadF_eq]
    simp only [diagonal_apply_eq, ← hgW]
    field_simp
    ring
  refine HasDerivAt.congr_of_eventuallyEq ?_ e
  have h0 : loadStretches k 1 0 ≠ 0 := by rw [loadStretches_one]; exact one_ne_zero
  have hf : HasDerivAt (fun l => 2 * (loadStretches k l 0 - loadStretches k l 2 ^ 2 / loadStretches k l 0))
      (4 * (loadRate k 0 - loadRate k 2)) 1 := by
    refine (((hm 0).sub (((hm 2).pow 2).div (hm 0) h0)).const_mul 2).congr_deriv ?_
    simp only [loadStretches_one, Pi.pow_apply]
    norm_num
    ring
  have hxc : ContinuousAt x 1 := by
    have c := fun a => (hm a).continuousAt
    refine continuousAt_pi.2 fun a => ?_
    fin_cases a
    · exact (((c 0).pow 2).add ((c 1).pow 2)).add ((c 2).pow 2)
    · exact ((((c 0).pow 2).mul ((c 1).pow 2)).add (((c 1).pow 2).mul ((c 2).pow 2))).add (((c 0).pow 2).mul ((c 2).pow 2))
    · exact (((c 0).pow 2).mul ((c 1).pow 2)).mul ((c 2).pow 2)
  have hx1 : x 1 = ![3, 3, 1] := by
    simp only [x, loadStretches_one]; norm_num
  have hWc : ContinuousAt (fun l => W (x l)) 1 := by
    refine ContinuousAt.comp (g := W) ?_ hxc
    rw [hx1]; exact hc
  have hgc : ContinuousAt (fun l => W (x l) 0 + loadStretches k l 1 ^ 2 * W (x l) 1) 1 :=
    ((continuousAt_pi.1 hWc 0)).add ((((hm 1).continuousAt).pow 2).mul (continuousAt_pi.1 hWc 1))
  -- a product of a function which vanishes and is differentiable with a continuous one
  have hf1 : (fun l => 2 * (loadStretches k l 0 - loadStretches k l 2 ^ 2 / loadStretches k l 0)) 1 = 0 := by
    simp [loadStretches_one]
  rw [hasDerivAt_iff_tendsto_slope] at hf ⊢
  have ht := hf.mul (hgc.tendsto.mono_left nhdsWithin_le_nhds)
  refine (ht.congr fun l => ?_).trans (le_of_eq ?_)
  · simp only [slope_def_field] at *
    rw [hf1]
    simp [loadStretches_one]
    ring
  · congr 1
    rw [hx1, loadStretches_one, ← rate_ratio]
    ring

/-- A model which returns everywhere has a load curve. -/
theorem stretches_curve (lapack : Eigh) (hl : EighValid lapack) (mat : StrMat Z μ) (hs : StrMat.Symmetric mat) {z : Z}
    (ht : StrMat.Total mat z) (k : LoadKind) (w : Space) (hw : w ≠ .dilatational) :
    ∃ P : ℝ → Ten2 ℝ, ∀ l, 0 < l → SpaceObj.Grad (w.obj {} (Stretches.material lapack mat)) z (k.F l) (P l) := by
  have : ∀ l : ℝ, ∃ P, 0 < l → SpaceObj.Grad (w.obj {} (Stretches.material lapack mat)) z (k.F l) P := by
    intro l
    by_cases h0 : 0 < l
    swap
    · exact ⟨0, fun h => absurd h h0⟩
    obtain ⟨g, s, z', hg⟩ := ht _ (loadStretches_pos k h0)
    have h1 := C52_deformation lapack hl mat hs (s := { material := { material := s } }) (loadStretches_pos k h0) orthogonal_one
      orthogonal_one hg
    rw [Matrix.one_mul, transpose_one, Matrix.mul_one, ← loadF_eq] at h1
    cases w with
    | dilatational => exact absurd rfl hw
    | deformation => exact ⟨_, fun _ => ⟨_, _, h1⟩⟩
    | distortional =>
      obtain ⟨P', h2, -⟩ := (same_point k h0 (Stretches.material lapack mat) z z' _ { material := { material := s } } rfl _).1 ⟨_, h1, rfl⟩
      exact ⟨P', fun _ => ⟨_, _, h2⟩⟩
  exact ⟨fun l => (this l).choose, fun l h0 => (this l).choose_spec h0⟩

/-- Ogden's model: the initial slope is the classical multiple of the sum of the moduli `mu`, whatever the exponents are. -/
theorem C59_ogden (lapack : Eigh) (hl : EighValid lapack) (mu alpha : List ℝ) (ha : ∀ a ∈ alpha, a ≠ 0)
    (hn : mu.length = alpha.length) (z : Z) (k : LoadKind) (w : Space) (hw : w ≠ .dilatational) :
    ∃ P : ℝ → Ten2 ℝ, (∀ l, 0 < l → SpaceObj.Grad (w.obj {} (Stretches.material lapack (Ogden.mat ⟨mu, alpha⟩))) z (k.F l) (P l)) ∧
      HasDerivAt (fun l => normalForce (k.F l) (P l)) (k.initialRatio * mu.sum) 1 := by
  obtain ⟨d, p, hd, hk, e1, -⟩ := ogden_initial mu alpha ha hn z
  have hT : StrMat.Total (Ogden.mat ⟨mu, alpha⟩) z :=
    fun x _ => (C11_returns mu alpha z x).1.2 fun p hp => ha _ (List.of_mem_zip hp).2
  obtain ⟨P, hP⟩ := stretches_curve lapack hl _ (Ogden.symmetric ⟨mu, alpha⟩) hT k w hw
  refine ⟨P, hP, ?_⟩
  have := C59_stretches lapack hl _ z (Ogden.symmetric _) (C11_hessian mu alpha z) d p 0 hd hk k w hw P
    ((lt_mem_nhds one_pos).mono hP)
  rw [e1] at this
  refine this.congr_deriv ?_
  ring

/-- The test `tests/test_generalized.py` of the package, for every exponent, all coefficients, every load case and both spaces:
the initial slope of the normal force of the generalized-invariants framework is the classical multiple of `2 (C10 + C01)`. -/
theorem C59_generalized (lapack : Eigh) (hl : EighValid lapack) {e : ℝ} (he : e ≠ 0) (c : Fin 5 → ℝ) (z : Z) (k : LoadKind)
    (w : Space) (hw : w ≠ .dilatational) : ∃ g, GenInv.init (deformationFun e) = .ok g ∧
      ∃ P : ℝ → Ten2 ℝ, (∀ l, 0 < l → SpaceObj.Grad (w.obj {} (generalizedFramework lapack g (todOf c false).mat)) z (k.F l) (P l)) ∧
        HasDerivAt (fun l => normalForce (k.F l) (P l)) (k.initialRatio * (2 * (c 0 + c 1))) 1 := by
  obtain ⟨⟨g, hg⟩, -, -⟩ := C13_init_deformation he
  obtain ⟨d, p, o, hd, hh, h20, hsym, htot, -, -, -, em⟩ := generalized_initial he c z hg
  obtain ⟨P, hP⟩ := stretches_curve lapack hl _ hsym htot k w hw
  refine ⟨g, hg, P, hP, ?_⟩
  rw [← em]
  exact C59_stretches lapack hl _ z hsym h20 d p o hd hh k w hw P ((lt_mem_nhds one_pos).mono hP)

theorem tod_slope (c : Fin 5 → ℝ) (z : Z) (k : LoadKind) (w : Space) (hw : w ≠ .dilatational) (P : ℝ → Ten2 ℝ)
    (hP : ∀ᶠ l in 𝓝 1, SpaceObj.Grad (w.obj {} (Invariants.material (todOf c false).mat)) z (k.F l) (P l)) :
    HasDerivAt (fun l => normalForce (k.F l) (P l)) (k.initialRatio * (2 * (c 0 + c 1))) 1 := by
  have := C59_invariants (todOf c false).mat z (fun x => ![c 0 + c 2 * (x 1 - 3) + c 3 * 2 * (x 0 - 3) + c 4 * 3 * (x 0 - 3) ^ 2,
      c 1 + c 2 * (x 0 - 3), 0]) (fun x g hg => by
      rw [(TOD.grad_iff ..).1 hg]
      simp [todOf, TOD.init]) (by
      refine Continuous.continuousAt (continuous_pi fun a => ?_)
      fin_cases a
      · simp only [Fin.zero_eta, cons_val_zero]; fun_prop
      · simp only [Fin.mk_one, cons_val_one, cons_val_zero]; fun_prop
      · simp only [Fin.reduceFinMk, cons_val]; fun_prop) k w hw P hP
  refine this.congr_deriv ?_
  simp

/-- The third-order-deformation model in terms of the invariants of the Cauchy-Green tensor. -/
theorem C59_third_order (c : Fin 5 → ℝ) (z : Z) (k : LoadKind) (w : Space) (hw : w ≠ .dilatational) :
    ∃ P : ℝ → Ten2 ℝ, (∀ l, 0 < l → SpaceObj.Grad (w.obj {} (Invariants.material (todOf c false).mat)) z (k.F l) (P l)) ∧
      HasDerivAt (fun l => normalForce (k.F l) (P l)) (k.initialRatio * (2 * (c 0 + c 1))) 1 := by
  have hex : ∀ l : ℝ, ∃ P, 0 < l → SpaceObj.Grad (w.obj {} (Invariants.material (todOf c false).mat)) z (k.F l) P := by
    intro l
    by_cases h0 : 0 < l
    swap
    · exact ⟨0, fun h => absurd h h0⟩
    obtain ⟨P, h1, -⟩ := tod_point k h0 (c 0) (c 1) (c 2) (c 3) (c 4) z { material := { material := () } }
    have h1' : Returns ((Deformation.obj {} (Invariants.material (Z := Z) (todOf c false).mat)).gradient (k.F l) z) _ _ := h1
    cases w with
    | dilatational => exact absurd rfl hw
    | deformation => exact ⟨_, fun _ => ⟨_, _, h1'⟩⟩
    | distortional =>
      obtain ⟨P', h2, -⟩ := (same_point k h0 _ z z _ { material := { material := () } } rfl _).1 ⟨_, h1', rfl⟩
      exact ⟨P', fun _ => ⟨_, _, h2⟩⟩
  exact ⟨fun l => (hex l).choose, fun l h0 => (hex l).choose_spec h0,
    tod_slope c z k w hw _ ((lt_mem_nhds one_pos).mono fun l h0 => (hex l).choose_spec h0)⟩

/-- In the lab: the curve which `Simulation.stress_curve_fit` (and `stress`) returns for the documentation's material, on either
space, has the classical initial slope. -/
theorem C59_lab (sim : Simulation Z) (k : LoadKind) (lab : Option String) (hk : sim.loadcase = k.case lab)
    (hm : sim.material = todDeformation ∨ sim.material = todDistortional) (p : List ℝ)
    (hn : ∀ name ∈ (sim.labels.zip p).map (·.1), name ∈ ["C10", "C01", "C11", "C20", "C30"]) :
    ∃ f : ℝ → ℝ, (∀ x : List ℝ, (∀ l ∈ x, 0 < l) → sim.stressCurveFit x p = .ok (x.map f)) ∧
      HasDerivAt f (k.initialRatio * (2 * (coef sim.labels p "C10" + coef sim.labels p "C01"))) 1 := by
  obtain ⟨f, hf, hx⟩ : ∃ f : ℝ → ℝ, f = (fun l => textbook k (W1 sim.labels p k l) (W2 sim.labels p k l) l) ∧
      ∀ x : List ℝ, (∀ l ∈ x, 0 < l) → sim.stressCurveFit x p = .ok (x.map f) :=
    ⟨_, rfl, fun x hx => C42_curve sim k lab hk hm p hn x hx⟩
  refine ⟨f, hx, ?_⟩
  have hpos : ∀ᶠ l in 𝓝 (1 : ℝ), 0 < l := lt_mem_nhds one_pos
  have hc := todKwargs_ok hn
  let c : Fin 5 → ℝ := ![coef sim.labels p "C10", coef sim.labels p "C01", coef sim.labels p "C11", coef sim.labels p "C20",
    coef sim.labels p "C30"]
  have hcurve : ∀ l : ℝ, 0 < l → ∃ P, SpaceObj.Grad (Deformation.obj {} (Invariants.material (todOf c false).mat)) (none : Option Z)
      (k.F l) P ∧ f l = normalForce (k.F l) P := by
    intro l h0
    obtain ⟨B, hB, hA⟩ := todDeformation_acts (Z := Option Z) hc { material := { material := () } }
    have h1 := hx [l] (by simpa using h0)
    rcases hm with hm | hm
    · rw [← hm] at hB
      have h2 := curve_returns hk hB hA h1
      simp only [List.map_cons, List.map_nil, List.forall₂_cons, List.Forall₂.nil, and_true] at h2
      obtain ⟨P, z', h3, h4⟩ := h2
      exact ⟨P, ⟨_, _, h3⟩, h4⟩
    · obtain ⟨B, hB, hA⟩ := todDistortional_acts (Z := Option Z) hc { material := { material := () } }
      rw [← hm] at hB
      have h2 := curve_returns hk hB hA h1
      simp only [List.map_cons, List.map_nil, List.forall₂_cons, List.Forall₂.nil, and_true] at h2
      obtain ⟨P, z', h3, h4⟩ := h2
      obtain ⟨P', h5, h6⟩ := (same_point k h0 _ none z' { material := { material := () } } _ rfl _).2 ⟨P, h3, rfl⟩
      exact ⟨P', ⟨_, _, h5⟩, h4.trans h6⟩
  obtain ⟨P, hP⟩ := (hpos.mono fun l h0 => hcurve l h0).choice
  refine HasDerivAt.congr_of_eventuallyEq ?_ (hP.mono fun l h => h.2)
  exact tod_slope c none k .deformation (by simp) P (hP.mono fun l h => h.1)

/-- The hypotheses are met: a simulation of the documentation's material with two labels. -/
example : ∃ sim : Simulation Unit, sim.loadcase = LoadKind.uniaxial.case none ∧ sim.material = todDistortional ∧
    ∀ name ∈ (sim.labels.zip [(1 : ℝ), 2]).map (·.1), name ∈ ["C10", "C01", "C11", "C20", "C30"] :=
  ⟨{ loadcase := LoadKind.uniaxial.case none, stretch := [1, 2], material := todDistortional, labels := ["C10", "C01"] }, rfl, rfl, by simp⟩

/-- The coefficients of the package's test: initial slopes 3 and 6. -/
example : LoadKind.uniaxial.initialRatio * (2 * ((3 / 10 : ℝ) + 2 / 10)) = 3 ∧
    LoadKind.biaxial.initialRatio * (2 * ((3 / 10 : ℝ) + 2 / 10)) = 6 := by
  norm_num [LoadKind.initialRatio]

end Props
