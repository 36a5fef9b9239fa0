import Verif.Spec.Spectral
import Verif.Proofs.Rotate
import Verif.Proofs.PosDef
import Mathlib.Analysis.Matrix.Spectrum
import Mathlib.Topology.Instances.Matrix

/-! Spectral decompositions: existence, uniqueness up to order, limits. -/

namespace Spec
open Matrix Filter Topology

variable {C : Ten2 ℝ} {w w' : Fin 3 → ℝ} {v v' : Ten2 ℝ}

theorem Spectral.eq (h : Spectral C w v) : C = v * diagonal w * vᵀ := by
  ext i j
  rw [h.sum, Matrix.mul_apply]
  refine Finset.sum_congr rfl fun a _ => ?_
  rw [Matrix.mul_diagonal, Matrix.transpose_apply]; ring

theorem Spectral.of_eq (ho : Orthogonal v) (h : C = v * diagonal w * vᵀ) : Spectral C w v where
  orthogonal := ho
  sum i j := by
    rw [h, Matrix.mul_apply]
    refine Finset.sum_congr rfl fun a _ => ?_
    rw [Matrix.mul_diagonal, Matrix.transpose_apply]; ring

theorem Spectral.symm (h : Spectral C w v) : C.IsSymm := by
  ext i j
  rw [Matrix.transpose_apply, h.sum, h.sum]
  exact Finset.sum_congr rfl fun a _ => by ring

theorem exists_spectral (hC : C.IsSymm) : ∃ w v, Spectral C w v := by
  have hH : C.IsHermitian := by
    rw [Matrix.IsHermitian, Matrix.conjTranspose_eq_transpose_of_trivial]; exact hC
  refine ⟨hH.eigenvalues, (hH.eigenvectorUnitary : Ten2 ℝ), Spectral.of_eq ?_ ?_⟩
  · have := (Matrix.mem_unitaryGroup_iff').1 hH.eigenvectorUnitary.2
    rwa [Matrix.star_eq_conjTranspose, Matrix.conjTranspose_eq_transpose_of_trivial] at this
  · conv_lhs => rw [hH.spectral_theorem]
    rw [Unitary.conjStarAlgAut_apply, Matrix.star_eq_conjTranspose, Matrix.conjTranspose_eq_transpose_of_trivial]
    rfl

theorem Spectral.diag (h : Spectral C w v) : vᵀ * C * v = diagonal w := by
  rw [h.eq]
  calc vᵀ * (v * diagonal w * vᵀ) * v = (vᵀ * v) * diagonal w * (vᵀ * v) := by simp only [Matrix.mul_assoc]
    _ = diagonal w := by rw [h.orthogonal]; simp

theorem Spectral.pos (hC : PosDef C) (h : Spectral C w v) (a : Fin 3) : 0 < w a := by
  have hne : (fun i => v i a) ≠ 0 := by
    intro h0
    have := congrFun (congrFun h.orthogonal a) a
    rw [Matrix.mul_apply] at this
    simp only [Matrix.transpose_apply, Matrix.one_apply_eq] at this
    simp only [fun i => congrFun h0 i, Pi.zero_apply, mul_zero, Finset.sum_const_zero] at this
    exact zero_ne_one this
  have h1 := hC.2 _ hne
  have h2 := congrFun (congrFun h.diag a) a
  rw [Matrix.diagonal_apply_eq] at h2
  rw [← h2]
  convert h1 using 1
  simp only [Matrix.mul_apply, Matrix.transpose_apply, dotProduct, Matrix.mulVec, Finset.sum_mul, Finset.mul_sum]
  rw [Finset.sum_comm]
  exact Finset.sum_congr rfl fun i _ => Finset.sum_congr rfl fun j _ => by ring

/-- mixed components of two decompositions of different matrices -/
theorem Spectral.mixed {C' : Ten2 ℝ} (h : Spectral C w v) (h' : Spectral C' w' v') (a b : Fin 3) :
    (vᵀ * (C - C') * v') a b = (w a - w' b) * (vᵀ * v') a b := by
  have e : vᵀ * (C - C') * v' = diagonal w * (vᵀ * v') - (vᵀ * v') * diagonal w' := by
    rw [h.eq, h'.eq, Matrix.mul_sub, Matrix.sub_mul]
    congr 1
    · calc vᵀ * (v * diagonal w * vᵀ) * v' = (vᵀ * v) * diagonal w * (vᵀ * v') := by simp only [Matrix.mul_assoc]
        _ = _ := by rw [h.orthogonal, Matrix.one_mul]
    · calc vᵀ * (v' * diagonal w' * v'ᵀ) * v' = (vᵀ * v') * diagonal w' * (v'ᵀ * v') := by simp only [Matrix.mul_assoc]
        _ = _ := by rw [h'.orthogonal, Matrix.mul_one]
  rw [e, Matrix.sub_apply, Matrix.diagonal_mul, Matrix.mul_diagonal]; ring

theorem Spectral.eq_of_ne (h : Spectral C w v) (h' : Spectral C w' v') {a b : Fin 3}
    (hab : (vᵀ * v') a b ≠ 0) : w a = w' b := by
  have := h.mixed h' a b
  rw [sub_self, Matrix.mul_zero, Matrix.zero_mul, Matrix.zero_apply, eq_comm, mul_eq_zero] at this
  exact sub_eq_zero.1 (this.resolve_right hab)

theorem Orthogonal.det_ne_zero {Q : Ten2 ℝ} (h : Orthogonal Q) : Q.det ≠ 0 := by
  intro h0
  have := congrArg Matrix.det h
  rw [Matrix.det_mul, h0, mul_zero, Matrix.det_one] at this
  exact zero_ne_one this

theorem Spectral.perm (h : Spectral C w v) (h' : Spectral C w' v') : ∃ p : Equiv.Perm (Fin 3), w' = w ∘ p := by
  have hdet : (vᵀ * v').det ≠ 0 := by
    rw [Matrix.det_mul, Matrix.det_transpose]
    exact mul_ne_zero h.orthogonal.det_ne_zero h'.orthogonal.det_ne_zero
  rw [Matrix.det_apply] at hdet
  obtain ⟨p, -, hp⟩ := Finset.exists_ne_zero_of_sum_ne_zero hdet
  refine ⟨p, funext fun a => ?_⟩
  have hprod : (∏ i, (vᵀ * v') (p i) i) ≠ 0 := by
    intro h0
    rw [h0, smul_zero] at hp
    exact hp rfl
  exact (h.eq_of_ne h' ((Finset.prod_ne_zero_iff.1 hprod) a (Finset.mem_univ a))).symm

theorem Spectral.permute (h : Spectral C w v) (p : Equiv.Perm (Fin 3)) :
    Spectral C (w ∘ p) (fun i a => v i (p a)) where
  orthogonal := by
    ext a b
    have := congrFun (congrFun h.orthogonal (p a)) (p b)
    simp only [Matrix.mul_apply, Matrix.transpose_apply, Matrix.one_apply, p.injective.eq_iff] at this ⊢
    exact this
  sum i j := by
    rw [h.sum]
    exact (Equiv.sum_comp p fun a => w a * (v i a * v j a)).symm

theorem exists_eigh : ∃ lapack, EighValid lapack := by
  classical
  refine ⟨fun C => if h : Matrix.IsSymm (C : Ten2 ℝ) then
    ((exists_spectral h).choose, (exists_spectral h).choose_spec.choose) else (0, 0), fun C hC => ?_⟩
  simp only [dif_pos hC]
  exact (exists_spectral hC).choose_spec.choose_spec

/-! ### Limits along ultrafilters -/

theorem Orthogonal.abs_le {Q : Ten2 ℝ} (h : Orthogonal Q) (i j : Fin 3) : Q i j ∈ Set.Icc (-1 : ℝ) 1 := by
  have := congrFun (congrFun h j) j
  rw [Matrix.mul_apply, Matrix.one_apply_eq] at this
  simp only [Matrix.transpose_apply] at this
  have h1 : Q i j * Q i j ≤ 1 := by
    rw [← this]
    exact Finset.single_le_sum (f := fun k => Q k j * Q k j) (fun k _ => mul_self_nonneg _) (Finset.mem_univ i)
  exact ⟨by nlinarith, by nlinarith⟩

theorem exists_limit (U : Ultrafilter ℝ) {v : ℝ → Ten2 ℝ} (h : ∀ᶠ t in (U : Filter ℝ), Orthogonal (v t)) :
    ∃ V : Ten2 ℝ, Tendsto v U (𝓝 V) ∧ Orthogonal V := by
  have h1 : ∀ i j, ∃ y, Tendsto (fun t => v t i j) U (𝓝 y) := by
    intro i j
    obtain ⟨y, -, hy⟩ := (isCompact_Icc (a := (-1 : ℝ)) (b := 1)).ultrafilter_le_nhds (U.map fun t => v t i j) (by
      rw [Ultrafilter.coe_map, le_principal_iff, mem_map]
      filter_upwards [h] with t ht using ht.abs_le i j)
    exact ⟨y, hy⟩
  choose V' hV using h1
  let V : Ten2 ℝ := V'
  have hv : Tendsto v U (𝓝 (V : Ten2 ℝ)) := tendsto_pi_nhds.2 fun i => tendsto_pi_nhds.2 fun j => hV i j
  refine ⟨V, hv, ?_⟩
  have h2 : Tendsto (fun t => (v t)ᵀ * v t) U (𝓝 (Vᵀ * V)) :=
    ((continuous_id.matrix_transpose.matrix_mul continuous_id).tendsto (V : Ten2 ℝ)).comp hv
  refine tendsto_nhds_unique h2 (tendsto_const_nhds.congr' ?_)
  filter_upwards [h] with t ht using ht.symm

/-- difference quotient -/
noncomputable def quot (X : ℝ → Ten2 ℝ) (t₀ t : ℝ) : Ten2 ℝ := (t - t₀)⁻¹ • (X t - X t₀)

theorem moves_quot {X : ℝ → Ten2 ℝ} {X' : Ten2 ℝ} {t₀ : ℝ} :
    Moves X X' t₀ ↔ Tendsto (quot X t₀) (𝓝[≠] t₀) (𝓝 X') := by
  unfold Moves
  simp only [hasDerivAt_iff_tendsto_slope]
  constructor
  · intro h
    exact tendsto_pi_nhds.2 fun i => tendsto_pi_nhds.2 fun j => h i j
  · intro h i j
    exact tendsto_pi_nhds.1 (tendsto_pi_nhds.1 h i) j

theorem Moves.continuous {X : ℝ → Ten2 ℝ} {X' : Ten2 ℝ} {t₀ : ℝ} (h : Moves X X' t₀) : Tendsto X (𝓝 t₀) (𝓝 (X t₀)) :=
  tendsto_pi_nhds.2 fun i => tendsto_pi_nhds.2 fun j => (h i j).continuousAt

/-- the limit of decompositions along an ultrafilter -/
theorem spectral_limit {X : ℝ → Ten2 ℝ} {X' : Ten2 ℝ} {t₀ : ℝ} (hX : Moves X X' t₀) (U : Ultrafilter ℝ)
    (hU : (U : Filter ℝ) ≤ 𝓝[≠] t₀) {w : ℝ → Fin 3 → ℝ} {v : ℝ → Ten2 ℝ}
    (h : ∀ᶠ t in (U : Filter ℝ), Spectral (X t) (w t) (v t)) :
    ∃ W V, Spectral (X t₀) W V ∧ Tendsto w U (𝓝 W) ∧ Tendsto v U (𝓝 V) ∧
      Tendsto (fun t => (v t)ᵀ * quot X t₀ t * V) U (𝓝 (Vᵀ * X' * V)) ∧
      (∀ a, Tendsto (fun t => (t - t₀)⁻¹ * (w t a - W a)) U (𝓝 ((Vᵀ * X' * V) a a))) ∧
      (∀ a b, a ≠ b → W a = W b → (Vᵀ * X' * V) a b = 0) := by
  obtain ⟨V, hV, hVo⟩ := exists_limit U (h.mono fun t ht => ht.orthogonal)
  have hXc : Tendsto X U (𝓝 (X t₀)) := hX.continuous.mono_left (hU.trans nhdsWithin_le_nhds)
  have hVt : Tendsto (fun t => (v t)ᵀ) U (𝓝 Vᵀ) := (continuous_id.matrix_transpose.tendsto V).comp hV
  have hD : Tendsto (fun t => (v t)ᵀ * X t * v t) U (𝓝 (Vᵀ * X t₀ * V)) := (hVt.mul hXc).mul hV
  have hw : ∀ a, Tendsto (fun t => w t a) U (𝓝 ((Vᵀ * X t₀ * V) a a)) := fun a => by
    refine (tendsto_pi_nhds.1 (tendsto_pi_nhds.1 hD a) a).congr' ?_
    filter_upwards [h] with t ht
    rw [ht.diag, Matrix.diagonal_apply_eq]
  let W : Fin 3 → ℝ := fun a => (Vᵀ * X t₀ * V) a a
  have hdiag : Vᵀ * X t₀ * V = diagonal W := by
    refine tendsto_nhds_unique hD ?_
    refine tendsto_pi_nhds.2 fun a => tendsto_pi_nhds.2 fun b => ?_
    by_cases hab : a = b
    · subst hab
      rw [Matrix.diagonal_apply_eq]
      exact tendsto_pi_nhds.1 (tendsto_pi_nhds.1 hD a) a
    · rw [Matrix.diagonal_apply_ne _ hab]
      refine tendsto_const_nhds.congr' ?_
      filter_upwards [h] with t ht
      rw [ht.diag, Matrix.diagonal_apply_ne _ hab]
  have hS : Spectral (X t₀) W V := by
    refine Spectral.of_eq hVo ?_
    rw [← hdiag]
    calc X t₀ = (V * Vᵀ) * X t₀ * (V * Vᵀ) := by rw [hVo.mul_transpose]; simp
      _ = _ := by simp only [Matrix.mul_assoc]
  have hmix : Tendsto (fun t => (v t)ᵀ * quot X t₀ t * V) U (𝓝 (Vᵀ * X' * V)) :=
    (hVt.mul ((moves_quot.1 hX).mono_left hU)).mul tendsto_const_nhds
  have hR : Tendsto (fun t => (v t)ᵀ * V) U (𝓝 1) := by
    have := hVt.mul (tendsto_const_nhds (x := V))
    rwa [show Vᵀ * V = 1 from hVo] at this
  have hid : ∀ a b, ∀ᶠ t in (U : Filter ℝ), ((v t)ᵀ * quot X t₀ t * V) a b =
      (t - t₀)⁻¹ * (w t a - W b) * ((v t)ᵀ * V) a b := fun a b => by
    filter_upwards [h] with t ht
    rw [show (t - t₀)⁻¹ * (w t a - W b) * ((v t)ᵀ * V) a b = (t - t₀)⁻¹ * ((w t a - W b) * ((v t)ᵀ * V) a b) by ring,
      ← ht.mixed hS, quot, Matrix.mul_smul, Matrix.smul_mul, Matrix.smul_apply, smul_eq_mul]
  have hRe : ∀ a b, Tendsto (fun t => ((v t)ᵀ * V) a b) U (𝓝 ((1 : Ten2 ℝ) a b)) := fun a b =>
    tendsto_pi_nhds.1 (tendsto_pi_nhds.1 hR a) b
  have hmixe : ∀ a b, Tendsto (fun t => ((v t)ᵀ * quot X t₀ t * V) a b) U (𝓝 ((Vᵀ * X' * V) a b)) := fun a b =>
    tendsto_pi_nhds.1 (tendsto_pi_nhds.1 hmix a) b
  have hslope : ∀ a, Tendsto (fun t => (t - t₀)⁻¹ * (w t a - W a)) U (𝓝 ((Vᵀ * X' * V) a a)) := fun a => by
    have hr := hRe a a
    rw [Matrix.one_apply_eq] at hr
    have h1 := (hmixe a a).div hr one_ne_zero
    rw [div_one] at h1
    refine h1.congr' ?_
    filter_upwards [hid a a, hr.eventually (isOpen_ne.mem_nhds one_ne_zero)] with t h2 h3
    rw [Pi.div_apply, h2, mul_div_cancel_right₀ _ h3]
  refine ⟨W, V, hS, tendsto_pi_nhds.2 hw, hV, hmix, hslope, fun a b hab hWab => ?_⟩
  have hr := hRe a b
  rw [Matrix.one_apply_ne hab] at hr
  have h1 := (hslope a).mul hr
  rw [mul_zero] at h1
  refine tendsto_nhds_unique (hmixe a b) (h1.congr' ?_)
  filter_upwards [hid a b] with t ht
  rw [ht, hWab]

end Spec
