import Verif.Proofs.NonFiniteExact
import Verif.Props.LabCurves
import Verif.Props.Balance

/-!
# C90: `inf`, `nan` and impossible deformations

The formats are arbitrary: nothing is assumed about the rounding, so the statements hold for `float32`, `float64` and exact
arithmetic, with overflow and underflow.  The materials are arbitrary functions of the array passed to them.
-/

namespace Props
open Hel Rnd Spec Matrix Proofs.NonFin

variable {f : Format}

/-! ## the deformation gradient -/

/-- An entry of the deformation gradient which is `inf` or `nan` makes the determinant `inf` or `nan`. -/
theorem C90_determinant (F : Full2 (Flt f)) (i j : Fin 3) (h : NotFinite (F i j)) :
    NotFinite (Rnd.det (Rnd.cauchyGreen F)) := det_bad (cauchyGreen_diag j h)

/-- Distortional space, any material and configuration: for an entry `inf` or `nan` of the deformation gradient, and also if its
determinant is computed as zero, negative or `nan`, no entry of the stress is finite. -/
theorem C90_distortional_stress (cfg : SpaceCfg) (mat : FMaterial (Flt f)) (F : Full2 (Flt f))
    (h : (∃ i j, NotFinite (F i j)) ∨ NotPositive (Rnd.det (Rnd.cauchyGreen F))) :
    NowhereFinite (DistortionalF.gradient cfg mat F) := spaceStress_bad (dist_S mat F h)

/-- The same for the elasticity, whatever `np.allclose` returns for `nan`. -/
theorem C90_distortional_elasticity (cfg : SpaceCfg) (mat : FMaterial (Flt f)) (keep : Mat6 (Flt f) → Bool) (F : Full2 (Flt f))
    (h : (∃ i j, NotFinite (F i j)) ∨ NotPositive (Rnd.det (Rnd.cauchyGreen F))) :
    NowhereFinite4 (DistortionalF.hessian cfg mat F keep) := spaceElasticity_bad (dist_C4 mat F keep h)

/-- Dilatational space: unless the determinant is computed as a finite positive number, no entry of the stress is finite. -/
theorem C90_dilatational_stress (cfg : SpaceCfg) (mat : FMaterial (Flt f)) (F : Full2 (Flt f))
    (h : (∃ i j, NotFinite (F i j)) ∨ ¬ IsPositive (Rnd.det (Rnd.cauchyGreen F))) :
    NowhereFinite (DilatationalF.gradient cfg mat F) := by
  refine spaceStress_bad (dil_S mat F ?_)
  rcases h with ⟨i, j, h⟩ | h
  · rintro ⟨r, e, -⟩
    have := C90_determinant F i j h
    rw [notFinite_iff, e] at this
    exact this trivial
  · exact h

/-- The same for the elasticity. -/
theorem C90_dilatational_elasticity (cfg : SpaceCfg) (mat : FMaterial (Flt f)) (F : Full2 (Flt f))
    (h : (∃ i j, NotFinite (F i j)) ∨ ¬ IsPositive (Rnd.det (Rnd.cauchyGreen F))) :
    NowhereFinite4 (DilatationalF.hessian cfg mat F) := by
  refine spaceElasticity_bad (dil_C4 mat F ?_)
  rcases h with ⟨i, j, h⟩ | h
  · rintro ⟨r, e, -⟩
    have := C90_determinant F i j h
    rw [notFinite_iff, e] at this
    exact this trivial
  · exact h

/-- Deformation space: an entry `inf` or `nan` in row `i` of the deformation gradient spoils row `i` of the first Piola-Kirchhoff
stress; the entries `(i, J, k, L)` and `(k, J, i, L)` of the elasticity. -/
theorem C90_deformation (mat : FMaterial (Flt f)) (F : Full2 (Flt f)) (i j : Fin 3) (h : NotFinite (F i j)) :
    (∃ P, DeformationF.gradient {} mat F = .full P ∧ ∀ J, NotFinite (P i J)) ∧
    ∃ A, DeformationF.hessian {} mat F = .full A ∧ ∀ J k L, NotFinite (A i J k L) ∧ NotFinite (A k J i L) :=
  ⟨⟨_, rfl, fun J => sum3_bad j (x := F i j) (by simp) h⟩,
    ⟨_, rfl, fun J k L => ⟨add_left (sum33_bad j 0 (x := F i j) (by simp) h), add_left (sum33_bad 0 j (x := F i j) (by simp) h)⟩⟩⟩

/-- Deformation space, Cauchy stress (and every other configuration with the deformed area): row and column `i`, and no entry is
finite if the determinant is computed as zero, negative or `nan`. -/
theorem C90_deformation_cauchy (mat : FMaterial (Flt f)) (F : Full2 (Flt f)) :
    (∃ σ, DeformationF.gradient { area := none } mat F = .full σ ∧
      (∀ i I, NotFinite (F i I) → ∀ j, NotFinite (σ i j) ∧ NotFinite (σ j i)) ∧
      (NotPositive (Rnd.det (Rnd.cauchyGreen F)) → ∀ i j, NotFinite (σ i j))) ∧
    ∃ A, DeformationF.hessian { area := none } mat F = .full A ∧
      (∀ i I, NotFinite (F i I) → ∀ j k l, NotFinite (A i j k l) ∧ NotFinite (A j i k l) ∧ NotFinite (A j k i l) ∧
        NotFinite (A j k l i)) ∧
      (NotPositive (Rnd.det (Rnd.cauchyGreen F)) → ∀ i j k l, NotFinite (A i j k l)) := by
  refine ⟨⟨_, rfl, fun i I h j => ⟨?_, ?_⟩, fun h i j => div_sqrt h⟩, ⟨_, rfl, fun i I h j k l => ⟨?_, ?_, ?_, ?_⟩,
    fun h i j k l => div_sqrt h⟩⟩
  · exact div_left (sum3_bad 0 (List.mem_cons_of_mem _ (List.mem_singleton.2 rfl))
      (sum3_bad I (x := F i I) (by simp) h))
  · exact div_left (sum3_bad I (x := F i I) (by simp) h)
  · exact div_left (sum33_bad 0 0 (List.mem_cons_of_mem _ (List.mem_cons_of_mem _ (List.mem_singleton.2 rfl)))
      (add_left (sum33_bad I 0 (x := F i I) (by simp) h)))
  · exact div_left (sum33_bad I 0 (x := F i I) (by simp) h)
  · exact div_left (sum33_bad 0 0 (List.mem_cons_of_mem _ (List.mem_cons_of_mem _ (List.mem_singleton.2 rfl)))
      (add_left (sum33_bad 0 I (x := F i I) (by simp) h)))
  · exact div_left (sum33_bad 0 I (x := F i I) (by simp) h)

/-! ## the lab -/

/-- The three load cases in a format. -/
noncomputable def loadF : LoadKind → Flt f → Full2 (Flt f)
  | .uniaxial => uniaxialF
  | .planar => planarF
  | .biaxial => biaxialF

/-- The first Piola-Kirchhoff stress of a space with the default configuration. -/
noncomputable def pk1 (w : Spec.Space) (mat : FMaterial (Flt f)) (F : Full2 (Flt f)) : FStress (Flt f) :=
  match w with
  | .deformation => DeformationF.gradient {} mat F
  | .distortional => DistortionalF.gradient {} mat F
  | .dilatational => DilatationalF.gradient {} mat F

theorem pk1_bad (w : Spec.Space) (mat : FMaterial (Flt f)) (F : Full2 (Flt f)) :
    ∃ P, pk1 w mat F = .full P ∧ ∀ i j, NotFinite (F i j) → NotFinite (P i i) := by
  cases w
  · exact ⟨_, rfl, fun i j h => sum3_bad j (x := F i j) (by simp) h⟩
  · exact ⟨_, rfl, fun i j h => C90_distortional_stress {} mat F (Or.inl ⟨i, j, h⟩) i i⟩
  · exact ⟨_, rfl, fun i j h => C90_dilatational_stress {} mat F (Or.inl ⟨i, j, h⟩) i i⟩

theorem lab_bad {F P : Full2 (Flt f)} (h : NotFinite (P 0 0) ∨ NotFinite (P 2 2)) : NotFinite (labStress F P) := by
  rcases h with h | h
  · exact sub_left h
  · exact sub_right (div_left (mul_left h))

/-- Uniaxial load case, every space and material: the simulated stress is `inf` or `nan` unless the stretch is finite and positive. -/
theorem C90_uniaxial (w : Spec.Space) (mat : FMaterial (Flt f)) (x : Flt f) (hx : ¬ IsPositive x) :
    ∃ P, pk1 w mat (loadF .uniaxial x) = .full P ∧ NotFinite (labStress (loadF .uniaxial x) P) := by
  obtain ⟨P, e, h⟩ := pk1_bad w mat (loadF .uniaxial x)
  refine ⟨P, e, lab_bad ?_⟩
  rcases isFinite_or x.num with ⟨r, hr⟩ | hb
  · refine Or.inr (h 2 2 ?_)
    have hr0 : r ≤ 0 := not_lt.1 fun h => hx ⟨r, hr, h⟩
    exact div_sqrt (Or.inr ⟨r, hr, hr0⟩)
  · exact Or.inl (h 0 0 hb)

/-- Planar and biaxial load cases: the simulated stress is `inf` or `nan` if the stretch is zero, `inf` or `nan`. -/
theorem C90_planar_biaxial (k : LoadKind) (hk : k = .planar ∨ k = .biaxial) (w : Spec.Space) (mat : FMaterial (Flt f))
    (x : Flt f) (hx : NotFinite x ∨ x.num = .fin 0) (h0 : f.round 0 = .fin 0) :
    ∃ P, pk1 w mat (loadF k x) = .full P ∧ NotFinite (labStress (loadF k x) P) := by
  obtain ⟨P, e, h⟩ := pk1_bad w mat (loadF k x)
  refine ⟨P, e, lab_bad ?_⟩
  rcases hx with hx | hx
  · refine Or.inl (h 0 0 ?_)
    rcases hk with rfl | rfl <;> exact hx
  · refine Or.inr (h 2 2 ?_)
    rcases hk with rfl | rfl
    · exact div_zero hx
    · refine div_zero ?_
      show Num.mul f.round x.num x.num = .fin 0
      rw [hx]; simp [Num.mul, h0]

/-- Experiments: a length or an area of zero gives no finite stretches and stresses. -/
theorem C90_experiment (d length force area : Flt f) :
    (length.num = .fin 0 → NotFinite (experimentStretchF d length)) ∧ (area.num = .fin 0 → NotFinite (experimentStressF force area)) :=
  ⟨fun h => add_right (div_zero h), fun h => div_zero h⟩

/-! ## negative stretches -/

theorem normalForce_diag (d : Fin 3 → ℝ) (F P : Ten2 ℝ) :
    normalForce F (diagonal d * P) = d 0 * P 0 0 - d 2 * P 2 2 * F 2 2 / F 0 0 := by
  simp [normalForce, diagonal_mul]

/-- An impossible negative stretch is not noticed by the planar and the biaxial load case: the simulated stress is minus that of the
absolute value.  (With the wrong unit of length an experiment has such stretches.) -/
theorem C90_negative_stretch_false {Z μ : Type} (sim : Simulation Z) (k : LoadKind) (lab : Option String)
    (hk : sim.loadcase = k.case lab) (hk2 : k = .planar ∨ k = .biaxial) (p : List ℝ) (B : MatObj (Option Z))
    (hB : sim.material (Kwargs.ofList (sim.labels.zip p)) = .ok B) (w : Spec.Space) (mat : Material ℝ (Option Z) μ) (s : w.St μ)
    (hA : MatObj.ActsAs B (w.obj {} mat) s) (x y : List ℝ) (h : sim.stressCurveFit x p = .ok y) (hx : x ≠ []) :
    sim.stressCurveFit (x.map fun l => -l) p = .ok (y.map fun f => -f) := by
  refine curve_of_returns hk hB hA (by simpa using hx) ?_
  rw [List.forall₂_map_left_iff, List.forall₂_map_right_iff]
  refine (curve_returns hk hB hA h).imp ?_
  rintro l g ⟨P, z', hP, rfl⟩
  rcases hk2 with rfl | rfl
  · have hQ : Orthogonal (diagonal ![-1, 1, -1] : Ten2 ℝ) := by
      simp only [Orthogonal]
      rw [diagonal_transpose, diagonal_mul_diagonal, ← diagonal_one]
      congr 1; funext a; fin_cases a <;> simp
    have e : (diagonal ![-1, 1, -1] : Ten2 ℝ) * LoadKind.planar.F l = LoadKind.planar.F (-l) := by
      simp only [LoadKind.F]
      rw [diagonal_mul_diagonal]
      congr 1; funext a; fin_cases a <;> simp [inv_neg]
    have := C32_gradient w mat none z' s hQ hP
    rw [e] at this
    refine ⟨_, z', this, ?_⟩
    refine Eq.trans ?_ (normalForce_diag _ _ _).symm
    simp [normalForce, LoadKind.F, div_neg, inv_neg]
    ring
  · have hQ : Orthogonal (diagonal ![-1, -1, 1] : Ten2 ℝ) := by
      simp only [Orthogonal]
      rw [diagonal_transpose, diagonal_mul_diagonal, ← diagonal_one]
      congr 1; funext a; fin_cases a <;> simp
    have e : (diagonal ![-1, -1, 1] : Ten2 ℝ) * LoadKind.biaxial.F l = LoadKind.biaxial.F (-l) := by
      simp only [LoadKind.F]
      rw [diagonal_mul_diagonal]
      congr 1; funext a; fin_cases a <;> simp
    have := C32_gradient w mat none z' s hQ hP
    rw [e] at this
    refine ⟨_, z', this, ?_⟩
    refine Eq.trans ?_ (normalForce_diag _ _ _).symm
    simp [normalForce, LoadKind.F, div_neg]
    ring

/-! ## the model -/

/-- Over the real numbers the programs are those of the other models. -/
theorem C90_same_program (cfg : SpaceCfg) (m : FMaterial ℝ) (F : Full2 ℝ) :
    (∀ s, Returns ((Deformation.obj cfg (materialOfF m)).gradient F ()) s (stressOfF (DeformationF.gradient cfg m F), ())) ∧
    (∀ s, Returns ((Deformation.obj cfg (materialOfF m)).hessian F ()) s (elasticityOfF (DeformationF.hessian cfg m F))) ∧
    (∀ s, Returns ((Distortional.obj cfg (materialOfF m)).gradient F ()) s (stressOfF (DistortionalF.gradient cfg m F), ())) ∧
    (open Classical in ∀ s, Returns ((Distortional.obj cfg (materialOfF m)).hessian F ()) s
      (elasticityOfF (DistortionalF.hessian cfg m F fun X => decide (¬ Distortional.allclose0 X)))) ∧
    (∀ s, Returns ((Dilatational.obj cfg (materialOfF m)).gradient F ()) s (stressOfF (DilatationalF.gradient cfg m F), ())) ∧
    ∀ s, Returns ((Dilatational.obj cfg (materialOfF m)).hessian F ()) s (elasticityOfF (DilatationalF.hessian cfg m F)) := by
  refine ⟨fun s => ?_, fun s => ?_, fun s => ?_, fun s => ?_, fun s => ?_, fun s => ?_⟩
  · refine (Deformation.returns_gradient ..).2 ⟨_, rfl, ?_⟩
    rw [DeformationF.gradient, spaceStress_real, def_st_real]
  · refine (Deformation.returns_hessian ..).2 ⟨_, (), (), _, rfl, rfl, ?_⟩
    rw [DeformationF.hessian, spaceElasticity_real, def_st_real, rcg_real]; rfl
  · refine (Distortional.returns_gradient ..).2 ⟨_, rfl, ?_⟩
    rw [DistortionalF.gradient, spaceStress_real, dist_st_real]
    simp only [DistortionalF.I3, rcg_real, det_exact]; rfl
  · refine (Distortional.returns_hessian ..).2 ⟨_, (), (), _, rfl, rfl, ?_⟩
    rw [DistortionalF.hessian, spaceElasticity_real, dist_st_real, dist_c4_real, dist_ic_real]
    simp only [DistortionalF.I3, rcg_real, det_exact]; rfl
  · refine (Dilatational.returns_gradient ..).2 ⟨_, rfl, ?_⟩
    rw [DilatationalF.gradient, spaceStress_real, dil_st_real]
    simp only [DilatationalF.I3, rcg_real, det_exact]; rfl
  · refine (Dilatational.returns_hessian ..).2 ⟨_, (), (), _, rfl, rfl, ?_⟩
    rw [DilatationalF.hessian, spaceElasticity_real, dil_st_real, dil_c4_real, dil_ic_real]
    simp only [DilatationalF.I3, rcg_real, det_exact]; rfl

end Props
