import Verif.Spec.Mirror
import Verif.Props.LabOgden
import Verif.Props.Optimize

/-! # Property C83: equi-biaxial tension is uniaxial compression -/

namespace Props
open Spec Hel Matrix

variable {Z μ : Type}

theorem mirrorStretch_pos (k : LoadKind) {l : ℝ} (hl : 0 < l) : 0 < k.mirrorStretch l := by
  have := Real.sqrt_pos.2 hl
  cases k <;> simp only [LoadKind.mirrorStretch] <;> positivity

theorem mirror_mirror (k : LoadKind) : k.mirror.mirror = k := by cases k <;> rfl

theorem mirrorStretch_mirror (k : LoadKind) {l : ℝ} (hl : 0 < l) : k.mirror.mirrorStretch (k.mirrorStretch l) = l := by
  cases k
  · simp only [LoadKind.mirror, LoadKind.mirrorStretch, div_pow, one_pow, Real.sq_sqrt hl.le, one_div_one_div]
  · simp only [LoadKind.mirror, LoadKind.mirrorStretch, one_div_one_div]
  · simp only [LoadKind.mirror, LoadKind.mirrorStretch]
    rw [show 1 / l ^ 2 = (1 / l) ^ 2 by rw [div_pow, one_pow], Real.sqrt_sq (by positivity), one_div_one_div]

theorem load_diag (k : LoadKind) (l : ℝ) : ∃ b, k.F l = diagonal ![l, b, k.mirrorStretch l] ∧
    (0 < l → k.mirror.F (k.mirrorStretch l) = diagonal ![k.mirrorStretch l, b, l]) := by
  cases k
  · refine ⟨1 / √l, rfl, fun hl => ?_⟩
    simp only [LoadKind.mirror, LoadKind.mirrorStretch, LoadKind.F, div_pow, one_pow, Real.sq_sqrt hl.le, one_div_one_div]
  · refine ⟨1, rfl, fun _ => ?_⟩
    simp only [LoadKind.mirror, LoadKind.mirrorStretch, LoadKind.F, one_div_one_div]
  · refine ⟨l, rfl, fun hl => ?_⟩
    have : 1 / √(1 / l ^ 2) = l := by
      rw [show 1 / l ^ 2 = (1 / l) ^ 2 by rw [div_pow, one_pow], Real.sqrt_sq (by positivity), one_div_one_div]
    simp only [LoadKind.mirror, LoadKind.mirrorStretch, LoadKind.F, this]

theorem swap02_orthogonal : Orthogonal (!![0, 0, 1; 0, 1, 0; 1, 0, 0] : Ten2 ℝ) := by
  rw [Orthogonal]
  ext i j
  fin_cases i <;> fin_cases j <;> simp [Matrix.mul_apply, Fin.sum_univ_three]

/-- One data point. -/
theorem mirror_point (w : Space) (mat : Material ℝ Z μ) (z z' : Z) (hi : Material.Isotropic mat z) (s : w.St μ)
    (k : LoadKind) {l : ℝ} (hl : 0 < l) {P : Ten2 ℝ}
    (h : Returns ((w.obj {} mat).gradient (k.F l) z) s (.full P, z')) :
    ∃ P', Returns ((w.obj {} mat).gradient (k.mirror.F (k.mirrorStretch l)) z) s (.full P', z') ∧
      normalForce (k.mirror.F (k.mirrorStretch l)) P' = -(l * normalForce (k.F l) P / k.mirrorStretch l) := by
  have hm := mirrorStretch_pos k hl
  have hdet : (k.F l).det ≠ 0 := by rw [loadF_det k hl]; exact one_ne_zero
  set Q : Ten2 ℝ := !![0, 0, 1; 0, 1, 0; 1, 0, 0] with hQ
  have h1 := C32_gradient w mat z z' s swap02_orthogonal (C36_gradient w mat z z' s hi hdet swap02_orthogonal.transpose h)
  obtain ⟨b, e1, e2⟩ := load_diag k l
  have e3 := e2 hl
  have e4 : Q * (k.F l * Qᵀ) = k.mirror.F (k.mirrorStretch l) := by
    rw [e1, e3, hQ]
    ext i j
    fin_cases i <;> fin_cases j <;> simp [Matrix.mul_apply, Fin.sum_univ_three]
  rw [e4] at h1
  refine ⟨_, h1, ?_⟩
  have e5 : (Q * (P * Qᵀ)) 0 0 = P 2 2 := by simp [hQ, Matrix.mul_apply, Fin.sum_univ_three]
  have e6 : (Q * (P * Qᵀ)) 2 2 = P 0 0 := by simp [hQ, Matrix.mul_apply, Fin.sum_univ_three]
  unfold normalForce
  rw [e5, e6, e3, e1]
  simp only [diagonal_apply_eq, cons_val]
  field_simp
  ring

/-- Every isotropic material in every space: the curve of the mirrored load case at the stretches of
the free direction is determined by the curve of the load case; the forces per deformed area are
opposite. -/
theorem C83_mirror (w : Space) (mat : Material ℝ (Option Z) μ) (hi : Material.Isotropic mat none) (s s' : w.St μ)
    (hs : w.inner s = w.inner s')
    (sim sim' : Simulation Z) (k : LoadKind) (lab lab' : Option String) (hk : sim.loadcase = k.case lab)
    (hk' : sim'.loadcase = k.mirror.case lab') (p p' : List ℝ) (B B' : MatObj (Option Z))
    (hB : sim.material (Kwargs.ofList (sim.labels.zip p)) = .ok B) (hA : MatObj.ActsAs B (w.obj {} mat) s)
    (hB' : sim'.material (Kwargs.ofList (sim'.labels.zip p')) = .ok B') (hA' : MatObj.ActsAs B' (w.obj {} mat) s')
    (x y : List ℝ) (hx : ∀ l ∈ x, 0 < l) (hne : x ≠ []) (h : sim.stressCurveFit x p = .ok y) :
    sim'.stressCurveFit (x.map k.mirrorStretch) p' =
      .ok (List.zipWith (fun l f => -(l * f / k.mirrorStretch l)) x y) := by
  refine curve_of_returns hk' hB' hA' (by simpa using hne) ?_
  have h1 := forall₂_imp_pos (S := fun l f => ∃ P z', Returns ((w.obj {} mat).gradient (k.mirror.F (k.mirrorStretch l)) none) s'
    (.full P, z') ∧ -(l * f / k.mirrorStretch l) = normalForce (k.mirror.F (k.mirrorStretch l)) P) ?_ hx (curve_returns hk hB hA h)
  · rw [List.forall₂_map_left_iff]
    clear h hne
    induction h1 with
    | nil => exact .nil
    | cons h1 _ ih => exact .cons h1 (ih fun l hl => hx l (List.mem_cons_of_mem _ hl))
  · rintro l f hl ⟨P, z', hP, rfl⟩
    obtain ⟨P', h2, h3⟩ := mirror_point w mat none z' hi s k hl hP
    refine ⟨P', z', ?_, h3.symm⟩
    obtain ⟨g, h4, h5⟩ := (Space.returns_gradient ..).1 h2
    exact (Space.returns_gradient ..).2 ⟨g, by rw [← hs]; exact h4, h5⟩

/-- Third-order-deformation materials, on the deformation or on the distortional space: the
equi-biaxial curve is the uniaxial curve in compression, and the planar curve in compression is the
planar curve in tension. -/
theorem C83_third_order (sim sim' : Simulation Z) (k : LoadKind) (lab lab' : Option String) (hk : sim.loadcase = k.case lab)
    (hk' : sim'.loadcase = k.mirror.case lab') (hm : sim.material = todDeformation ∨ sim.material = todDistortional)
    (hm' : sim'.material = todDeformation ∨ sim'.material = todDistortional) (hl : sim'.labels = sim.labels) (p : List ℝ)
    (hn : ∀ name ∈ (sim.labels.zip p).map (·.1), name ∈ ["C10", "C01", "C11", "C20", "C30"])
    (x : List ℝ) (hx : ∀ l ∈ x, 0 < l) :
    ∃ y, sim.stressCurveFit x p = .ok y ∧ sim'.stressCurveFit (x.map k.mirrorStretch) p =
      .ok (List.zipWith (fun l f => -(l * f / k.mirrorStretch l)) x y) := by
  have hx' : ∀ l ∈ x.map k.mirrorStretch, 0 < l := by
    intro l hl
    obtain ⟨m, hm, rfl⟩ := List.mem_map.1 hl
    exact mirrorStretch_pos k (hx m hm)
  have hn' : ∀ name ∈ (sim'.labels.zip p).map (·.1), name ∈ ["C10", "C01", "C11", "C20", "C30"] := by rwa [hl]
  refine ⟨_, C42_curve sim k lab hk hm p hn x hx, ?_⟩
  rcases eq_or_ne x [] with rfl | hne
  · exact C42_curve sim' k.mirror lab' hk' hm' p hn' [] (by simp)
  have hc := todKwargs_ok hn
  obtain ⟨B, hB, hA⟩ := todDeformation_acts (Z := Option Z) hc { material := { material := () } }
  have key := C83_mirror .deformation _ (C36_invariants _ none) { material := { material := () } }
    { material := { material := () } } rfl { sim with material := todDeformation } { sim' with material := todDeformation }
    k lab lab' hk hk' p p B B hB hA (by simpa only [hl] using hB) hA x _ hx hne
    (C42_curve { sim with material := todDeformation } k lab hk (Or.inl rfl) p hn x hx)
  rw [C42_curve { sim' with material := todDeformation } k.mirror lab' hk' (Or.inl rfl) p hn' _ hx'] at key
  rw [C42_curve sim' k.mirror lab' hk' hm' p hn' _ hx']
  exact key

/-- Ogden materials, on the deformation or on the distortional space. -/
theorem C83_ogden (lapack : Eigh) (hv : EighValid lapack) (mu alpha : List ℝ) (ha : ∀ a ∈ alpha, a ≠ 0)
    (sim sim' : Simulation Z) (k : LoadKind) (lab lab' : Option String) (hk : sim.loadcase = k.case lab)
    (hk' : sim'.loadcase = k.mirror.case lab') (p p' : List ℝ)
    (hm : sim.material (Kwargs.ofList (sim.labels.zip p)) = .ok (ogdenDeformation lapack mu alpha) ∨
      sim.material (Kwargs.ofList (sim.labels.zip p)) = .ok (ogdenDistortional lapack mu alpha))
    (hm' : sim'.material (Kwargs.ofList (sim'.labels.zip p')) = .ok (ogdenDeformation lapack mu alpha) ∨
      sim'.material (Kwargs.ofList (sim'.labels.zip p')) = .ok (ogdenDistortional lapack mu alpha))
    (x : List ℝ) (hx : ∀ l ∈ x, 0 < l) (hne : x ≠ []) :
    ∃ y, sim.stressCurveFit x p = .ok y ∧ sim'.stressCurveFit (x.map k.mirrorStretch) p' =
      .ok (List.zipWith (fun l f => -(l * f / k.mirrorStretch l)) x y) := by
  have hx' : ∀ l ∈ x.map k.mirrorStretch, 0 < l := by
    intro l hl
    obtain ⟨m, hm, rfl⟩ := List.mem_map.1 hl
    exact mirrorStretch_pos k (hx m hm)
  have hne' : x.map k.mirrorStretch ≠ [] := by simpa using hne
  refine ⟨_, C42_ogden lapack hv mu alpha ha sim k lab hk p hm x hne hx, ?_⟩
  have hA := ogdenDeformation_acts (Z := Option Z) lapack mu alpha { material := { material := () } }
  have key := C83_mirror .deformation _ (C36_stretches lapack hv _ (Ogden.symmetric _) none) { material := { material := () } }
    { material := { material := () } } rfl { sim with material := fun _ => .ok (ogdenDeformation lapack mu alpha) }
    { sim' with material := fun _ => .ok (ogdenDeformation lapack mu alpha) }
    k lab lab' hk hk' p p' _ _ rfl hA rfl hA x _ hx hne
    (C42_ogden lapack hv mu alpha ha { sim with material := fun _ => .ok (ogdenDeformation lapack mu alpha) } k lab hk p
      (Or.inl rfl) x hne hx)
  rw [C42_ogden lapack hv mu alpha ha { sim' with material := fun _ => .ok (ogdenDeformation lapack mu alpha) } k.mirror lab' hk'
    p' (Or.inl rfl) _ hne' hx'] at key
  rw [C42_ogden lapack hv mu alpha ha sim' k.mirror lab' hk' p' hm' _ hne' hx']
  exact key

/-- The hypotheses are met: a uniaxial test at the stretch four is an equi-biaxial test at the stretch
one half. -/
example : ∃ y, Simulation.stressCurveFit (Z := Unit) ⟨LoadKind.uniaxial.case none, [], ["C10", "C01"], todDeformation⟩ [4] [3, 1] = .ok y ∧
    Simulation.stressCurveFit (Z := Unit) ⟨LoadKind.biaxial.case none, [], ["C10", "C01"], todDistortional⟩ [1 / 2] [3, 1] =
      .ok (y.map fun f => -(8 * f)) := by
  obtain ⟨y, h1, h2⟩ := C83_third_order (Z := Unit) ⟨LoadKind.uniaxial.case none, [], ["C10", "C01"], todDeformation⟩
    ⟨LoadKind.biaxial.case none, [], ["C10", "C01"], todDistortional⟩ .uniaxial none none rfl rfl (Or.inl rfl) (Or.inr rfl) rfl
    [3, 1] (by simp) [4] (by simp)
  have e : LoadKind.uniaxial.mirrorStretch 4 = 1 / 2 := by
    rw [LoadKind.mirrorStretch, show (4 : ℝ) = 2 ^ 2 by norm_num, Real.sqrt_sq (by norm_num)]
  refine ⟨y, h1, ?_⟩
  have hl := stressCurveFit_length h1
  obtain ⟨f, rfl⟩ := List.length_eq_one_iff.1 hl
  simp only [List.map_cons, List.map_nil, List.zipWith_cons_cons, List.zipWith_nil_left, e] at h2 ⊢
  rw [h2]
  congr 2
  ring

end Props
