import Verif.Props.LabCurves
import Verif.Props.Principal

/-! # Property C42 for Ogden's model: closed-form stress-stretch curves -/

namespace Props
open Spec Hel Matrix

variable {Z μ : Type}

/-- `DeformationSpace(Stretches(Ogden(mu, alpha)))`, freshly constructed. -/
noncomputable def ogdenDeformation (lapack : Eigh) (mu alpha : List ℝ) : MatObj Z :=
  MatObj.of (fun n => Batch.Deformation.obj {} (Batch.Stretches.material lapack (Batch.ogdenMat (ι := Fin n) ⟨mu, alpha⟩)))
    fun _ => { material := { material := () } }

/-- `DistortionalSpace(Stretches(Ogden(mu, alpha)))`, freshly constructed. -/
noncomputable def ogdenDistortional (lapack : Eigh) (mu alpha : List ℝ) : MatObj Z :=
  MatObj.of (fun n => Batch.Distortional.obj {} (Batch.Stretches.material lapack (Batch.ogdenMat (ι := Fin n) ⟨mu, alpha⟩)))
    fun _ => { material := { material := () } }

theorem ogdenDeformation_acts (lapack : Eigh) (mu alpha : List ℝ) (s : DefSt (StrSt Unit)) :
    MatObj.ActsAs (ogdenDeformation (Z := Z) lapack mu alpha)
      (Deformation.obj {} (Stretches.material lapack (Ogden.mat ⟨mu, alpha⟩))) s := fun _ i F z =>
  C39_deformation_gradient {} i id _ _ (C39_stretches lapack i id _ _ (C39_ogden _ i id)) F z _ s

theorem ogdenDistortional_acts (lapack : Eigh) (mu alpha : List ℝ) (s : DistSt (StrSt Unit)) :
    MatObj.ActsAs (ogdenDistortional (Z := Z) lapack mu alpha)
      (Distortional.obj {} (Stretches.material lapack (Ogden.mat ⟨mu, alpha⟩))) s := fun _ i F z =>
  C39_distortional_gradient {} i id _ _ (C39_stretches lapack i id _ _ (C39_ogden _ i id)) F z _ s

/-- The textbook curve of one term of Ogden's model for an incompressible solid. -/
noncomputable def ogdenCurve (k : LoadKind) (mu alpha l : ℝ) : ℝ :=
  match k with
  | .uniaxial => 2 * mu / alpha * (l ^ (alpha - 1) - l ^ (-alpha / 2 - 1))
  | .planar => 2 * mu / alpha * (l ^ (alpha - 1) - l ^ (-alpha - 1))
  | .biaxial => 2 * mu / alpha * (l ^ (alpha - 1) - l ^ (-2 * alpha - 1))

/-- The principal stretches of the load cases. -/
noncomputable def loadStretches : LoadKind → ℝ → Fin 3 → ℝ
  | .uniaxial, l => ![l, 1 / √l, 1 / √l]
  | .planar, l => ![l, 1, 1 / l]
  | .biaxial, l => ![l, l, 1 / l ^ 2]

theorem loadF_eq (k : LoadKind) (l : ℝ) : k.F l = diagonal (loadStretches k l) := by cases k <;> rfl

theorem loadStretches_pos (k : LoadKind) {l : ℝ} (hl : 0 < l) : Positive (loadStretches k l) := by
  have := Real.sqrt_pos.2 hl
  intro a
  cases k <;> fin_cases a <;> simp [loadStretches] <;> positivity

theorem ogdenCurve_sum (k : LoadKind) {l : ℝ} (hl : 0 < l) (p : ℝ × ℝ) :
    2 * p.1 / p.2 * loadStretches k l 0 ^ (p.2 - 1) -
      2 * p.1 / p.2 * loadStretches k l 2 ^ (p.2 - 1) * loadStretches k l 2 / loadStretches k l 0 =
    ogdenCurve k p.1 p.2 l := by
  have h0 := hl.ne'
  have hs : √l = l ^ (1 / 2 : ℝ) := Real.sqrt_eq_rpow l
  have key : ∀ m c : ℝ, m = l ^ c → 2 * p.1 / p.2 * m ^ (p.2 - 1) * m / l = 2 * p.1 / p.2 * l ^ (c * p.2 - 1) := by
    rintro m c rfl
    rw [← Real.rpow_mul hl.le, mul_assoc (2 * p.1 / p.2), ← Real.rpow_add hl, mul_div_assoc, ← Real.rpow_sub_one h0]
    congr 2; ring
  cases k
  · have h2 : loadStretches .uniaxial l 2 = l ^ (-(1 / 2) : ℝ) := by
      simp only [loadStretches, cons_val]; rw [hs, Real.rpow_neg hl.le, one_div]
    rw [show loadStretches .uniaxial l 0 = l from rfl, key _ _ h2, ogdenCurve, mul_sub]
    congr 3; ring
  · have h2 : loadStretches .planar l 2 = l ^ (-1 : ℝ) := by
      simp only [loadStretches, cons_val]; rw [Real.rpow_neg_one, one_div]
    rw [show loadStretches .planar l 0 = l from rfl, key _ _ h2, ogdenCurve, mul_sub]
    congr 3; ring
  · have h2 : loadStretches .biaxial l 2 = l ^ (-2 : ℝ) := by
      simp only [loadStretches, cons_val]; rw [Real.rpow_neg hl.le, one_div]; norm_num
    rw [show loadStretches .biaxial l 0 = l from rfl, key _ _ h2, ogdenCurve, mul_sub]

theorem ogden_point (lapack : Eigh) (hl : EighValid lapack) (mu alpha : List ℝ) (ha : ∀ a ∈ alpha, a ≠ 0)
    (k : LoadKind) {l : ℝ} (hp : 0 < l) (z : Z) (s : DefSt (StrSt Unit)) :
    ∃ P, Returns ((Deformation.obj {} (Stretches.material lapack (Ogden.mat ⟨mu, alpha⟩))).gradient (k.F l) z) s (.full P, z) ∧
      normalForce (k.F l) P = ((mu.zip alpha).map fun p => ogdenCurve k p.1 p.2 l).sum := by
  have h := C52_ogden lapack hl mu alpha ha z s (loadStretches_pos k hp) orthogonal_one orthogonal_one
  simp only [Matrix.one_mul, transpose_one, Matrix.mul_one] at h
  rw [← loadF_eq] at h
  refine ⟨_, h, ?_⟩
  have e : ∀ d q : Fin 3 → ℝ, normalForce (diagonal d) (diagonal q) = q 0 - q 2 * d 2 / d 0 := by
    intro d q
    unfold normalForce
    simp only [diagonal_apply_eq]
  rw [loadF_eq]
  refine (congrArg (normalForce _) (Matrix.mul_one _)).trans ((e _ _).trans ?_)
  induction mu.zip alpha with
  | nil => simp
  | cons p L ih =>
    simp only [List.map_cons, List.sum_cons] at ih ⊢
    rw [← ih, ← ogdenCurve_sum k hp p]
    ring

/-- A simulation of Ogden's model, on the deformation or on the distortional space, returns the
textbook curve: for every user's function `material(**kwargs)` which constructs such a material. -/
theorem C42_ogden (lapack : Eigh) (hl : EighValid lapack) (mu alpha : List ℝ) (ha : ∀ a ∈ alpha, a ≠ 0)
    (sim : Simulation Z) (k : LoadKind) (lab : Option String) (hk : sim.loadcase = k.case lab) (p : List ℝ)
    (hm : sim.material (Kwargs.ofList (sim.labels.zip p)) = .ok (ogdenDeformation lapack mu alpha) ∨
      sim.material (Kwargs.ofList (sim.labels.zip p)) = .ok (ogdenDistortional lapack mu alpha))
    (x : List ℝ) (hne : x ≠ []) (hx : ∀ l ∈ x, 0 < l) :
    sim.stressCurveFit x p = .ok (x.map fun l => ((mu.zip alpha).map fun q => ogdenCurve k q.1 q.2 l).sum) := by
  have hpt := fun (l : ℝ) (hp : 0 < l) (s : DefSt (StrSt Unit)) =>
    ogden_point (Z := Option Z) lapack hl mu alpha ha k hp none s
  rcases hm with hm | hm
  · refine curve_of_returns hk hm (ogdenDeformation_acts lapack mu alpha { material := { material := () } }) hne ?_
    rw [List.forall₂_map_right_iff, List.forall₂_same]
    intro l hl
    obtain ⟨P, h1, h2⟩ := hpt l (hx l hl) { material := { material := () } }
    exact ⟨P, none, h1, h2.symm⟩
  · refine curve_of_returns hk hm (ogdenDistortional_acts lapack mu alpha { material := { material := () } }) hne ?_
    rw [List.forall₂_map_right_iff, List.forall₂_same]
    intro l hl
    obtain ⟨P, h1, h2⟩ := hpt l (hx l hl) { material := { material := () } }
    obtain ⟨P', h1', h2'⟩ := (same_point k (hx l hl) _ none none _ { material := { material := () } } rfl _).1
      ⟨P, h1, h2.symm⟩
    exact ⟨P', none, h1', h2'⟩

/-- The hypotheses are met, by a simulation with a two-term model whose parameters are fitted. -/
example : ∃ (lapack : Eigh) (sim : Simulation Unit), EighValid lapack ∧ sim.loadcase = LoadKind.planar.case none ∧
    sim.material (Kwargs.ofList (sim.labels.zip [3, 4])) = .ok (ogdenDeformation lapack [3, 4] [2, -2]) := by
  obtain ⟨lapack, hl⟩ := exists_eigh
  refine ⟨lapack, ⟨LoadKind.planar.case none, [1, 2], ["a", "b"], fun kw =>
    .ok (ogdenDeformation lapack [(kw.get "a").getD 0, (kw.get "b").getD 0] [2, -2])⟩, hl, rfl, ?_⟩
  simp [Kwargs.ofList, Kwargs.set, Kwargs.get, List.lookup]

end Props
