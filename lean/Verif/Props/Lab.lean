import Verif.Proofs.Lab
import Verif.Props.Batch
import Verif.Props.Symmetry
import Verif.Props.Models
import Mathlib.Analysis.SpecialFunctions.Sqrt

/-! # Properties C40-C46, C49: load cases, simulations and experiments -/

namespace Props
open Spec Hel Matrix

variable {ι Z μ : Type}

/-! ## C40 -/

/-- The load cases return the documented deformation gradients at every data point. -/
theorem C40_documented (k : LoadKind) (lab : Option String) (n : ℕ) (x : Fin n → ℝ) (i : Fin n) :
    pt2 i ((k.case lab).defgrad n x) = k.F (x i) := defgrad_pt k lab x i

/-- Diagonal, positive, volume-preserving, with the given stretch on the first axis. -/
theorem C40_incompressible (k : LoadKind) (lab : Option String) (n : ℕ) (x : Fin n → ℝ) (i : Fin n)
    (hx : 0 < x i) (F : Ten2 ℝ) (hF : F = pt2 i ((k.case lab).defgrad n x)) :
    (∀ a b, a ≠ b → F a b = 0) ∧ (∀ a, 0 < F a a) ∧ F.det = 1 ∧ F 0 0 = x i := by
  rw [defgrad_pt] at hF
  subst hF
  have hs : 0 < √(x i) := Real.sqrt_pos.2 hx
  refine ⟨?_, ?_, ?_, ?_⟩
  · intro a b hab
    cases k <;> exact diagonal_apply_ne _ hab
  · intro a
    cases k <;> fin_cases a <;> simp [LoadKind.F] <;> positivity
  · cases k <;> simp only [LoadKind.F, det_diagonal, Fin.prod_univ_three, cons_val_zero, cons_val_one, cons_val_two,
      head_cons, tail_cons, cons_val]
    · field_simp
      exact (Real.sq_sqrt hx.le).symm
    · field_simp
    · field_simp
  · cases k <;> rfl

/-- The undeformed state at stretch one. -/
theorem C40_identity (k : LoadKind) : k.F 1 = 1 := by
  cases k <;> ext a b <;> fin_cases a <;> fin_cases b <;> simp [LoadKind.F]

/-- The kinematics of the three load cases: equal transverse stretches, a constrained second axis,
equal stretches on the first two axes. -/
theorem C40_kinematics (l : ℝ) : LoadKind.uniaxial.F l 1 1 = LoadKind.uniaxial.F l 2 2 ∧
    LoadKind.planar.F l 1 1 = 1 ∧ LoadKind.biaxial.F l 0 0 = LoadKind.biaxial.F l 1 1 := by
  refine ⟨?_, ?_, ?_⟩ <;> simp [LoadKind.F]

example : (LoadKind.biaxial.F 2) = diagonal ![2, 2, 1 / 4] := by
  simp only [LoadKind.F]; norm_num

/-! ## C41 -/

theorem inv_transpose_diagonal {d : Fin 3 → ℝ} (hd : ∀ a, d a ≠ 0) :
    ((diagonal d : Ten2 ℝ)⁻¹)ᵀ = diagonal fun a => (d a)⁻¹ := by
  rw [Matrix.inv_eq_right_inv (B := diagonal fun a => (d a)⁻¹)]
  · exact diagonal_transpose _
  · rw [diagonal_mul_diagonal]
    ext a b
    by_cases h : a = b
    · subst h; simp [hd]
    · simp [h]

theorem tensorAt_apply (i : ι) (F : Full2 (Arr ι)) (a b : Fin 3) : tensorAt i F a b = F a b i := rfl

/-- A pressure `p J F⁻ᵀ` (another one at every data point) does not change the lab stress, for any
choice of the axes. -/
theorem C41_pressure (d : ι → Fin 3 → ℝ) (hd : ∀ i a, d i a ≠ 0) (F P P' : Full2 (Arr ι)) (p : ι → ℝ)
    (hF : ∀ i, tensorAt i F = diagonal (d i))
    (hP : ∀ i, tensorAt i P' = tensorAt i P + (p i * (tensorAt i F).det) • ((tensorAt i F)⁻¹)ᵀ) (axis traction_free : Int) :
    loadStress F P' axis traction_free = loadStress F P axis traction_free := by
  unfold loadStress
  rcases pyIndex3 axis with e | a
  · rfl
  rcases pyIndex3 traction_free with e | b
  · rfl
  change Except.ok _ = Except.ok _
  congr 1
  funext i
  have h := hP i
  rw [hF, inv_transpose_diagonal (hd i)] at h
  have h1 : ∀ c, P' c c i = P c c i + p i * (diagonal (d i) : Ten2 ℝ).det * (d i c)⁻¹ := by
    intro c
    have := congrFun (congrFun h c) c
    simpa [tensorAt_apply] using this
  have h2 : ∀ c, F c c i = d i c := by
    intro c
    have := congrFun (congrFun (hF i) c) c
    simpa [tensorAt_apply] using this
  simp only [Pi.sub_apply, Pi.mul_apply, Pi.div_apply, h1, h2]
  have := hd i a
  have := hd i b
  field_simp
  ring

/-- The lab stress is the stress on the loaded axis after adding the pressure which makes the
transverse axis traction-free; there is such a pressure. -/
theorem C41_traction_free (d : Fin 3 → ℝ) (hd : ∀ a, d a ≠ 0) (F P : Full2 (Arr ι)) (i : ι)
    (hF : tensorAt i F = diagonal d) (axis traction_free : Int) (a b : Fin 3)
    (ha : pyIndex3 axis = .ok a) (hb : pyIndex3 traction_free = .ok b) :
    ∃ y, loadStress F P axis traction_free = .ok y ∧
      (∃ q : ℝ, (tensorAt i P + q • ((tensorAt i F)⁻¹)ᵀ) b b = 0) ∧
      ∀ q : ℝ, (tensorAt i P + q • ((tensorAt i F)⁻¹)ᵀ) b b = 0 →
        y i = (tensorAt i P + q • ((tensorAt i F)⁻¹)ᵀ) a a := by
  have h2 : ∀ c, F c c i = d c := by
    intro c
    have := congrFun (congrFun hF c) c
    simpa [tensorAt_apply] using this
  rw [hF, inv_transpose_diagonal hd]
  have ha' := hd a
  have hb' := hd b
  refine ⟨_, by unfold loadStress; rw [ha, hb]; rfl, ⟨-(P b b i) * d b, ?_⟩, fun q hq => ?_⟩
  · simp [tensorAt_apply, hb']
  · simp only [Matrix.add_apply, Matrix.smul_apply, diagonal_apply_eq, smul_eq_mul, tensorAt_apply] at hq ⊢
    simp only [Pi.sub_apply, Pi.mul_apply, Pi.div_apply, h2]
    have h3 : P b b i = -(q * (d b)⁻¹) := by linarith
    rw [h3]
    field_simp
    ring

/-- The axes: the default is the first one loaded and the last one free. -/
theorem C41_axes : pyIndex3 0 = .ok 0 ∧ pyIndex3 (-1) = .ok 2 ∧
    ∀ i : Int, (∃ a, pyIndex3 i = .ok a) ↔ -3 ≤ i ∧ i < 3 := by
  refine ⟨rfl, rfl, fun i => ⟨?_, ?_⟩⟩
  · rintro ⟨a, h⟩
    unfold pyIndex3 at h
    split_ifs at h <;> omega
  · rintro ⟨h1, h2⟩
    unfold pyIndex3
    split_ifs with h3 h4 h5
    · exact ⟨_, rfl⟩
    · exact ⟨_, rfl⟩
    · exact ⟨_, rfl⟩
    · omega

/-- Which entry an axis means: `i` and `i - 3` are the same axis. -/
theorem C41_negative_axes (a : Fin 3) : pyIndex3 (a : Int) = .ok a ∧ pyIndex3 ((a : Int) - 3) = .ok a := by
  fin_cases a <;> exact ⟨rfl, rfl⟩

/-- The defaults `axis=0, traction_free=-1`: without further arguments the reported stress is the one
on the first axis, with the pressure which makes the last axis traction-free. -/
theorem C41_default (d : Fin 3 → ℝ) (hd : ∀ a, d a ≠ 0) (F P : Full2 (Arr ι)) (i : ι)
    (hF : tensorAt i F = diagonal d) :
    ∃ y, loadStress F P = .ok y ∧ ∃ q : ℝ, (tensorAt i P + q • ((tensorAt i F)⁻¹)ᵀ) 2 2 = 0 ∧
      y i = (tensorAt i P + q • ((tensorAt i F)⁻¹)ᵀ) 0 0 := by
  obtain ⟨y, h1, ⟨q, h2⟩, h3⟩ := C41_traction_free d hd F P i hF 0 (-1) 0 2 rfl rfl
  exact ⟨y, h1, q, h2, h3 q h2⟩

/-! ## C44 -/

theorem loadF_det (k : LoadKind) {l : ℝ} (hl : 0 < l) : (k.F l).det = 1 :=
  (C40_incompressible k none 1 (fun _ => l) 0 hl _ (defgrad_pt k none (fun _ => l) (0 : Fin 1)).symm).2.2.1

theorem unimodular_of_det {C : Ten2 ℝ} (h : C.det = 1) : unimodular C = C := by
  rw [unimodular, h, Real.one_rpow, one_smul]

theorem det_cauchyGreen_load (k : LoadKind) {l : ℝ} (hl : 0 < l) : (cauchyGreen (k.F l)).det = 1 := by
  rw [det_cauchyGreen, loadF_det k hl, one_pow]

theorem loadF_diagonal (k : LoadKind) {l : ℝ} (hl : 0 < l) :
    ∃ d : Fin 3 → ℝ, k.F l = diagonal d ∧ ∀ a, 0 < d a := by
  have h := C40_incompressible k none 1 (fun _ => l) 0 hl _ (defgrad_pt k none (fun _ => l) (0 : Fin 1)).symm
  refine ⟨fun a => k.F l a a, ?_, h.2.1⟩
  ext a b
  by_cases hab : a = b
  · subst hab; simp
  · rw [diagonal_apply_ne _ hab]; exact h.1 a b hab

theorem normalForce_pressure (k : LoadKind) {l : ℝ} (hl : 0 < l) (P : Ten2 ℝ) (q : ℝ) :
    normalForce (k.F l) (P + q • ((k.F l)⁻¹)ᵀ) = normalForce (k.F l) P := by
  obtain ⟨d, hd, hp⟩ := loadF_diagonal k hl
  rw [hd, inv_transpose_diagonal fun a => (hp a).ne']
  have h0 := (hp 0).ne'
  have h2 := (hp 2).ne'
  simp only [normalForce, Matrix.add_apply, Matrix.smul_apply, diagonal_apply_eq, smul_eq_mul]
  field_simp
  ring

/-- At one stretch: the two spaces with the same material give the same lab stress. -/
theorem same_point (k : LoadKind) {l : ℝ} (hl : 0 < l) (mat : Material ℝ Z μ) (z z' : Z) (s1 : DefSt μ) (s2 : DistSt μ)
    (hs : s1.material = s2.material) (f : ℝ) :
    (∃ P, Returns ((Deformation.obj {} mat).gradient (k.F l) z) s1 (.full P, z') ∧ f = normalForce (k.F l) P) ↔
    ∃ P, Returns ((Distortional.obj {} mat).gradient (k.F l) z) s2 (.full P, z') ∧ f = normalForce (k.F l) P := by
  have hd : (k.F l).det ≠ 0 := by rw [loadF_det k hl]; exact one_ne_zero
  have ea : arg .distortional (k.F l) = arg .deformation (k.F l) := by
    apply T2_injective
    change T2 (Distortional.cu (k.F l)) = T2 (rightCauchyGreen (k.F l))
    rw [Distortional.T2_cu, T2_rcg, unimodular_of_det (det_cauchyGreen_load k hl)]
  have eP : ∀ g, ∃ q : ℝ, k.F l * T2 (stressOf .distortional (k.F l) g) =
      k.F l * T2 (stressOf .deformation (k.F l) g) + q • ((k.F l)⁻¹)ᵀ := by
    intro g
    have e1 : T2 (stressOf .distortional (k.F l) g) = distS (cauchyGreen (k.F l)) (T2 g) := Distortional.T2_st hd g
    have e2 : T2 (stressOf .deformation (k.F l) g) = (2 : ℝ) • T2 g := T2_smul 2 g
    have e3 : k.F l * (cauchyGreen (k.F l))⁻¹ = ((k.F l)⁻¹)ᵀ := by
      rw [cauchyGreen, Matrix.mul_inv_rev, ← Matrix.mul_assoc,
        Matrix.mul_nonsing_inv _ (isUnit_iff_ne_zero.2 hd), Matrix.one_mul, Matrix.transpose_nonsing_inv]
    rw [e1, e2, distS, det_cauchyGreen_load k hl, Real.one_rpow, mul_one, Matrix.mul_sub, Matrix.mul_smul (k.F l) _ (cauchyGreen _)⁻¹,
      e3, sub_eq_add_neg, ← neg_smul]
    exact ⟨_, rfl⟩
  have h1 := fun σ => Space.returns_gradient .deformation {} mat (k.F l) z s1 σ z'
  have h2 := fun σ => Space.returns_gradient .distortional {} mat (k.F l) z s2 σ z'
  have hi : Space.inner .deformation s1 = Space.inner .distortional s2 := hs
  constructor
  · rintro ⟨P, hP, rfl⟩
    obtain ⟨g, hg, he⟩ := (h1 _).1 hP
    rw [piolaStress_default] at he
    obtain rfl := Stress.full.inj he
    obtain ⟨q, hq⟩ := eP g
    refine ⟨_, (h2 _).2 ⟨g, by rw [ea, ← hi]; exact hg, (piolaStress_default ..).symm⟩, ?_⟩
    rw [hq, normalForce_pressure k hl]
  · rintro ⟨P, hP, rfl⟩
    obtain ⟨g, hg, he⟩ := (h2 _).1 hP
    rw [piolaStress_default] at he
    obtain rfl := Stress.full.inj he
    obtain ⟨q, hq⟩ := eP g
    refine ⟨_, (h1 _).2 ⟨g, by rw [← ea, hi]; exact hg, (piolaStress_default ..).symm⟩, ?_⟩
    rw [hq, normalForce_pressure k hl]

theorem forall₂_congr_pos {R S : ℝ → ℝ → Prop} (h : ∀ l f, 0 < l → (R l f ↔ S l f)) {x y : List ℝ}
    (hpos : ∀ l ∈ x, 0 < l) : List.Forall₂ R x y ↔ List.Forall₂ S x y := by
  induction x generalizing y with
  | nil => cases y <;> simp
  | cons l x ih =>
    cases y with
    | nil => simp
    | cons f y =>
      rw [List.forall₂_cons, List.forall₂_cons, h l f (hpos l (by simp)), ih fun l h => hpos l (by simp [h])]

/-- Two simulations of the same load case, one with a material on the deformation space, one with
the same material on the distortional space: the one returns a curve iff the other returns it. -/
theorem C44_same_curve (sim1 sim2 : Simulation Z) (k : LoadKind) (lab1 lab2 : Option String)
    (hk1 : sim1.loadcase = k.case lab1) (hk2 : sim2.loadcase = k.case lab2) (p1 p2 : List ℝ)
    (B1 B2 : MatObj (Option Z)) (hB1 : sim1.material (Kwargs.ofList (sim1.labels.zip p1)) = .ok B1)
    (hB2 : sim2.material (Kwargs.ofList (sim2.labels.zip p2)) = .ok B2)
    (mat : Material ℝ (Option Z) μ) (s1 : DefSt μ) (s2 : DistSt μ) (hs : s1.material = s2.material)
    (hA1 : MatObj.ActsAs B1 (Deformation.obj {} mat) s1) (hA2 : MatObj.ActsAs B2 (Distortional.obj {} mat) s2)
    (x y : List ℝ) (hx : x ≠ []) (hpos : ∀ l ∈ x, 0 < l) :
    sim1.stressCurveFit x p1 = .ok y ↔ sim2.stressCurveFit x p2 = .ok y := by
  have key : List.Forall₂ (fun l f => ∃ P z', Returns ((Deformation.obj {} mat).gradient (k.F l) none) s1 (.full P, z') ∧
      f = normalForce (k.F l) P) x y ↔
      List.Forall₂ (fun l f => ∃ P z', Returns ((Distortional.obj {} mat).gradient (k.F l) none) s2 (.full P, z') ∧
      f = normalForce (k.F l) P) x y := by
    have hpt : ∀ l f, 0 < l → ((∃ P z', Returns ((Deformation.obj {} mat).gradient (k.F l) none) s1 (.full P, z') ∧
      f = normalForce (k.F l) P) ↔ ∃ P z', Returns ((Distortional.obj {} mat).gradient (k.F l) none) s2 (.full P, z') ∧
      f = normalForce (k.F l) P) := by
      intro l f hl
      rw [exists_comm, exists_comm (α := Full2 ℝ)]
      exact exists_congr fun z' => same_point k hl mat none z' s1 s2 hs f
    exact forall₂_congr_pos hpt hpos
  constructor
  · intro h
    exact curve_of_returns hk2 hB2 hA2 hx (key.1 (curve_returns hk1 hB1 hA1 h))
  · intro h
    exact curve_of_returns hk1 hB1 hA1 hx (key.2 (curve_returns hk2 hB2 hA2 h))

/-! ## C43, C45 -/

/-- Exchange of two axes. -/
def swapQ (a b : Fin 3) : Ten2 ℝ := fun i j => if Equiv.swap a b i = j then 1 else 0

/-- An isotropic material responds alike on two axes with the same stretch. -/
theorem equal_axes (w : Space) (mat : Material ℝ Z μ) (z z' : Z) (hi : Material.Isotropic mat z) (s : w.St μ)
    {d : Fin 3 → ℝ} (hd : ∀ a, 0 < d a) {P : Ten2 ℝ} {a b : Fin 3} (hab : d a = d b)
    (h : Returns ((w.obj {} mat).gradient (diagonal d : Ten2 ℝ) z) s (.full P, z')) : P a a = P b b := by
  have hdet : (diagonal d : Ten2 ℝ).det ≠ 0 := by
    rw [det_diagonal]; exact (Finset.prod_pos fun a _ => hd a).ne'
  have hQ : Orthogonal (swapQ a b) := by
    rw [Orthogonal]
    ext i j
    simp only [Matrix.mul_apply, Matrix.transpose_apply, swapQ]
    fin_cases a <;> fin_cases b <;> fin_cases i <;> fin_cases j <;> simp [Fin.sum_univ_three, Equiv.swap_apply_def]
  have h1 := C32_gradient w mat z z' s hQ (C36_gradient w mat z z' s hi hdet hQ.transpose h)
  have e : swapQ a b * (diagonal d * (swapQ a b)ᵀ) = (diagonal d : Ten2 ℝ) := by
    have hs : ∀ i, d (Equiv.swap a b i) = d i := by
      intro i
      rcases eq_or_ne i a with rfl | h1
      · rw [Equiv.swap_apply_left, hab]
      · rcases eq_or_ne i b with rfl | h2
        · rw [Equiv.swap_apply_right, hab]
        · rw [Equiv.swap_apply_of_ne_of_ne h1 h2]
    have hc : swapQ a b * diagonal d = diagonal d * swapQ a b := by
      ext i j
      rw [Matrix.mul_diagonal, Matrix.diagonal_mul]
      simp only [swapQ]
      split_ifs with hh
      · rw [← hh, hs]; ring
      · ring
    rw [← Matrix.mul_assoc, hc, Matrix.mul_assoc, hQ.mul_transpose, Matrix.mul_one]
  rw [e] at h1
  have h2 : P = swapQ a b * (P * (swapQ a b)ᵀ) := by
    have := (Eq.symm h).trans h1
    exact Stress.full.inj (Prod.mk.inj (Except.ok.inj this)).1
  have h3 := congrFun (congrFun h2 a) a
  rw [h3]
  have hq : ∀ i j, swapQ a b i j = if Equiv.swap a b i = j then 1 else 0 := by
    intro i j
    rfl
  simp [Matrix.mul_apply, Matrix.transpose_apply, hq]

theorem forall₂_imp_pos {R S : ℝ → ℝ → Prop} (h : ∀ l f, 0 < l → R l f → S l f) {x y : List ℝ}
    (hpos : ∀ l ∈ x, 0 < l) (hR : List.Forall₂ R x y) : List.Forall₂ S x y := by
  induction hR with
  | nil => exact List.Forall₂.nil
  | cons h1 h2 ih => exact List.Forall₂.cons (h _ _ (hpos _ (by simp)) h1) (ih fun l hl => hpos l (by simp [hl]))

/-- Every isotropic material in every space has zero lab stress at stretch one, in every load
case, wherever the stretch one occurs in the data. -/
theorem C45_zero (sim : Simulation Z) (k : LoadKind) (lab : Option String) (hk : sim.loadcase = k.case lab)
    (p : List ℝ) (B : MatObj (Option Z)) (hB : sim.material (Kwargs.ofList (sim.labels.zip p)) = .ok B)
    (w : Space) (mat : Material ℝ (Option Z) μ) (hi : Material.Isotropic mat none) (s : w.St μ)
    (hA : MatObj.ActsAs B (w.obj {} mat) s) (x y : List ℝ) (h : sim.stressCurveFit x p = .ok y) :
    List.Forall₂ (fun l f => l = 1 → f = 0) x y := by
  refine (curve_returns hk hB hA h).imp ?_
  rintro l f ⟨P, z', hP, rfl⟩ rfl
  rw [C40_identity, ← diagonal_one] at hP ⊢
  have := equal_axes w mat none z' hi s (d := fun _ => 1) (fun _ => one_pos) (a := 0) (b := 2) rfl hP
  simp [normalForce, this]

theorem moves_load (k : LoadKind) {l : ℝ} (hl : 0 < l) : Moves k.F (diagonal (match k with
    | .uniaxial => ![1, -(1 / (2 * √l)) / √l ^ 2, -(1 / (2 * √l)) / √l ^ 2]
    | .planar => ![1, 0, -1 / l ^ 2]
    | .biaxial => ![1, 1, -(2 * l) / (l ^ 2) ^ 2])) l := by
  have h1 : HasDerivAt (fun t : ℝ => 1 / √t) (-(1 / (2 * √l)) / √l ^ 2) l := by
    have := (Real.hasDerivAt_sqrt hl.ne').fun_inv (Real.sqrt_pos.2 hl).ne'
    simpa only [one_div] using this
  have h2 : HasDerivAt (fun t : ℝ => 1 / t) (-1 / l ^ 2) l := by
    have := (hasDerivAt_id' l).fun_inv hl.ne'
    simpa only [one_div] using this
  have h3 : HasDerivAt (fun t : ℝ => 1 / t ^ 2) (-(2 * l) / (l ^ 2) ^ 2) l := by
    have := ((hasDerivAt_id' l).fun_pow 2).fun_inv (pow_ne_zero 2 hl.ne')
    simpa using this
  intro a b
  by_cases hab : a = b
  · subst hab
    cases k <;> fin_cases a
    · simpa [LoadKind.F] using hasDerivAt_id' l
    · simpa [LoadKind.F] using h1
    · simpa [LoadKind.F] using h1
    · simpa [LoadKind.F] using hasDerivAt_id' l
    · simpa [LoadKind.F] using hasDerivAt_const l (1 : ℝ)
    · simpa [LoadKind.F] using h2
    · simpa [LoadKind.F] using hasDerivAt_id' l
    · simpa [LoadKind.F] using hasDerivAt_id' l
    · simpa [LoadKind.F] using h3
  · rw [diagonal_apply_ne _ hab]
    refine (hasDerivAt_const l (0 : ℝ)).congr_of_eventuallyEq (Filter.Eventually.of_forall fun t => ?_)
    cases k <;> exact diagonal_apply_ne _ hab

/-- The lab stress at one stretch, deformation space. -/
theorem work_point (k : LoadKind) {l : ℝ} (hl : 0 < l) (mat : Material ℝ Z μ) (z z' : Z) (hi : Material.Isotropic mat z)
    (Ψ : Ten2 ℝ → ℝ) (hΨ : IsGradient PosDef Ψ (Material.Grad mat z)) (s : DefSt μ) (P : Ten2 ℝ)
    (hP : Returns ((Deformation.obj {} mat).gradient (k.F l) z) s (.full P, z')) :
    HasDerivAt (fun t => Ψ (cauchyGreen (k.F t))) (k.axes * normalForce (k.F l) P) l := by
  have h := C25_gradient mat z _ _ hΨ k.F _ l P ?_ (moves_load k hl) ⟨s, z', hP⟩
  · refine h.congr_deriv ?_
    obtain ⟨d, hd, hp⟩ := loadF_diagonal k hl
    have hP' := hP
    rw [hd] at hP'
    have heq : ∀ a b, d a = d b → P a a = P b b := fun a b hab =>
      equal_axes .deformation mat z z' hi s hp hab hP'
    have hs : 0 < √l := Real.sqrt_pos.2 hl
    have hdd : ∀ a, d a = k.F l a a := fun a => by rw [hd, diagonal_apply_eq]
    cases k
    · have e : P 1 1 = P 2 2 := heq 1 2 (by rw [hdd, hdd]; simp [LoadKind.F])
      simp [contract22, Fin.sum_univ_three, diagonal_apply, normalForce, LoadKind.F, LoadKind.axes, e]
      have h3 : √l ^ 3 = l * √l := by rw [pow_succ, Real.sq_sqrt hl.le]
      field_simp
      rw [Real.sq_sqrt hl.le]
      ring_nf
      rw [h3]
      ring
    · simp [contract22, Fin.sum_univ_three, diagonal_apply, normalForce, LoadKind.F, LoadKind.axes]
      field_simp
      ring
    · have e : P 1 1 = P 0 0 := heq 1 0 (by rw [hdd, hdd]; simp [LoadKind.F])
      simp [contract22, Fin.sum_univ_three, diagonal_apply, normalForce, LoadKind.F, LoadKind.axes, e]
      field_simp
      ring
  · filter_upwards [lt_mem_nhds hl] with t ht
    exact posDef_cauchyGreen (by rw [loadF_det k ht]; exact one_ne_zero)

/-- For every isotropic material with the energy `Ψ`, on the deformation or the distortional
space: the lab stress is the derivative of the energy along the load case by the stretch, per
stretched axis. -/
theorem C43_work (sim : Simulation Z) (k : LoadKind) (lab : Option String) (hk : sim.loadcase = k.case lab)
    (p : List ℝ) (B : MatObj (Option Z)) (hB : sim.material (Kwargs.ofList (sim.labels.zip p)) = .ok B)
    (w : Space) (hw : w = .deformation ∨ w = .distortional) (mat : Material ℝ (Option Z) μ)
    (hi : Material.Isotropic mat none) (Ψ : Ten2 ℝ → ℝ) (hΨ : IsGradient PosDef Ψ (Material.Grad mat none))
    (s : w.St μ) (hA : MatObj.ActsAs B (w.obj {} mat) s) (x y : List ℝ) (hx : ∀ l ∈ x, 0 < l)
    (h : sim.stressCurveFit x p = .ok y) :
    List.Forall₂ (fun l f => HasDerivAt (fun t => Ψ (cauchyGreen (k.F t))) (k.axes * f) l) x y := by
  refine forall₂_imp_pos ?_ hx (curve_returns hk hB hA h)
  rintro l f hl ⟨P, z', hP, hf⟩
  rcases hw with rfl | rfl
  · subst hf
    exact work_point k hl mat none z' hi Ψ hΨ s P hP
  · obtain ⟨P', hP', rfl⟩ := (same_point k hl mat none z' { material := DistSt.material s } s rfl f).2 ⟨P, hP, hf⟩
    exact work_point k hl mat none z' hi Ψ hΨ _ P' hP'

/-! ## C46 -/

theorem Kwargs.get_set (d : Kwargs) (k k' : String) (v : ℝ) :
    (d.set k v).get k' = if k' = k then some v else d.get k' := by
  induction d with
  | nil =>
    by_cases h : k' = k
    · subst h; simp [Kwargs.set, Kwargs.get, List.lookup_cons]
    · simp [Kwargs.set, Kwargs.get, List.lookup_cons, h, beq_eq_false_iff_ne.2 h]
  | cons e d ih =>
    obtain ⟨k1, v1⟩ := e
    simp only [Kwargs.get] at ih
    simp only [Kwargs.set]
    split_ifs with h1 h2 h2
    · subst h1 h2; simp [Kwargs.get, List.lookup_cons]
    · subst h1
      simp [Kwargs.get, List.lookup_cons, beq_eq_false_iff_ne.2 h2]
    · subst h2
      simp only [Kwargs.get, List.lookup_cons, beq_eq_false_iff_ne.2 (Ne.symm h1), ih, if_true]
    · simp only [Kwargs.get, List.lookup_cons, ih, h2, if_false]

theorem Kwargs.keys_set (d : Kwargs) (k : String) (v : ℝ) :
    (d.set k v).map (·.1) = if k ∈ d.map (·.1) then d.map (·.1) else d.map (·.1) ++ [k] := by
  induction d with
  | nil => simp [Kwargs.set]
  | cons e d ih =>
    obtain ⟨k1, v1⟩ := e
    simp only [Kwargs.set]
    by_cases h1 : k1 = k
    · subst h1; simp
    · simp only [h1, if_false, List.map_cons, ih, List.mem_cons, Ne.symm h1, false_or]
      split_ifs <;> simp

theorem assigned_append (l : List (String × ℝ)) (e : String × ℝ) (k : String) :
    assigned (l ++ [e]) k = if k = e.1 then some e.2 else assigned l k := by
  unfold assigned
  rw [List.reverse_append]
  by_cases h : k = e.1
  · simp [h]
  · simp [h, Ne.symm h]

theorem Kwargs.get_ofList (l : List (String × ℝ)) (k : String) : (Kwargs.ofList l).get k = assigned l k := by
  induction l using List.reverseRecOn with
  | nil => rfl
  | append_singleton l e ih =>
    rw [assigned_append, ← ih, ← Kwargs.get_set]
    simp [Kwargs.ofList, List.foldl_append]

theorem Kwargs.keys_ofList (l : List (String × ℝ)) :
    ((Kwargs.ofList l).map (·.1)).Nodup ∧ ∀ k, k ∈ (Kwargs.ofList l).map (·.1) ↔ k ∈ l.map (·.1) := by
  induction l using List.reverseRecOn with
  | nil => simp [Kwargs.ofList]
  | append_singleton l e ih =>
    have e1 : Kwargs.ofList (l ++ [e]) = (Kwargs.ofList l).set e.1 e.2 := by
      simp [Kwargs.ofList, List.foldl_append]
    rw [e1, Kwargs.keys_set]
    split_ifs with h
    · refine ⟨ih.1, fun k => ?_⟩
      rw [ih.2, List.map_append, List.mem_append]
      constructor
      · exact Or.inl
      · rintro (h1 | h1)
        · exact h1
        · simp only [List.map_cons, List.map_nil, List.mem_singleton] at h1
          rw [h1]; exact (ih.2 _).1 h
    · refine ⟨?_, fun k => ?_⟩
      · rw [List.nodup_append]
        refine ⟨ih.1, by simp, ?_⟩
        rintro a ha b hb rfl
        simp only [List.mem_singleton] at hb
        exact h (hb ▸ ha)
      · simp [ih.2]

/-- The factory is called with one dict of keyword arguments: every name has the value last
paired with it, names which are not paired with a value are absent, no name occurs twice. -/
theorem C46_kwargs (sim : Simulation Z) (x p : List ℝ) : ∃ kw : Kwargs,
    (∀ name, kw.get name = assigned (sim.labels.zip p) name) ∧ (kw.map (·.1)).Nodup ∧
    (∀ name, name ∈ kw.map (·.1) ↔ name ∈ (sim.labels.zip p).map (·.1)) ∧
    (∀ e, sim.material kw = .error e → sim.stressCurveFit x p = .error e) ∧
    ∀ m : Factory (Option Z), m kw = sim.material kw →
      { sim with material := m }.stressCurveFit x p = sim.stressCurveFit x p := by
  refine ⟨Kwargs.ofList (sim.labels.zip p), Kwargs.get_ofList _, (Kwargs.keys_ofList _).1, (Kwargs.keys_ofList _).2,
    fun e he => ?_, fun m hm => ?_⟩
  · rw [stressCurveFit_eq, he]
  · rw [stressCurveFit_eq, stressCurveFit_eq]
    simp only [hm]

theorem assigned_zip {labels : List String} (hn : labels.Nodup) {p : List ℝ} :
    (∀ i (h1 : i < labels.length) (h2 : i < p.length), assigned (labels.zip p) labels[i] = some p[i]) ∧
    ∀ name, name ∉ labels.take p.length → assigned (labels.zip p) name = none := by
  have hm : ∀ e ∈ labels.zip p, ∀ e' ∈ labels.zip p, e.1 = e'.1 → e = e' := by
    intro e he e' he' h
    obtain ⟨i, hi, rfl⟩ := List.getElem_of_mem he
    obtain ⟨j, hj, rfl⟩ := List.getElem_of_mem he'
    simp only [List.getElem_zip] at h ⊢
    have : i = j := (List.Nodup.getElem_inj_iff hn).1 h
    subst this; rfl
  refine ⟨fun i h1 h2 => ?_, fun name h => ?_⟩
  · have hz : i < (labels.zip p).length := by simp; omega
    have hmem : (labels[i], p[i]) ∈ labels.zip p := by
      have := List.getElem_mem hz
      rwa [List.getElem_zip] at this
    unfold assigned
    rcases hf : (labels.zip p).reverse.find? (fun e => decide (e.1 = labels[i])) with _ | e
    · have := List.find?_eq_none.1 hf (labels[i], p[i]) (by simpa using hmem)
      simp at this
    · have h3 := List.find?_some hf
      have h4 := List.mem_of_find?_eq_some hf
      have := hm e (by simpa using h4) _ hmem (by simpa using h3)
      rw [this] at hf
      exact congrArg (Option.map (·.2)) hf
  · unfold assigned
    rw [Option.map_eq_none_iff, List.find?_eq_none]
    intro e he
    simp only [List.mem_reverse] at he
    simp only [decide_eq_true_eq]
    rintro rfl
    apply h
    obtain ⟨i, hi, rfl⟩ := List.getElem_of_mem he
    rw [List.getElem_zip]
    have : i < (labels.take p.length).length := by simpa [min_comm] using hi
    have h5 := List.getElem_mem this
    rwa [List.getElem_take] at h5

/-- With distinct labels the `i`-th parameter goes to the `i`-th label; labels without a parameter
are not passed. -/
theorem C46_labels (sim : Simulation Z) (hn : sim.labels.Nodup) (x p : List ℝ) : ∃ kw : Kwargs,
    (∀ i (h1 : i < sim.labels.length) (h2 : i < p.length), kw.get sim.labels[i] = some p[i]) ∧
    (∀ name, name ∉ sim.labels.take p.length → kw.get name = none) ∧
    (∀ e, sim.material kw = .error e → sim.stressCurveFit x p = .error e) ∧
    ∀ m : Factory (Option Z), m kw = sim.material kw →
      { sim with material := m }.stressCurveFit x p = sim.stressCurveFit x p := by
  obtain ⟨kw, h1, -, -, h2, h3⟩ := C46_kwargs sim x p
  refine ⟨kw, fun i a b => ?_, fun name hname => ?_, h2, h3⟩
  · rw [h1, (assigned_zip hn).1 i a b]
  · rw [h1, (assigned_zip hn).2 name hname]

theorem zip_take {α β : Type} (l : List α) (p : List β) : l.zip (p.take l.length) = l.zip p := by
  induction l generalizing p with
  | nil => simp
  | cons a l ih => cases p <;> simp [ih]

theorem take_zip {α β : Type} (l : List α) (p : List β) : (l.take p.length).zip p = l.zip p := by
  induction p generalizing l with
  | nil => simp
  | cons a p ih => cases l <;> simp [ih]

/-- Surplus labels and surplus parameters have no influence. -/
theorem C46_surplus (sim : Simulation Z) (x p : List ℝ) :
    sim.stressCurveFit x p = sim.stressCurveFit x (p.take sim.labels.length) ∧
    sim.stressCurveFit x p = { sim with labels := sim.labels.take p.length }.stressCurveFit x p := by
  constructor
  · rw [stressCurveFit_eq, stressCurveFit_eq]
    have : sim.labels.zip (p.take sim.labels.length) = sim.labels.zip p := by
      exact zip_take _ _
    rw [this]
  · rw [stressCurveFit_eq, stressCurveFit_eq]
    have : (sim.labels.take p.length).zip p = sim.labels.zip p := by
      exact take_zip _ _
    rw [this]

/-- The stored parameters: those given to the constructor, or a one for every label; `stress()`
evaluates the stored stretches with them. -/
theorem C46_stored (sim : Simulation Z) (p : List ℝ) :
    sim.initParameters (some p) = p ∧ (sim.initParameters none).length = sim.labels.length ∧
    (∀ a ∈ sim.initParameters none, a = 1) ∧ sim.stress p = sim.stressCurveFit sim.stretch p := by
  refine ⟨rfl, by simp [Simulation.initParameters], fun a ha => ?_, rfl⟩
  simpa [Simulation.initParameters] using (List.mem_replicate.1 ha).2

example : ["C10", "C01"].Nodup ∧
    (Kwargs.ofList (["C10", "C01"].zip [(2 : ℝ), 3, 4])).get "C01" = some 3 := by
  refine ⟨by decide, ?_⟩
  simp [Kwargs.ofList, Kwargs.set, Kwargs.get, List.lookup]

/-! ## C49 -/

/-- The stretches and stresses of an experiment, point by point and in order. -/
theorem C49_values (label : String) (d f : List ℝ) (area length : ℝ) (e : Experiment)
    (he : e = Experiment.init label d f area length) :
    e.stretch.length = d.length ∧ e.stress.length = f.length ∧
    (∀ i (h : i < d.length) (h' : i < e.stretch.length), e.stretch[i] = 1 + d[i] / length) ∧
    ∀ i (h : i < f.length) (h' : i < e.stress.length), e.stress[i] = f[i] / area := by
  subst he
  refine ⟨?_, ?_, ?_, ?_⟩ <;> simp [Experiment.init, Experiment.stress]

/-- Displacement and force can be recovered. -/
theorem C49_recover (label : String) (d f : List ℝ) (area length : ℝ) (ha : area ≠ 0) (hl : length ≠ 0)
    (e : Experiment) (he : e = Experiment.init label d f area length) :
    e.stretch.map (fun l => (l - 1) * length) = d ∧ e.stress.map (fun s => s * area) = f := by
  subst he
  constructor
  · rw [Experiment.init, List.map_map]
    conv_rhs => rw [← List.map_id d]
    refine List.map_congr_left fun a _ => ?_
    simp only [Function.comp, id]
    field_simp
    ring
  · rw [Experiment.stress, List.map_map]
    conv_rhs => rw [← List.map_id f]
    refine List.map_congr_left fun a _ => ?_
    simp only [Function.comp, id, Experiment.init]
    field_simp

/-- The default reference area and length are one. -/
theorem C49_default (label : String) (d f : List ℝ) :
    (Experiment.init label d f).stretch = d.map (1 + ·) ∧ (Experiment.init label d f).stress = f := by
  constructor
  · simp [Experiment.init]
  · simp [Experiment.init, Experiment.stress]

example : (Experiment.init "" [0, 50, 200] [0, 25, 75] 25 100).stretch = [1, 3 / 2, 3] := by
  simp [Experiment.init]; norm_num

end Props
