import Verif.Spec.Lab
import Verif.Proofs.Batch

/-! Evaluation of the load cases and of simulations point by point. -/

namespace Props
open Spec Hel Matrix

variable {Z σ : Type}

theorem defgrad_pt (k : LoadKind) (lab : Option String) {n : ℕ} (x : Fin n → ℝ) (i : Fin n) :
    pt2 i ((k.case lab).defgrad n x) = k.F (x i) := by
  funext a b
  cases k <;> fin_cases a <;> fin_cases b <;> rfl

theorem loadStress_eq {ι : Type} (F P : Full2 (Arr ι)) :
    loadStress F P = .ok fun i => normalForce (pt2 i F) (pt2 i P) := rfl

theorem stressCurveFit_eq (sim : Simulation Z) (x p : List ℝ) : sim.stressCurveFit x p =
    match sim.material (Kwargs.ofList (sim.labels.zip p)) with
    | .error e => .error e
    | .ok B => match B.gradient x.length (sim.loadcase.defgrad x.length x.get) none with
      | .error e => .error e
      | .ok (.full P, _) => .ok (List.ofFn fun i => normalForce
          (pt2 i (sim.loadcase.defgrad x.length x.get)) (pt2 i P))
      | .ok (.voigt _, _) => if x = [] then .ok [] else .error .valueError := by
  unfold Simulation.stressCurveFit
  dsimp only
  rcases sim.material (Kwargs.ofList (sim.labels.zip p)) with e | B
  · rfl
  · change Bind.bind (B.gradient _ _ _) _ = _
    simp only
    rcases B.gradient x.length (sim.loadcase.defgrad x.length x.get) none with e | ⟨P | P, z⟩
    · rfl
    · rfl
    · rfl

/-- What a simulation returns, point by point. -/
theorem curve_returns {sim : Simulation Z} {k : LoadKind} {lab : Option String} (hk : sim.loadcase = k.case lab)
    {p : List ℝ} {B : MatObj (Option Z)} (hB : sim.material (Kwargs.ofList (sim.labels.zip p)) = .ok B)
    {A : SpaceObj (Option Z) σ} {s : σ} (hA : MatObj.ActsAs B A s) {x y : List ℝ}
    (h : sim.stressCurveFit x p = .ok y) :
    List.Forall₂ (fun l f => ∃ P z', Returns (A.gradient (k.F l) none) s (.full P, z') ∧
      f = normalForce (k.F l) P) x y := by
  rw [stressCurveFit_eq, hB] at h
  simp only at h
  have eF : ∀ i, pt2 i (sim.loadcase.defgrad x.length x.get) = k.F (x.get i) := fun i => by
    rw [hk]; exact defgrad_pt k lab x.get i
  have hP := fun i => hA x.length i (sim.loadcase.defgrad x.length x.get) none
  revert h hP
  rcases B.gradient x.length (sim.loadcase.defgrad x.length x.get) none with e | ⟨P | P, z⟩ <;> intro h hP
  · cases h
  · simp only at h
    split_ifs at h with hx
    · cases h; subst hx; exact List.Forall₂.nil
  · simp only [Except.ok.injEq] at h
    subst h
    refine List.forall₂_iff_get.2 ⟨by simp, fun i h1 h2 => ?_⟩
    have := hP ⟨i, h1⟩
    rw [eF] at this
    refine ⟨pt2 (⟨i, h1⟩ : Fin x.length) P, z, Eq.symm this, ?_⟩
    simp only [List.get_eq_getElem, List.getElem_ofFn]
    exact congrArg (fun F => normalForce F _) (eF _)

/-- When a simulation returns. -/
theorem curve_of_returns {sim : Simulation Z} {k : LoadKind} {lab : Option String} (hk : sim.loadcase = k.case lab)
    {p : List ℝ} {B : MatObj (Option Z)} (hB : sim.material (Kwargs.ofList (sim.labels.zip p)) = .ok B)
    {A : SpaceObj (Option Z) σ} {s : σ} (hA : MatObj.ActsAs B A s) {x y : List ℝ} (hx : x ≠ [])
    (h : List.Forall₂ (fun l f => ∃ P z', Returns (A.gradient (k.F l) none) s (.full P, z') ∧
      f = normalForce (k.F l) P) x y) : sim.stressCurveFit x p = .ok y := by
  rw [stressCurveFit_eq, hB]
  simp only
  have eF : ∀ i, pt2 i (sim.loadcase.defgrad x.length x.get) = k.F (x.get i) := fun i => by
    rw [hk]; exact defgrad_pt k lab x.get i
  have hP := fun i => hA x.length i (sim.loadcase.defgrad x.length x.get) none
  obtain ⟨hl, h⟩ := List.forall₂_iff_get.1 h
  have h0 : 0 < x.length := List.length_pos_iff.2 hx
  revert hP
  rcases B.gradient x.length (sim.loadcase.defgrad x.length x.get) none with e | ⟨P | P, z⟩ <;> intro hP
  · obtain ⟨P, z', h1, -⟩ := h 0 h0 (hl ▸ h0)
    have := hP ⟨0, h0⟩
    rw [eF] at this
    cases this.trans h1
  · obtain ⟨P, z', h1, -⟩ := h 0 h0 (hl ▸ h0)
    have := hP ⟨0, h0⟩
    rw [eF] at this
    cases this.trans h1
  · simp only [Except.ok.injEq]
    refine List.ext_get (by simp [hl]) fun i h1 h2 => ?_
    have hi : i < x.length := by simpa using h1
    obtain ⟨P', z', h3, h4⟩ := h i hi h2
    have := hP ⟨i, hi⟩
    rw [eF] at this
    have := this.trans h3
    simp only [Except.map, Except.ok.injEq, Prod.mk.injEq] at this
    have hPP : pt2 ⟨i, hi⟩ P = P' := Stress.full.inj this.1
    rw [h4]
    simp only [List.get_eq_getElem, List.getElem_ofFn]
    rw [← hPP]
    exact congrArg (fun F => normalForce F _) (eF _)

end Props
