import Verif.Props.Lab
import Verif.Props.Invariants
import Verif.Props.EndToEnd

/-! # Property C42: closed-form stress-stretch curves of third-order-deformation materials -/

namespace Props
open Spec Hel Matrix

variable {ι Z μ : Type}

/-! ### the factories of the documentation -/

/-- The space object at one point. -/
noncomputable abbrev todMat (c : ℝ × ℝ × ℝ × ℝ × ℝ × Bool) : Material ℝ Z (InvSt ℝ Unit) :=
  Invariants.material (TOD.init c.1 c.2.1 c.2.2.1 c.2.2.2.1 c.2.2.2.2.1 c.2.2.2.2.2).mat

theorem todFramework_agrees (c : ℝ × ℝ × ℝ × ℝ × ℝ × Bool) (i : ι) :
    Material.AgreesAt i (id : Z → Z) (todFramework ι c) (todMat c) := by
  classical
  exact C39_invariants i id _ _ (C39_third_order _ _ _ _ _ _ i id)

theorem todDeformation_acts {kw : Kwargs} {c : ℝ × ℝ × ℝ × ℝ × ℝ × Bool} (hc : todKwargs kw = .ok c)
    (s : DefSt (InvSt ℝ Unit)) : ∃ B, todDeformation (Z := Z) kw = .ok B ∧
      MatObj.ActsAs B (Deformation.obj {} (todMat c)) s := by
  refine ⟨_, by unfold todDeformation; rw [hc]; rfl, fun n i F z => ?_⟩
  exact C39_deformation_gradient {} i id _ _ (todFramework_agrees c i) F z _ s

theorem todDistortional_acts {kw : Kwargs} {c : ℝ × ℝ × ℝ × ℝ × ℝ × Bool} (hc : todKwargs kw = .ok c)
    (s : DistSt (InvSt ℝ Unit)) : ∃ B, todDistortional (Z := Z) kw = .ok B ∧
      MatObj.ActsAs B (Distortional.obj {} (todMat c)) s := by
  refine ⟨_, by unfold todDistortional; rw [hc]; rfl, fun n i F z => ?_⟩
  exact C39_distortional_gradient {} i id _ _ (todFramework_agrees c i) F z _ s

theorem tod_total {K : Type} [CommRing K] [Div K] [DecidableEq K] (m : TOD K) (I1 I2 I3 : K) (z : Z) :
    ∃ r, m.gradient I1 I2 I3 z = .ok r := by
  unfold TOD.gradient
  by_cases h1 : m.C10 = 0 <;> by_cases h2 : m.C01 = 0 <;> by_cases h3 : m.C11 = 0 <;>
    by_cases h4 : m.C20 = 0 <;> by_cases h5 : m.C30 = 0 <;>
    simp [h1, h2, h3, h4, h5, addTo, bind, Except.bind]

theorem todFramework_total (c : ℝ × ℝ × ℝ × ℝ × ℝ × Bool) (C : Vec6 (Arr ι)) (z : Z) (s : InvSt (Arr ι) Unit) :
    ∃ g z' s', (todFramework ι c).gradient C z s = (.ok (g, z'), s') := by
  classical
  change ∃ g z' s', Invariants.gradient _ C z s = (.ok (g, z'), s')
  rw [Invariants.gradient_run]
  simp only [TOD.mat, PyM.lift_run]
  obtain ⟨r, hr⟩ := tod_total (TOD.init (Arr.const c.1) (Arr.const c.2.1) (Arr.const c.2.2.1) (Arr.const c.2.2.2.1)
    (Arr.const c.2.2.2.2.1 : Arr ι) c.2.2.2.2.2) (trace C) ((trace C ^ 2 - ddot C C) / 2) (det C) z
  rw [hr]
  exact ⟨_, _, _, rfl⟩

theorem todDeformation_total {kw : Kwargs} {B : MatObj Z} (hB : todDeformation kw = .ok B) (n : ℕ)
    (F : Full2 (Arr (Fin n))) (z : Z) : ∃ P z', B.gradient n F z = .ok (.full P, z') := by
  unfold todDeformation at hB
  rcases hk : todKwargs kw with e | c <;> rw [hk] at hB <;> cases hB
  change ∃ P z', (Batch.Deformation.gradient _ _ F z _).1 = _
  rw [Batch.Deformation.gradient_run]
  obtain ⟨g, z', s', h⟩ := todFramework_total (Z := Z) c (Batch.rightCauchyGreen F) z { material := () }
  rw [h]
  exact ⟨_, _, rfl⟩

theorem todDistortional_total {kw : Kwargs} {B : MatObj Z} (hB : todDistortional kw = .ok B) (n : ℕ)
    (F : Full2 (Arr (Fin n))) (z : Z) : ∃ P z', B.gradient n F z = .ok (.full P, z') := by
  unfold todDistortional at hB
  rcases hk : todKwargs kw with e | c <;> rw [hk] at hB <;> cases hB
  change ∃ P z', (Batch.Distortional.gradient _ _ F z _).1 = _
  rw [Batch.Distortional.gradient_run]
  obtain ⟨g, z', s', h⟩ := todFramework_total (Z := Z) c (Batch.Distortional.cu F) z { material := () }
  rw [h]
  exact ⟨_, _, rfl⟩

theorem curve_nil {sim : Simulation Z} {p : List ℝ} {B : MatObj (Option Z)}
    (hB : sim.material (Kwargs.ofList (sim.labels.zip p)) = .ok B)
    (h : ∃ P z', B.gradient 0 (sim.loadcase.defgrad 0 ([] : List ℝ).get) none = .ok (.full P, z')) :
    sim.stressCurveFit [] p = .ok [] := by
  rw [stressCurveFit_eq, hB]
  obtain ⟨P, z', h⟩ := h
  simp only
  have e : B.gradient ([] : List ℝ).length (sim.loadcase.defgrad ([] : List ℝ).length ([] : List ℝ).get) none =
    .ok (.full P, z') := h
  rw [e]
  simp

/-! ### C42 -/

/-- The coefficients of the material of a simulation: what is assigned to the names. -/
noncomputable def coef (labels : List String) (p : List ℝ) (name : String) : ℝ := (assigned (labels.zip p) name).getD 0

/-- `∂ψ/∂I1` of the documented energy along the load case `k` at the stretch `l`. -/
noncomputable def W1 (labels : List String) (p : List ℝ) (k : LoadKind) (l : ℝ) : ℝ :=
  deriv (fun t => todEnergy (coef labels p "C10") (coef labels p "C01") (coef labels p "C11") (coef labels p "C20")
    (coef labels p "C30") 3 ![t, invariants (cauchyGreen (k.F l)) 1, invariants (cauchyGreen (k.F l)) 2])
    (invariants (cauchyGreen (k.F l)) 0)

/-- `∂ψ/∂I2` of the documented energy along the load case `k` at the stretch `l`. -/
noncomputable def W2 (labels : List String) (p : List ℝ) (k : LoadKind) (l : ℝ) : ℝ :=
  deriv (fun t => todEnergy (coef labels p "C10") (coef labels p "C01") (coef labels p "C11") (coef labels p "C20")
    (coef labels p "C30") 3 ![invariants (cauchyGreen (k.F l)) 0, t, invariants (cauchyGreen (k.F l)) 2])
    (invariants (cauchyGreen (k.F l)) 1)

/-- The textbook curves of incompressible isotropic solids. -/
noncomputable def textbook (k : LoadKind) (w1 w2 l : ℝ) : ℝ :=
  match k with
  | .uniaxial => 2 * (l - 1 / l ^ 2) * (w1 + w2 / l)
  | .planar => 2 * (l - 1 / l ^ 3) * (w1 + w2)
  | .biaxial => 2 * (l - 1 / l ^ 5) * (w1 + l ^ 2 * w2)

theorem W1_eq (labels : List String) (p : List ℝ) (k : LoadKind) (l : ℝ) (x : Fin 3 → ℝ)
    (hx : x = invariants (cauchyGreen (k.F l))) : W1 labels p k l =
    coef labels p "C10" + coef labels p "C11" * (x 1 - 3) + coef labels p "C20" * 2 * (x 0 - 3) +
      coef labels p "C30" * 3 * (x 0 - 3) ^ 2 := by
  subst hx
  refine HasDerivAt.deriv ?_
  unfold todEnergy
  simp only [cons_val_zero, cons_val_one]
  generalize invariants (cauchyGreen (k.F l)) 0 = I1
  generalize invariants (cauchyGreen (k.F l)) 1 = I2
  have hi : HasDerivAt (fun t : ℝ => t - 3) 1 I1 := (hasDerivAt_id' I1).sub_const 3
  refine (((((hi.const_mul (coef labels p "C10")).add_const (coef labels p "C01" * (I2 - 3))).add
    ((hi.const_mul (coef labels p "C11")).mul_const (I2 - 3))).add
    ((hi.fun_pow 2).const_mul (coef labels p "C20"))).add ((hi.fun_pow 3).const_mul (coef labels p "C30"))).congr_deriv ?_
  norm_num
  ring

theorem W2_eq (labels : List String) (p : List ℝ) (k : LoadKind) (l : ℝ) (x : Fin 3 → ℝ)
    (hx : x = invariants (cauchyGreen (k.F l))) : W2 labels p k l =
    coef labels p "C01" + coef labels p "C11" * (x 0 - 3) := by
  subst hx
  refine HasDerivAt.deriv ?_
  unfold todEnergy
  simp only [cons_val_zero, cons_val_one]
  generalize invariants (cauchyGreen (k.F l)) 0 = I1
  generalize invariants (cauchyGreen (k.F l)) 1 = I2
  have hi : HasDerivAt (fun t : ℝ => t - 3) 1 I2 := (hasDerivAt_id' I2).sub_const 3
  refine ((((((hi.const_mul (coef labels p "C01")).const_add (coef labels p "C10" * (I1 - 3))).add
    (hi.const_mul (coef labels p "C11" * (I1 - 3)))).add_const (coef labels p "C20" * (I1 - 3) ^ 2)).add_const
    (coef labels p "C30" * (I1 - 3) ^ 3))).congr_deriv ?_
  ring

theorem normalForce_inv (k : LoadKind) {l : ℝ} (hl : 0 < l) (g : Fin 3 → ℝ) (hg : g 2 = 0) :
    normalForce (k.F l) (k.F l * ((2 : ℝ) • invGradT (cauchyGreen (k.F l)) g)) = textbook k (g 0) (g 1) l := by
  have key : ∀ d : Fin 3 → ℝ, d 0 ≠ 0 → normalForce (diagonal d)
      (diagonal d * ((2 : ℝ) • invGradT (cauchyGreen (diagonal d)) g)) =
      2 * (d 0 - d 2 ^ 2 / d 0) * (g 0 + d 1 ^ 2 * g 1) := by
    intro d h0
    have e : cauchyGreen (diagonal d) = diagonal fun a => d a ^ 2 := by
      rw [cauchyGreen, diagonal_transpose, diagonal_mul_diagonal]
      congr 1; funext a; ring
    have e1 : ∀ a, (diagonal d * ((2 : ℝ) • invGradT (cauchyGreen (diagonal d)) g)) a a =
        2 * d a * (g 0 + g 1 * (d 0 ^ 2 + d 1 ^ 2 + d 2 ^ 2 - d a ^ 2)) := by
      intro a
      rw [Matrix.diagonal_mul, e]
      simp only [invGradT, hg, zero_smul, add_zero, Matrix.smul_apply, Matrix.add_apply, Matrix.sub_apply,
        Matrix.one_apply_eq, diagonal_apply_eq, Matrix.trace_diagonal, Fin.sum_univ_three, smul_eq_mul]
      ring
    rw [normalForce, e1, e1, diagonal_apply_eq, diagonal_apply_eq]
    field_simp
    ring
  have hs := Real.sq_sqrt hl.le
  have hs0 : 0 < √l := Real.sqrt_pos.2 hl
  cases k
  · rw [LoadKind.F, key _ (by simpa using hl.ne')]
    simp only [cons_val, textbook, div_pow, one_pow, hs]
    field_simp
  · rw [LoadKind.F, key _ (by simpa using hl.ne')]
    simp only [cons_val, textbook]
    field_simp
  · rw [LoadKind.F, key _ (by simpa using hl.ne')]
    simp only [cons_val, textbook]
    field_simp

theorem tod_point (k : LoadKind) {l : ℝ} (hl : 0 < l) (c10 c01 c11 c20 c30 : ℝ) (z : Z) (s : DefSt (InvSt ℝ Unit)) :
    ∃ P, Returns ((Deformation.obj {} (todMat (c10, c01, c11, c20, c30, false))).gradient (k.F l) z) s (.full P, z) ∧
      normalForce (k.F l) P = textbook k
        (c10 + c11 * (invariants (cauchyGreen (k.F l)) 1 - 3) + c20 * 2 * (invariants (cauchyGreen (k.F l)) 0 - 3) +
          c30 * 3 * (invariants (cauchyGreen (k.F l)) 0 - 3) ^ 2)
        (c01 + c11 * (invariants (cauchyGreen (k.F l)) 0 - 3)) l := by
  have hd : (k.F l).det ≠ 0 := by rw [loadF_det k hl]; exact one_ne_zero
  set m := TOD.init c10 c01 c11 c20 c30 false with hm
  set x := invariants (cauchyGreen (k.F l)) with hx
  have h1 : Returns ((Invariants.material (Z := Z) m.mat).gradient (rightCauchyGreen (k.F l)) z) s.material _ :=
    (Invariants.returns_gradient ..).2 ⟨_, congrArg (fun r => (PyM.lift r () : _ × Unit).1)
      (TOD.gradient_eq _ _ _ _ z), rfl, rfl⟩
  have h2 : Returns ((Deformation.obj {} (Invariants.material (Z := Z) m.mat)).gradient (k.F l) z) s _ :=
    (Space.returns_gradient .deformation ..).2 ⟨_, h1, (piolaStress_default ..).symm⟩
  refine ⟨_, h2, ?_⟩
  obtain ⟨G, hG, hP⟩ := (Deformation.grad_iff _ _ _ _).1 ⟨s, _, h2⟩
  obtain ⟨g, hg, rfl⟩ := (Invariants.grad_iff m.mat z (symInv_cauchyGreen hd)).1 hG
  have hg' := (TOD.grad_iff m z _ g).1 hg
  rw [hP, normalForce_inv k hl g (by rw [hg']; rfl), hg']
  simp only [hm, TOD.init, cons_val_zero, cons_val_one, Bool.false_eq_true, if_false, ← hx]

theorem todKwargs_ok {labels : List String} {p : List ℝ}
    (hn : ∀ name ∈ (labels.zip p).map (·.1), name ∈ ["C10", "C01", "C11", "C20", "C30"]) :
    todKwargs (Kwargs.ofList (labels.zip p)) = .ok (coef labels p "C10", coef labels p "C01", coef labels p "C11",
      coef labels p "C20", coef labels p "C30", false) := by
  unfold todKwargs
  rw [if_pos]
  · simp only [Kwargs.get_ofList]
    have : assigned (labels.zip p) "strain" = none := by
      unfold assigned
      rw [Option.map_eq_none_iff, List.find?_eq_none]
      intro e he
      simp only [List.mem_reverse] at he
      have := hn e.1 (List.mem_map_of_mem he)
      intro h
      simp only [decide_eq_true_eq] at h
      rw [h] at this
      exact absurd this (by decide)
    rw [this]
    simp [coef]
  · intro e he
    have := hn e.1 (((Kwargs.keys_ofList _).2 _).1 (List.mem_map_of_mem he))
    simp only [List.mem_cons, List.not_mem_nil, or_false] at this ⊢
    tauto

/-- A simulation of a third-order-deformation material, on the deformation or on the distortional
space, returns the textbook curve with the documented partial derivatives. -/
theorem C42_curve (sim : Simulation Z) (k : LoadKind) (lab : Option String) (hk : sim.loadcase = k.case lab)
    (hm : sim.material = todDeformation ∨ sim.material = todDistortional) (p : List ℝ)
    (hn : ∀ name ∈ (sim.labels.zip p).map (·.1), name ∈ ["C10", "C01", "C11", "C20", "C30"])
    (x : List ℝ) (hx : ∀ l ∈ x, 0 < l) :
    sim.stressCurveFit x p = .ok (x.map fun l => textbook k (W1 sim.labels p k l) (W2 sim.labels p k l) l) := by
  have hc := todKwargs_ok hn
  have hpt := fun (l : ℝ) (hl : 0 < l) (s : DefSt (InvSt ℝ Unit)) => tod_point (Z := Option Z) k hl
    (coef sim.labels p "C10") (coef sim.labels p "C01") (coef sim.labels p "C11")
    (coef sim.labels p "C20") (coef sim.labels p "C30") none s
  rcases hm with hm | hm
  · obtain ⟨B, hB, hA⟩ := todDeformation_acts (Z := Option Z) hc { material := { material := () } }
    rw [← hm] at hB
    rcases eq_or_ne x [] with rfl | hne
    · exact curve_nil hB (todDeformation_total (hm ▸ hB) _ _ _)
    · refine curve_of_returns hk hB hA hne ?_
      rw [List.forall₂_map_right_iff, List.forall₂_same]
      intro l hl
      obtain ⟨P, h1, h2⟩ := hpt l (hx l hl) { material := { material := () } }
      refine ⟨P, none, h1, ?_⟩
      rw [h2, W1_eq _ _ _ _ _ rfl, W2_eq _ _ _ _ _ rfl]
  · obtain ⟨B, hB, hA⟩ := todDistortional_acts (Z := Option Z) hc { material := { material := () } }
    rw [← hm] at hB
    rcases eq_or_ne x [] with rfl | hne
    · exact curve_nil hB (todDistortional_total (hm ▸ hB) _ _ _)
    · refine curve_of_returns hk hB hA hne ?_
      rw [List.forall₂_map_right_iff, List.forall₂_same]
      intro l hl
      obtain ⟨P, h1, h2⟩ := hpt l (hx l hl) { material := { material := () } }
      rw [← W1_eq _ _ _ _ _ rfl, ← W2_eq _ _ _ _ _ rfl] at h2
      obtain ⟨P', h1', h2'⟩ := (same_point k (hx l hl) _ none none _ { material := { material := () } } rfl _).1
        ⟨P, h1, h2.symm⟩
      exact ⟨P', none, h1', h2'⟩

/-- The invariants along the load cases. -/
theorem C42_invariants {l : ℝ} (hl : 0 < l) :
    invariants (cauchyGreen (LoadKind.uniaxial.F l)) = ![l ^ 2 + 2 / l, 2 * l + 1 / l ^ 2, 1] ∧
    invariants (cauchyGreen (LoadKind.planar.F l)) = ![l ^ 2 + 1 / l ^ 2 + 1, l ^ 2 + 1 / l ^ 2 + 1, 1] ∧
    invariants (cauchyGreen (LoadKind.biaxial.F l)) = ![2 * l ^ 2 + 1 / l ^ 4, l ^ 4 + 2 / l ^ 2, 1] := by
  have e : ∀ d : Fin 3 → ℝ, cauchyGreen (diagonal d) = diagonal fun a => d a ^ 2 := by
    intro d
    rw [cauchyGreen, diagonal_transpose, diagonal_mul_diagonal]
    congr 1; funext a; ring
  have hi : ∀ d : Fin 3 → ℝ, invariants (diagonal d) =
      ![d 0 + d 1 + d 2, d 0 * d 1 + d 1 * d 2 + d 0 * d 2, d 0 * d 1 * d 2] := by
    intro d
    rw [invariants, inv2, diagonal_mul_diagonal, trace_diagonal, trace_diagonal, det_diagonal, Fin.sum_univ_three,
      Fin.sum_univ_three, Fin.prod_univ_three]
    congr 2
    ring
  have hs := Real.sq_sqrt hl.le
  refine ⟨?_, ?_, ?_⟩
  · rw [LoadKind.F, e, hi]
    simp only [cons_val, div_pow, hs]
    funext a; fin_cases a <;> simp <;> field_simp <;> ring
  · rw [LoadKind.F, e, hi]
    funext a; fin_cases a <;> simp <;> field_simp <;> ring
  · rw [LoadKind.F, e, hi]
    funext a; fin_cases a <;> simp <;> field_simp <;> ring

/-! ### C43, C44, C45 for the factories of the documentation -/

/-- The curve of the documentation's material, on either space, is the derivative of the documented
energy along the load case, and it vanishes at stretch one. -/
theorem C43_third_order (sim : Simulation Z) (k : LoadKind) (lab : Option String) (hk : sim.loadcase = k.case lab)
    (hm : sim.material = todDeformation ∨ sim.material = todDistortional) (p : List ℝ)
    (hn : ∀ name ∈ (sim.labels.zip p).map (·.1), name ∈ ["C10", "C01", "C11", "C20", "C30"])
    (x : List ℝ) (hx : ∀ l ∈ x, 0 < l) : ∃ y, sim.stressCurveFit x p = .ok y ∧
    List.Forall₂ (fun l f => HasDerivAt (fun t => todEnergy (coef sim.labels p "C10") (coef sim.labels p "C01")
      (coef sim.labels p "C11") (coef sim.labels p "C20") (coef sim.labels p "C30") 3
      (invariants (cauchyGreen (k.F t)))) (k.axes * f) l) x y := by
  refine ⟨_, C42_curve sim k lab hk hm p hn x hx, ?_⟩
  have hc := todKwargs_ok hn
  set c := (coef sim.labels p "C10", coef sim.labels p "C01", coef sim.labels p "C11", coef sim.labels p "C20",
    coef sim.labels p "C30", false) with hcd
  have hG := C16_gradient _ (none : Option Z) (fun _ => True) _ (C10_gradient c.1 c.2.1 c.2.2.1 c.2.2.2.1 c.2.2.2.2.1 false none)
  have hΨ : IsGradient PosDef (fun C => todEnergy c.1 c.2.1 c.2.2.1 c.2.2.2.1 c.2.2.2.2.1 3 (invariants C))
      (Material.Grad (todMat (Z := Option Z) c) none) := by
    intro C C' t₀ G hC hmv hg
    exact hG C C' t₀ G (hC.mono fun t ht => ⟨⟨ht.1, PosDef.det_ne_zero ht⟩, trivial⟩) hmv hg
  have hy := C42_curve sim k lab hk hm p hn x hx
  rcases hm with hm | hm
  · obtain ⟨B, hB, hA⟩ := todDeformation_acts (Z := Option Z) hc { material := { material := () } }
    rw [← hm] at hB
    exact C43_work sim k lab hk p B hB .deformation (Or.inl rfl) _ (C36_invariants _ _) _ hΨ _ hA x _ hx hy
  · obtain ⟨B, hB, hA⟩ := todDistortional_acts (Z := Option Z) hc { material := { material := () } }
    rw [← hm] at hB
    exact C43_work sim k lab hk p B hB .distortional (Or.inr rfl) _ (C36_invariants _ _) _ hΨ _ hA x _ hx hy

/-- The same curve on both spaces. -/
theorem C44_third_order (sim1 sim2 : Simulation Z) (k : LoadKind) (lab1 lab2 : Option String)
    (hk1 : sim1.loadcase = k.case lab1) (hk2 : sim2.loadcase = k.case lab2) (hm1 : sim1.material = todDeformation)
    (hm2 : sim2.material = todDistortional) (hl : sim1.labels = sim2.labels) (p : List ℝ)
    (hn : ∀ name ∈ (sim1.labels.zip p).map (·.1), name ∈ ["C10", "C01", "C11", "C20", "C30"])
    (x y : List ℝ) (hx : x ≠ []) (hpos : ∀ l ∈ x, 0 < l) :
    sim1.stressCurveFit x p = .ok y ↔ sim2.stressCurveFit x p = .ok y := by
  have hc := todKwargs_ok hn
  obtain ⟨B1, hB1, hA1⟩ := todDeformation_acts (Z := Option Z) hc { material := { material := () } }
  obtain ⟨B2, hB2, hA2⟩ := todDistortional_acts (Z := Option Z) hc { material := { material := () } }
  rw [← hm1] at hB1
  rw [← hm2, hl] at hB2
  exact C44_same_curve sim1 sim2 k lab1 lab2 hk1 hk2 p p B1 B2 hB1 hB2 _ _ _ rfl hA1 hA2 x y hx hpos

/-- Zero stress at stretch one. -/
theorem C45_third_order (sim : Simulation Z) (k : LoadKind) (lab : Option String) (hk : sim.loadcase = k.case lab)
    (hm : sim.material = todDeformation ∨ sim.material = todDistortional) (p : List ℝ)
    (hn : ∀ name ∈ (sim.labels.zip p).map (·.1), name ∈ ["C10", "C01", "C11", "C20", "C30"]) (n : ℕ) :
    sim.stressCurveFit (List.replicate n 1) p = .ok (List.replicate n 0) := by
  rw [C42_curve sim k lab hk hm p hn _ (by simp), List.map_replicate]
  congr 2
  cases k <;> simp [textbook]

/-! ### `Simulation.stress()` -/

/-- `Simulation.stress()` is the textbook curve at the stretches of the simulation, for the stored
parameters. -/
theorem C42_stress (sim : Simulation Z) (k : LoadKind) (lab : Option String) (hk : sim.loadcase = k.case lab)
    (hm : sim.material = todDeformation ∨ sim.material = todDistortional) (p : List ℝ)
    (hn : ∀ name ∈ (sim.labels.zip p).map (·.1), name ∈ ["C10", "C01", "C11", "C20", "C30"])
    (hx : ∀ l ∈ sim.stretch, 0 < l) :
    sim.stress p = .ok (sim.stretch.map fun l => textbook k (W1 sim.labels p k l) (W2 sim.labels p k l) l) :=
  C42_curve sim k lab hk hm p hn _ hx

/-- `Simulation.stress()` is the derivative of the documented energy along the load case. -/
theorem C43_stress (sim : Simulation Z) (k : LoadKind) (lab : Option String) (hk : sim.loadcase = k.case lab)
    (hm : sim.material = todDeformation ∨ sim.material = todDistortional) (p : List ℝ)
    (hn : ∀ name ∈ (sim.labels.zip p).map (·.1), name ∈ ["C10", "C01", "C11", "C20", "C30"])
    (hx : ∀ l ∈ sim.stretch, 0 < l) : ∃ y, sim.stress p = .ok y ∧
    List.Forall₂ (fun l f => HasDerivAt (fun t => todEnergy (coef sim.labels p "C10") (coef sim.labels p "C01")
      (coef sim.labels p "C11") (coef sim.labels p "C20") (coef sim.labels p "C30") 3
      (invariants (cauchyGreen (k.F t)))) (k.axes * f) l) sim.stretch y :=
  C43_third_order sim k lab hk hm p hn _ hx

/-- `Simulation.stress()` vanishes at every data point with stretch one, wherever it is in the data. -/
theorem C45_stress (sim : Simulation Z) (k : LoadKind) (lab : Option String) (hk : sim.loadcase = k.case lab)
    (hm : sim.material = todDeformation ∨ sim.material = todDistortional) (p : List ℝ)
    (hn : ∀ name ∈ (sim.labels.zip p).map (·.1), name ∈ ["C10", "C01", "C11", "C20", "C30"])
    (hx : ∀ l ∈ sim.stretch, 0 < l) : ∃ y, sim.stress p = .ok y ∧ y.length = sim.stretch.length ∧
    ∀ i : ℕ, sim.stretch[i]? = some 1 → y[i]? = some 0 := by
  refine ⟨_, C42_stress sim k lab hk hm p hn hx, by simp, fun i hi => ?_⟩
  rw [List.getElem?_map, hi]
  simp only [Option.map_some]
  congr 1
  cases k <;> simp [textbook]

/-- A simulated planar tension test of a Mooney-Rivlin material meets the hypotheses of C42 to C45. -/
example : ∃ sim : Simulation Unit, sim.loadcase = LoadKind.planar.case none ∧ sim.material = todDistortional ∧
    (∀ name ∈ (sim.labels.zip [(1 : ℝ), 2]).map (·.1), name ∈ ["C10", "C01", "C11", "C20", "C30"]) ∧
    (∀ l ∈ sim.stretch, 0 < l) ∧ sim.stress [1, 2] = .ok [0, 2 * (2 - 1 / 2 ^ 3) * (1 + 2)] := by
  let sim : Simulation Unit := ⟨LoadKind.planar.case none, [1, 2], ["C10", "C01"], todDistortional⟩
  have hn : ∀ name ∈ (sim.labels.zip [(1 : ℝ), 2]).map (·.1), name ∈ ["C10", "C01", "C11", "C20", "C30"] := by simp [sim]
  have hx : ∀ l ∈ sim.stretch, 0 < l := by simp [sim]
  refine ⟨sim, rfl, rfl, hn, hx, ?_⟩
  rw [C42_stress sim .planar none rfl (.inr rfl) _ hn hx]
  simp [sim, textbook, W1_eq _ _ _ _ _ rfl, W2_eq _ _ _ _ _ rfl, coef, assigned, List.lookup]

end Props
