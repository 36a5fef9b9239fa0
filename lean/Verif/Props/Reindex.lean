import Verif.Spec.Reindex
import Verif.Props.Batch

/-! # Property C88: reordering and repeating the points of a batch -/

namespace Props
open Spec Hel

variable {ι ι' Z μ ν : Type}

/-- The third-order-deformation materials are pointwise. -/
noncomputable def todPointwise (Z : Type) (C10 C01 C11 C20 C30 : ℝ) (b : Bool) : Pointwise Z where
  attrs ι := InvSt (Arr ι) Unit
  batch ι := by
    classical
    exact Invariants.material
      (TOD.init (Arr.const C10) (Arr.const C01) (Arr.const C11) (Arr.const C20) (Arr.const C30 : Arr ι) b).mat
  attrs1 := InvSt ℝ Unit
  new1 := { material := () }
  single := Invariants.material (TOD.init C10 C01 C11 C20 C30 b).mat
  agrees _ i := by
    classical
    exact C39_invariants i _ _ _ (C39_third_order _ _ _ _ _ _ i _)

/-- The Ogden materials are pointwise. -/
noncomputable def ogdenPointwise (Z : Type) (lapack : Eigh) (m : Ogden) : Pointwise Z where
  attrs ι := Batch.StrSt ι Unit
  batch _ := Batch.Stretches.material lapack (Batch.ogdenMat m)
  attrs1 := StrSt Unit
  new1 := { material := () }
  single := Stretches.material lapack m.mat
  agrees _ i := C39_stretches lapack i _ _ _ (C39_ogden m i _)

theorem stress_ext (σ : ι' → ι) (x : Batch.Stress ι) (y : Batch.Stress ι') [Nonempty ι']
    (h : ∀ j, Stress.at (σ j) x = Stress.at j y) : y = Stress.along σ x := by
  obtain ⟨j0⟩ := ‹Nonempty ι'›
  rcases x with x | x <;> rcases y with y | y
  · refine congrArg Batch.Stress.voigt ?_
    funext a j
    exact (congrFun (Stress.voigt.inj (h j)) a).symm
  · cases h j0
  · cases h j0
  · refine congrArg Batch.Stress.full ?_
    funext a b j
    exact (congrFun (congrFun (Stress.full.inj (h j)) a) b).symm

theorem elasticity_ext (σ : ι' → ι) (x : Batch.Elasticity ι) (y : Batch.Elasticity ι') [Nonempty ι']
    (h : ∀ j, Elasticity.at (σ j) x = Elasticity.at j y) : y = Elasticity.along σ x := by
  obtain ⟨j0⟩ := ‹Nonempty ι'›
  rcases x with x | x <;> rcases y with y | y
  · refine congrArg Batch.Elasticity.voigt ?_
    funext a b j
    exact (congrFun (congrFun (Elasticity.voigt.inj (h j)) a) b).symm
  · cases h j0
  · cases h j0
  · refine congrArg Batch.Elasticity.full ?_
    funext a b c d j
    exact (congrFun (congrFun (congrFun (congrFun (Elasticity.full.inj (h j)) a) b) c) d).symm

theorem gradAlong_of [Nonempty ι'] (σ : ι' → ι) (B : Batch.SpaceObj ι (ι → Z) μ) {μ' : Type}
    (B' : Batch.SpaceObj ι' (ι' → Z) μ') (A : SpaceObj Z ν) (t₀ : ν)
    (h : ∀ i, SpaceObj.GradAgreesAt i (fun z => z i) B A)
    (h' : ∀ j, SpaceObj.GradAgreesAt j (fun z => z j) B' A) : SpaceObj.GradAlong σ B B' := by
  intro F z s t
  have key : ∀ j, (B.gradient F z s).1.map (fun r => (Stress.at (σ j) r.1, r.2 (σ j))) =
      (B'.gradient (along2 σ F) (z ∘ σ) t).1.map fun r => (Stress.at j r.1, r.2 j) := fun j =>
    (h (σ j) F z s t₀).trans (h' j (along2 σ F) (z ∘ σ) t t₀).symm
  revert key
  rcases (B.gradient F z s).1 with e | ⟨x, w⟩ <;> rcases (B'.gradient (along2 σ F) (z ∘ σ) t).1 with e' | ⟨y, w'⟩ <;> intro key
  · obtain ⟨j0⟩ := ‹Nonempty ι'›
    exact congrArg Except.error (Except.error.inj (key j0)).symm
  · obtain ⟨j0⟩ := ‹Nonempty ι'›
    cases key j0
  · obtain ⟨j0⟩ := ‹Nonempty ι'›
    cases key j0
  · have k := fun j => Prod.mk.inj (Except.ok.inj (key j))
    exact congrArg Except.ok (Prod.ext (stress_ext σ x y fun j => (k j).1) (funext fun j => (k j).2.symm))

theorem hessAlong_of [Nonempty ι'] (σ : ι' → ι) (r : Res (Batch.Elasticity ι))
    (r' : Res (Batch.Elasticity ι')) (h : ∀ j, r.map (Elasticity.at (σ j)) = r'.map (Elasticity.at j)) :
    r' = r.map (Elasticity.along σ) := by
  obtain ⟨j0⟩ := ‹Nonempty ι'›
  rcases r with e | x <;> rcases r' with e' | y
  · exact congrArg Except.error (Except.error.inj (h j0)).symm
  · cases h j0
  · cases h j0
  · haveI : Nonempty ι' := ⟨j0⟩
    exact congrArg Except.ok (elasticity_ext σ x y fun j => Except.ok.inj (h j))

/-- Reordering, repeating or selecting the points does the same to the stress: deformation space. -/
theorem C88_deformation_gradient [Nonempty ι'] (cfg : SpaceCfg) (M : Pointwise Z) (σ : ι' → ι) :
    SpaceObj.GradAlong σ (Batch.Deformation.obj cfg (M.batch ι)) (Batch.Deformation.obj cfg (M.batch ι')) :=
  gradAlong_of σ _ _ (Deformation.obj cfg M.single) { material := M.new1 }
    (fun i => C39_deformation_gradient cfg i _ _ _ (M.agrees ι i))
    fun j => C39_deformation_gradient cfg j _ _ _ (M.agrees ι' j)

/-- Reordering, repeating or selecting the points does the same to the elasticity: deformation space. -/
theorem C88_deformation_hessian [Nonempty ι'] (cfg : SpaceCfg) (M : Pointwise Z) (σ : ι' → ι) :
    SpaceObj.HessAlong σ (Batch.Deformation.obj cfg (M.batch ι)) (Batch.Deformation.obj cfg (M.batch ι')) :=
  fun F z s t => hessAlong_of σ _ _ fun j =>
    (C39_deformation_hessian cfg (σ j) _ _ _ (M.agrees ι (σ j)) F z s { material := M.new1 }).trans
      (C39_deformation_hessian cfg j _ _ _ (M.agrees ι' j) (along2 σ F) (z ∘ σ) t { material := M.new1 }).symm

/-- Reordering, repeating or selecting the points does the same to the stress: distortional space. -/
theorem C88_distortional_gradient [Nonempty ι'] (cfg : SpaceCfg) (M : Pointwise Z) (σ : ι' → ι) :
    SpaceObj.GradAlong σ (Batch.Distortional.obj cfg (M.batch ι)) (Batch.Distortional.obj cfg (M.batch ι')) :=
  gradAlong_of σ _ _ (Distortional.obj cfg M.single) { material := M.new1 }
    (fun i => C39_distortional_gradient cfg i _ _ _ (M.agrees ι i))
    fun j => C39_distortional_gradient cfg j _ _ _ (M.agrees ι' j)

/-- Reordering, repeating or selecting the points does the same to the stress: dilatational space. -/
theorem C88_dilatational_gradient [Nonempty ι'] (cfg : SpaceCfg) (M : Pointwise Z) (σ : ι' → ι) :
    SpaceObj.GradAlong σ (Batch.Dilatational.obj cfg (M.batch ι)) (Batch.Dilatational.obj cfg (M.batch ι')) :=
  gradAlong_of σ _ _ (Dilatational.obj cfg M.single) { material := M.new1 }
    (fun i => C39_dilatational_gradient cfg i _ _ _ (M.agrees ι i))
    fun j => C39_dilatational_gradient cfg j _ _ _ (M.agrees ι' j)

/-- Reordering, repeating or selecting the points does the same to the elasticity: dilatational space. -/
theorem C88_dilatational_hessian [Nonempty ι'] (cfg : SpaceCfg) (M : Pointwise Z) (σ : ι' → ι) :
    SpaceObj.HessAlong σ (Batch.Dilatational.obj cfg (M.batch ι)) (Batch.Dilatational.obj cfg (M.batch ι')) :=
  fun F z s t => hessAlong_of σ _ _ fun j =>
    (C39_dilatational_hessian cfg (σ j) _ _ _ (M.agrees ι (σ j)) F z s { material := M.new1 }).trans
      (C39_dilatational_hessian cfg j _ _ _ (M.agrees ι' j) (along2 σ F) (z ∘ σ) t { material := M.new1 }).symm

/-- Two evaluations of a batch and of its points in another order: both fail with the same
exception or both succeed and agree at the points. -/
theorem couple {α β γ : Type} (r : Res α) (r' : Res β) (f : ι' → α → γ) (f' : ι' → β → γ)
    [Nonempty ι'] (h : ∀ j, r.map (f j) = r'.map (f' j)) :
    (∃ e, r = .error e ∧ r' = .error e) ∨ ∃ x y, r = .ok x ∧ r' = .ok y ∧ ∀ j, f j x = f' j y := by
  obtain ⟨j0⟩ := ‹Nonempty ι'›
  rcases r with e | x <;> rcases r' with e' | y
  · exact .inl ⟨e, rfl, congrArg _ (Except.error.inj (h j0)).symm⟩
  · cases h j0
  · cases h j0
  · exact .inr ⟨x, y, rfl, rfl, fun j => Except.ok.inj (h j)⟩

/-- Reordering or repeating the points does the same to the elasticity: distortional space.  All
the points must be kept: the tolerance of `np.allclose` is applied to the batch as a whole, so that
leaving points out may change the others, see `C39_distortional_hessian_false`. -/
theorem C88_distortional_hessian [Nonempty ι'] (cfg : SpaceCfg) (M : Pointwise Z) (σ : ι' → ι)
    (hσ : Function.Surjective σ) :
    SpaceObj.HessAlong σ (Batch.Distortional.obj cfg (M.batch ι)) (Batch.Distortional.obj cfg (M.batch ι')) := by
  intro F z s t
  refine hessAlong_of σ _ _ fun j => ?_
  change (Batch.Distortional.hessian cfg _ F z s).1.map _ =
    (Batch.Distortional.hessian cfg _ (along2 σ F) (z ∘ σ) t).1.map _
  rw [Batch.Distortional.hessian_run, Batch.Distortional.hessian_run]
  have hcu : ∀ j, pt (σ j) (Batch.Distortional.cu F) = pt j (Batch.Distortional.cu (along2 σ F)) := fun j => by
    rw [Distortional.cu_pt, Distortional.cu_pt]; rfl
  have h1 := couple ((M.batch ι).gradient (Batch.Distortional.cu F) z s.material).1
    ((M.batch ι').gradient (Batch.Distortional.cu (along2 σ F)) (z ∘ σ) t.material).1
    (fun j r => (pt (σ j) r.1, r.2 (σ j))) (fun j r => (pt j r.1, r.2 j)) fun j =>
      (M.agrees ι (σ j) _ _ _ M.new1).1.trans (by
        rw [hcu]; exact (M.agrees ι' j _ (z ∘ σ) t.material M.new1).1.symm)
  rcases hg : (M.batch ι).gradient (Batch.Distortional.cu F) z s.material with ⟨r, m⟩
  rcases hg' : (M.batch ι').gradient (Batch.Distortional.cu (along2 σ F)) (z ∘ σ) t.material with ⟨r', m'⟩
  rw [hg, hg'] at h1
  rcases h1 with ⟨e, rfl, rfl⟩ | ⟨⟨g, w⟩, ⟨g', w'⟩, rfl, rfl, hp⟩
  · rfl
  have h2 := couple ((M.batch ι).hessian (Batch.Distortional.cu F) z m).1
    ((M.batch ι').hessian (Batch.Distortional.cu (along2 σ F)) (z ∘ σ) m').1
    (fun j => pt2 (σ j)) (fun j => pt2 j) fun j =>
      (M.agrees ι (σ j) _ _ _ M.new1).2.trans (by
        rw [hcu]; exact (M.agrees ι' j _ (z ∘ σ) m' M.new1).2.symm)
  simp only
  revert h2
  rcases (M.batch ι).hessian (Batch.Distortional.cu F) z m with ⟨q, n⟩
  rcases (M.batch ι').hessian (Batch.Distortional.cu (along2 σ F)) (z ∘ σ) m' with ⟨q', n'⟩
  intro h2
  rcases h2 with ⟨e, rfl, rfl⟩ | ⟨k, k', rfl, rfl, hk⟩
  · rfl
  change Except.ok _ = Except.ok _
  have hF : pt2 j (along2 σ F) = pt2 (σ j) F := rfl
  have hd : ∀ (κ : Type) (i : κ) (G : Full2 (Arr κ)), (some (Arr.sqrt (det (Batch.rightCauchyGreen G)))).map (· i) =
      some (Real.sqrt (det (rightCauchyGreen (pt2 i G)))) := fun κ i G => by
    rw [Option.map_some, Arr.sqrt, det_pt, rightCauchyGreen_pt]
  have hcond : (∀ i, Distortional.allclose0 (Distortional.c4b (pt2 i F) (pt2 i k))) ↔
      ∀ j, Distortional.allclose0 (Distortional.c4b (pt2 j (along2 σ F)) (pt2 j k')) := by
    constructor
    · intro h j
      have := h (σ j)
      rwa [hk j] at this
    · intro h i
      obtain ⟨j, rfl⟩ := hσ i
      rw [hk j]
      exact h j
  have hg : pt (σ j) g = pt j g' := (Prod.mk.inj (hp j)).1
  have hc4 : pt2 (σ j) (Batch.Distortional.c4 F g k) = pt2 j (Batch.Distortional.c4 (along2 σ F) g' k') := by
    classical
    rw [Distortional.c4_pt_if, Distortional.c4_pt_if, hF, hg, hk j]
    exact if_congr (not_congr hcond) rfl rfl
  rw [piolaElasticity_pt, piolaElasticity_pt, hd, hd, hc4, Distortional.st_pt, Distortional.st_pt, hF, hg,
    Option.map_some, Option.map_some, Distortional.ic_pt, Distortional.ic_pt, hF]

/-- The material with the energy `ε/2 C:C` is pointwise. -/
noncomputable def squarePointwise (ε : ℝ) : Pointwise Unit where
  attrs _ := Unit
  batch ι := squareBatch ε ι
  attrs1 := Unit
  new1 := ()
  single := squareMat ε
  agrees _ i := squareBatch_agrees ε i _

/-- All the points are needed in `C88_distortional_hessian`: for the energy `ε/2 C:C` with
`ε = 2e-9` and the points `I` and `I/4`, selecting the first point alone changes its elasticity. -/
theorem C88_all_points_needed : ¬ SpaceObj.HessAlong (fun _ : Unit => true)
    (Batch.Distortional.obj {} ((squarePointwise (2 / 10 ^ 9)).batch Bool))
    (Batch.Distortional.obj {} ((squarePointwise (2 / 10 ^ 9)).batch Unit)) := by
  intro h
  have h1 := h twoPoints (fun _ => ()) { material := () } { material := () }
  have h2 := C39_distortional_hessian_one {} () (fun z : Unit → Unit => z ()) _ _
    ((squarePointwise (2 / 10 ^ 9)).agrees Unit ()) (along2 (fun _ => true) twoPoints) (fun _ => ())
    { material := () } { material := () }
  refine square_depends (fun _ : Bool => ()) { material := () } { material := () } (Eq.trans ?_ h2)
  have h3 := congrArg (Except.map (Elasticity.at ())) h1
  refine Eq.trans ?_ h3.symm
  have gen : ∀ r : Res (Batch.Elasticity Bool), r.map (Elasticity.at true) =
      (r.map (Elasticity.along fun _ : Unit => true)).map (Elasticity.at ()) := by
    intro r
    rcases r with e | x
    · rfl
    · rcases x with x | x <;> rfl
  exact gen _

/-- The shipped materials: reversing a batch of three points, with an Ogden material. -/
example (lapack : Eigh) (m : Ogden) (F : Full2 (Arr (Fin 3))) (s t) :
    ((Batch.Distortional.obj {} ((ogdenPointwise Unit lapack m).batch (Fin 3))).hessian
      (along2 Fin.rev F) (fun _ => ()) t).1 =
    ((Batch.Distortional.obj {} ((ogdenPointwise Unit lapack m).batch (Fin 3))).hessian F (fun _ => ()) s).1.map
      (Elasticity.along Fin.rev) :=
  C88_distortional_hessian {} (ogdenPointwise Unit lapack m) Fin.rev Fin.rev_surjective F (fun _ => ()) s t

end Props
