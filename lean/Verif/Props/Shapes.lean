import Verif.Proofs.ShapesGenInv
import Verif.Spec.ShapesApi

/-!
# C38: output shapes and broadcasting

`F` has the shape `(3, 3) + t`.  All statements are for every list `t` of trailing axes.
-/

namespace Props

open Hel.Sh Spec
open Hel (SpaceCfg TOD InvGrad InvHess)

variable {t u v : Shape}

theorem invOk_of_spec {m : InvModel} {g : InvGrad Shape Unit} {h : InvHess Shape}
    (hm : InvModelShapes m t g h) (hn : NeededGiven g h) : InvOk m t g h where
  gradient := hm.gradient
  hessian := hm.hessian
  g1 s hs := fits_spec.2 (hm.first s (by simp [hs]))
  g2 s hs := fits_spec.2 (hm.first s (by simp [hs]))
  g3 s hs := fits_spec.2 (hm.first s (by simp [hs]))
  h11 s hs := fits_spec.2 (hm.second s (by simp [hs]))
  h22 s hs := fits_spec.2 (hm.second s (by simp [hs]))
  h12 s hs := fits_spec.2 (hm.second s (by simp [hs]))
  h23 s hs := fits_spec.2 (hm.second s (by simp [hs]))
  h13 s hs := fits_spec.2 (hm.second s (by simp [hs]))
  b11 := hn.1
  b22 := hn.2.1
  b33 := hn.2.2.1
  b12 := hn.2.2.2.1
  b23 := hn.2.2.2.2.1
  b13 := hn.2.2.2.2.2

theorem prod_ne_zero (ht : NonEmptyBatch t) : t.prod ≠ 0 := by
  intro h
  rw [List.prod_eq_zero_iff] at h
  exact ht 0 h rfl

/-- **C38** (gradient, invariants framework).  For every shape of the batch - also an empty
one - and every well-formed model, whether its derivatives are constants or arrays, the
stress has the shape `(3, 3) + t` in the deformation space with forces in the deformed
configuration (`force=None`) and in the other two spaces in every configuration.
Missing: the deformation space with `force=0`, see `C38_reference_force_false`. -/
theorem C38_gradient_partial {m : InvModel} {g : InvGrad Shape Unit} {h : InvHess Shape}
    (hm : InvModelShapes m t g h) (cfg : SpaceCfg) (hfin : cfg.finalize = true) :
    (cfg.force = none →
      Deformation.gradient cfg (Invariants.mat m) (3 :: 3 :: t) = .ok (3 :: 3 :: t)) ∧
    Distortional.gradient cfg (Invariants.mat m) (3 :: 3 :: t) = .ok (3 :: 3 :: t) ∧
    Dilatational.gradient cfg (Invariants.mat m) (3 :: 3 :: t) = .ok (3 :: 3 :: t) := by
  obtain ⟨r, u, hr, hd, hu, -⟩ := inv_run hm.gradient
    (fun s hs => fits_spec.2 (hm.first s (by simp [hs])))
    (fun s hs => fits_spec.2 (hm.first s (by simp [hs])))
    (fun s hs => fits_spec.2 (hm.first s (by simp [hs])))
  have hg : (Invariants.mat m).gradient (6 :: t) = .ok (6 :: u) := by
    simp only [Invariants.mat, hr, ok_bind, hd]
  refine ⟨fun hf => ?_, ?_, ?_⟩
  · unfold Deformation.gradient
    rw [def_gradientS hg (piolaStress_force cfg hfin hf hu (by simp)), ok_bind]
  · unfold Distortional.gradient
    rw [dist_run hfin hg hu, ok_bind]
  · unfold Dilatational.gradient
    rw [dil_run hfin hg hu, ok_bind]

/-- **C38** (hessian, invariants framework).  For every non-empty batch and every well-formed
model which gives the needed first derivatives, the elasticity tensor has the shape
`(3, 3, 3, 3) + t`.
Missing: the deformation space with `force=0` and empty batches, see
`C38_reference_force_false` and `C38_empty_batch_false`. -/
theorem C38_hessian_partial {m : InvModel} {g : InvGrad Shape Unit} {h : InvHess Shape}
    (hm : InvModelShapes m t g h) (hn : NeededGiven g h) (ht : NonEmptyBatch t)
    (cfg : SpaceCfg) (hfin : cfg.finalize = true) (small : Bool) :
    (cfg.force = none →
      Deformation.hessian cfg (Invariants.mat m) (3 :: 3 :: t) = .ok (3 :: 3 :: 3 :: 3 :: t)) ∧
    Distortional.hessian cfg (Invariants.mat m) small (3 :: 3 :: t) = .ok (3 :: 3 :: 3 :: 3 :: t) ∧
    Dilatational.hessian cfg (Invariants.mat m) (3 :: 3 :: t) = .ok (3 :: 3 :: 3 :: 3 :: t) := by
  have ht' := prod_ne_zero ht
  obtain ⟨u, v, h⟩ := inv_matOk (invOk_of_spec hm hn) ht'
  refine ⟨fun hf => ?_, dist_hessian hfin h ht' small, dil_hessian hfin h ht'⟩
  rw [def_hessian_eq h.gradient h.hessian (piolaStress_force cfg hfin hf h.subG (by simp))]
  exact piolaElasticity_force cfg hfin hf h.subG h.subH (prod_ne_zero_of_sub h.subG ht') (by simp)

/-- ... and otherwise the hessian raises, in every space and configuration: `hessian` returns exactly
if the needed derivatives are given. -/
theorem C38_returns {m : InvModel} {g : InvGrad Shape Unit} {h : InvHess Shape}
    (hm : InvModelShapes m t g h) (ht : NonEmptyBatch t) (cfg : SpaceCfg) (hfin : cfg.finalize = true)
    (small : Bool) :
    ((∃ H, Deformation.hessian { cfg with force := none } (Invariants.mat m) (3 :: 3 :: t) = .ok H) ↔ NeededGiven g h) ∧
    ((∃ H, Distortional.hessian cfg (Invariants.mat m) small (3 :: 3 :: t) = .ok H) ↔ NeededGiven g h) ∧
    ((∃ H, Dilatational.hessian cfg (Invariants.mat m) (3 :: 3 :: t) = .ok H) ↔ NeededGiven g h) := by
  have g1 : ∀ s, g.d1 = some s → Fits s t := fun s hs => fits_spec.2 (hm.first s (by simp [hs]))
  have g2 : ∀ s, g.d2 = some s → Fits s t := fun s hs => fits_spec.2 (hm.first s (by simp [hs]))
  have g3 : ∀ s, g.d3 = some s → Fits s t := fun s hs => fits_spec.2 (hm.first s (by simp [hs]))
  have key : ∀ {M : Shape}, (Invariants.mat m).hessian (6 :: t) = .ok M → NeededGiven g h :=
    fun hM => inv_hessian_needs hm.gradient hm.hessian g1 g2 g3 hM
  obtain ⟨r, u, hr, hd, hu, -⟩ := inv_run hm.gradient g1 g2 g3
  have hg : (Invariants.mat m).gradient (6 :: t) = .ok (6 :: u) := by
    simp only [Invariants.mat, hr, ok_bind, hd]
  refine ⟨⟨fun ⟨H, hH⟩ => ?_, fun hn => ⟨_, (C38_hessian_partial hm hn ht { cfg with force := none } hfin small).1 rfl⟩⟩,
    ⟨fun ⟨H, hH⟩ => ?_, fun hn => ⟨_, (C38_hessian_partial hm hn ht cfg hfin small).2.1⟩⟩,
    ⟨fun ⟨H, hH⟩ => ?_, fun hn => ⟨_, (C38_hessian_partial hm hn ht cfg hfin small).2.2⟩⟩⟩
  · unfold Deformation.hessian at hH
    rw [def_gradientS hg (piolaStress_force { cfg with force := none } hfin rfl hu (by simp)), ok_bind, rcg_ok,
      ok_bind] at hH
    obtain ⟨M, hM, -⟩ := bind_eq_ok hH
    exact key hM
  · unfold Distortional.hessian at hH
    rw [dist_run hfin hg hu, ok_bind] at hH
    obtain ⟨M, hM, -⟩ := bind_eq_ok hH
    exact key hM
  · unfold Dilatational.hessian at hH
    rw [dil_run hfin hg hu, ok_bind] at hH
    obtain ⟨M, hM, -⟩ := bind_eq_ok hH
    exact key hM

/-- A model with `W = I3 ** 2` that returns `None` for the other derivatives raises. -/
example : ¬ ∃ H, Distortional.hessian {} (Invariants.mat ⟨fun _ _ s => .ok ⟨none, none, some s, ()⟩,
      fun _ _ _ => .ok ⟨none, none, some [], none, none, none⟩⟩) true [3, 3, 8] = .ok H := by
  rw [(C38_returns (t := [8]) (g := ⟨none, none, some [8], ()⟩) (h := ⟨none, none, some [], none, none, none⟩)
    ⟨rfl, rfl, by rintro s hs; simp at hs; subst hs; exact fits_spec.1 (fits_self _),
      by rintro s hs; simp at hs; subst hs; exact fits_spec.1 (fits_nil _)⟩
    (by simp [NonEmptyBatch]) {} rfl true).2.1]
  intro h
  exact (h.2.2.1 (by simp)).1 rfl

/-- The third-order-deformation model is well-formed, for all its coefficients. -/
theorem todShapes (m : TOD ℝ) (t : Shape) :
    ∃ g h, InvModelShapes (tod m) t g h ∧ NeededGiven g h ∧ g.d3 = none := by
  obtain ⟨g, h, H, h3, h33⟩ := tod_ok m t
  refine ⟨g, h, ⟨H.gradient, H.hessian, ?_, ?_⟩, ⟨H.b11, H.b22, H.b33, H.b12, H.b23, H.b13⟩, h3⟩
  · intro s hs
    rw [← fits_spec]
    simp only [List.mem_cons, List.not_mem_nil, or_false] at hs
    rcases hs with hs | hs | hs
    · exact H.g1 s hs.symm
    · exact H.g2 s hs.symm
    · exact H.g3 s hs.symm
  · intro s hs
    rw [← fits_spec]
    simp only [List.mem_cons, List.not_mem_nil, or_false] at hs
    rcases hs with hs | hs | hs | hs | hs | hs
    · exact H.h11 s hs.symm
    · exact H.h22 s hs.symm
    · rw [h33] at hs; cases hs
    · exact H.h12 s hs.symm
    · exact H.h23 s hs.symm
    · exact H.h13 s hs.symm

/-- **C38** for the third-order-deformation model, in the three spaces: no hypothesis on the
coefficients. -/
theorem C38_third_order_partial (m : TOD ℝ) (t : Shape) (ht : NonEmptyBatch t) (cfg : SpaceCfg)
    (hfin : cfg.finalize = true) (small : Bool) :
    (cfg.force = none →
      Deformation.gradient cfg (Invariants.mat (tod m)) (3 :: 3 :: t) = .ok (3 :: 3 :: t) ∧
      Deformation.hessian cfg (Invariants.mat (tod m)) (3 :: 3 :: t) = .ok (3 :: 3 :: 3 :: 3 :: t)) ∧
    Distortional.gradient cfg (Invariants.mat (tod m)) (3 :: 3 :: t) = .ok (3 :: 3 :: t) ∧
    Distortional.hessian cfg (Invariants.mat (tod m)) small (3 :: 3 :: t) = .ok (3 :: 3 :: 3 :: 3 :: t) ∧
    Dilatational.gradient cfg (Invariants.mat (tod m)) (3 :: 3 :: t) = .ok (3 :: 3 :: t) ∧
    Dilatational.hessian cfg (Invariants.mat (tod m)) (3 :: 3 :: t) = .ok (3 :: 3 :: 3 :: 3 :: t) := by
  obtain ⟨g, h, hm, hn, -⟩ := todShapes m t
  have h1 := C38_gradient_partial hm cfg hfin
  have h2 := C38_hessian_partial hm hn ht cfg hfin small
  exact ⟨fun hf => ⟨h1.1 hf, h2.1 hf⟩, h1.2.1, h2.2.1, h1.2.2, h2.2.2⟩

example : Deformation.gradient {} (Invariants.mat (tod (TOD.init 1 0 0 0 0 false))) [3, 3, 8, 100]
    = .ok [3, 3, 8, 100] :=
  ((C38_third_order_partial _ [8, 100] (by simp [NonEmptyBatch]) {} rfl true).1 rfl).1

/-- **C38** for the stretches framework: every well-formed model, every space and every
configuration. -/
theorem C38_stretches {m : StrModel} (hm : StrModelShapes m t) (ht : NonEmptyBatch t)
    (cfg : SpaceCfg) (hfin : cfg.finalize = true) (small : Bool) :
    (Deformation.gradient cfg (Stretches.mat m) (3 :: 3 :: t) = .ok (3 :: 3 :: t) ∧
      Deformation.hessian cfg (Stretches.mat m) (3 :: 3 :: t) = .ok (3 :: 3 :: 3 :: 3 :: t)) ∧
    (Distortional.gradient cfg (Stretches.mat m) (3 :: 3 :: t) = .ok (3 :: 3 :: t) ∧
      Distortional.hessian cfg (Stretches.mat m) small (3 :: 3 :: t) =
        .ok (3 :: 3 :: 3 :: 3 :: t)) ∧
    (Dilatational.gradient cfg (Stretches.mat m) (3 :: 3 :: t) = .ok (3 :: 3 :: t) ∧
      Dilatational.hessian cfg (Stretches.mat m) (3 :: 3 :: t) = .ok (3 :: 3 :: 3 :: 3 :: t)) := by
  have ht' := prod_ne_zero ht
  have hm' : StrOk m t := by
    refine ⟨?_, ?_⟩
    · obtain ⟨s, hs, hf⟩ := hm.gradient
      exact ⟨s, hs, fits_spec.2 hf⟩
    · rcases hm.hessian with ⟨s, hs, hf⟩ | ⟨l, hl, hf⟩
      · exact Or.inl ⟨s, hs, fits_spec.2 hf⟩
      · exact Or.inr ⟨l, hl, fun a s h => fits_spec.2 (hf a s h)⟩
  have h := str_matOk hm' ht'
  have hp : piolaStress cfg (3 :: 3 :: t) (6 :: t) none = .ok (3 :: 3 :: t) :=
    piolaStress_full cfg hfin (by simp)
  refine ⟨⟨?_, ?_⟩, ⟨?_, dist_hessian hfin h ht' small⟩, ⟨?_, dil_hessian hfin h ht'⟩⟩
  · unfold Deformation.gradient
    rw [def_gradientS h.gradient hp, ok_bind]
  · rw [def_hessian_eq h.gradient h.hessian hp]
    exact piolaElasticity_full cfg hfin (Sub.refl t) ht' (by simp) (by simp)
  · unfold Distortional.gradient
    rw [dist_run hfin h.gradient h.subG, ok_bind]
  · unfold Dilatational.gradient
    rw [dil_run hfin h.gradient h.subG, ok_bind]

/-- The Ogden model with any number of terms is well-formed. -/
theorem ogdenShapes (n : ℕ) (t : Shape) : StrModelShapes (ogden n) t := by
  obtain ⟨⟨s, hs, hf⟩, h⟩ := ogden_ok n t
  refine ⟨⟨s, hs, fits_spec.1 hf⟩, ?_⟩
  rcases h with ⟨s, hs, hf⟩ | ⟨l, hl, hf⟩
  · exact Or.inl ⟨s, hs, fits_spec.1 hf⟩
  · exact Or.inr ⟨l, hl, fun a s h => fits_spec.1 (hf a s h)⟩

/-- **C38** for the Ogden model with any number of terms, in every space and configuration. -/
theorem C38_ogden (n : ℕ) (t : Shape) (ht : NonEmptyBatch t) (cfg : SpaceCfg) (hfin : cfg.finalize = true)
    (small : Bool) :
    (Deformation.gradient cfg (Stretches.mat (ogden n)) (3 :: 3 :: t) = .ok (3 :: 3 :: t) ∧
      Deformation.hessian cfg (Stretches.mat (ogden n)) (3 :: 3 :: t) = .ok (3 :: 3 :: 3 :: 3 :: t)) ∧
    (Distortional.gradient cfg (Stretches.mat (ogden n)) (3 :: 3 :: t) = .ok (3 :: 3 :: t) ∧
      Distortional.hessian cfg (Stretches.mat (ogden n)) small (3 :: 3 :: t) =
        .ok (3 :: 3 :: 3 :: 3 :: t)) ∧
    (Dilatational.gradient cfg (Stretches.mat (ogden n)) (3 :: 3 :: t) = .ok (3 :: 3 :: t) ∧
      Dilatational.hessian cfg (Stretches.mat (ogden n)) (3 :: 3 :: t) = .ok (3 :: 3 :: 3 :: 3 :: t)) :=
  C38_stretches (ogdenShapes n t) ht cfg hfin small

example : Deformation.hessian { force := some 0, area := none } (Stretches.mat (ogden 3)) [3, 3, 8]
    = .ok [3, 3, 3, 3, 8] :=
  (C38_stretches (ogdenShapes 3 [8]) (by simp [NonEmptyBatch]) _ rfl true).1.2

/-- **C38** for the generalized-invariants framework: models that do not depend on the third
invariant are well-formed models in principal stretches (so `C38_stretches` applies), at every
trailing shape.  Missing: models with a third invariant, see `C38_generalized_false`. -/
theorem C38_generalized_partial {m : InvModel} {g : InvGrad Shape Unit} {h : InvHess Shape}
    (hm : InvModelShapes m t g h) (h3 : g.d3 = none) : StrModelShapes (GenInv.model m) t := by
  have f1 : ∀ s, g.d1 = some s → Fits s t := fun s hs => fits_spec.2 (hm.first s (by simp [hs]))
  have f2 : ∀ s, g.d2 = some s → Fits s t := fun s hs => fits_spec.2 (hm.first s (by simp [hs]))
  refine ⟨⟨3 :: t, ?_, fits_spec.1 (fits_self _)⟩, Or.inl ⟨6 :: t, ?_, fits_spec.1 (fits_self _)⟩⟩
  · simp only [GenInv.model, gen_run hm.gradient f1 f2 (by simp [h3]), ok_bind]
  · exact gen_hessian_ok hm.gradient hm.hessian f1 f2 h3
      (fun s hs => fits_spec.2 (hm.second s hs))

example (m : TOD ℝ) : Deformation.hessian { force := some 0 } (Stretches.mat (GenInv.model (tod m)))
    [3, 3, 8, 4] = .ok [3, 3, 3, 3, 8, 4] := by
  obtain ⟨g', h', hm, -, h3⟩ := todShapes m [8, 4]
  exact (C38_stretches (C38_generalized_partial hm h3) (by simp [NonEmptyBatch]) _ rfl true).1.2

/-! ### Where the property fails -/

/-- **C38 is false** for the generalized-invariants framework with a model that depends on the
third invariant: with trailing axes whose last one is not of length three, the hessian raises
`ValueError` in the deformation space in every configuration (the literal list `[2, 0, 1]`); with a last axis
of length three it is added along the wrong axis, see C14. -/
theorem C38_generalized_false {m : InvModel} {g : InvGrad Shape Unit} {h : InvHess Shape}
    (hm : InvModelShapes m t g h) (h3 : g.d3 ≠ none) (ht : t ≠ []) (hl : t.getLast? ≠ some 3)
    (cfg : SpaceCfg) (hfin : cfg.finalize = true) :
    Deformation.gradient cfg (Stretches.mat (GenInv.model m)) (3 :: 3 :: t) = .ok (3 :: 3 :: t) ∧
    Deformation.hessian cfg (Stretches.mat (GenInv.model m)) (3 :: 3 :: t) = .error .valueError := by
  have f1 : ∀ s, g.d1 = some s → Fits s t := fun s hs => fits_spec.2 (hm.first s (by simp [hs]))
  have f2 : ∀ s, g.d2 = some s → Fits s t := fun s hs => fits_spec.2 (hm.first s (by simp [hs]))
  have f3 : ∀ s, g.d3 = some s → Fits s t := fun s hs => fits_spec.2 (hm.first s (by simp [hs]))
  have hr := str_run (t := t) (m := GenInv.model m)
    ⟨3 :: t, by simp only [GenInv.model, gen_run hm.gradient f1 f2 f3, ok_bind], fits_self _⟩
  have hg : (Stretches.mat (GenInv.model m)).gradient (6 :: t) = .ok (6 :: t) := by
    simp only [Stretches.mat, hr, ok_bind]
  have hp : piolaStress cfg (3 :: 3 :: t) (6 :: t) none = .ok (3 :: 3 :: t) :=
    piolaStress_full cfg hfin (by simp)
  have hh : (Stretches.mat (GenInv.model m)).hessian (6 :: t) = .error .valueError := by
    have : (GenInv.model m).hessian (3 :: t) = .error .valueError :=
      gen_hessian_error hm.gradient hm.hessian f1 f2 f3 h3
        (fun s hs => fits_spec.2 (hm.second s hs)) ht hl
    simp only [Stretches.mat, Stretches.hessian, hr, ok_bind, this, error_bind]
  refine ⟨?_, ?_⟩
  · unfold Deformation.gradient
    rw [def_gradientS hg hp, ok_bind]
  · unfold Deformation.hessian
    rw [def_gradientS hg hp, ok_bind, rcg_ok, ok_bind, hh, error_bind]

/-- The energy `I3` meets the hypotheses: `dWdI3 = ones_like(I3)`. -/
example : Deformation.hessian {} (Stretches.mat (GenInv.model
    ⟨fun _ _ s => .ok ⟨none, none, some s, ()⟩,
      fun _ _ _ => .ok ⟨none, none, none, none, none, none⟩⟩)) [3, 3, 8] = .error .valueError :=
  (C38_generalized_false (t := [8]) (g := ⟨none, none, some [8], ()⟩)
    (h := ⟨none, none, none, none, none, none⟩)
    ⟨rfl, rfl, by rintro s hs; simp at hs; subst hs; exact fits_spec.1 (fits_self _), by simp⟩ (by simp) (by simp) (by simp) {} rfl).2

/-- The Neo-Hookean model: `dWdI1` is a number, everything else `None`. -/
theorem neoHooke_gradient {c : ℝ} (hc : c ≠ 0) (t : Shape) :
    (Invariants.mat (tod (TOD.init c 0 0 0 0 false))).gradient (6 :: t) =
      .ok (6 :: t.map fun _ => 1) := by
  have e : ∀ x : Shape, bcast [] x = .ok x := bcast_nil
  have hg : (tod (TOD.init c 0 0 0 0 false)).gradient t t t = .ok ⟨some [], none, none, ()⟩ := by
    simp [tod, TOD.init, hc, addIf, addTo, e, ok_bind]
  simp only [Invariants.mat, Invariants.run, show trace (6 :: t) = .ok t from rfl, ok_bind,
    ddot_ok (fits_self t), bcast_self, show det (6 :: t) = .ok t from rfl, hg, ifGiven, addTerm,
    bound, e, eye_eq, List.drop_succ_cons, List.drop_zero]

theorem neoHooke_hessian {c : ℝ} (hc : c ≠ 0) (t : Shape) :
    (Invariants.mat (tod (TOD.init c 0 0 0 0 false))).hessian (6 :: t) =
      .ok (6 :: 6 :: t.map fun _ => 1) := by
  have e : ∀ x : Shape, bcast [] x = .ok x := bcast_nil
  have hg : (tod (TOD.init c 0 0 0 0 false)).gradient t t t = .ok ⟨some [], none, none, ()⟩ := by
    simp [tod, TOD.init, hc, addIf, addTo, e, ok_bind]
  have hh : (tod (TOD.init c 0 0 0 0 false)).hessian t t t =
      .ok ⟨none, none, none, none, none, none⟩ := by
    simp [tod, TOD.init]
  simp only [Invariants.mat, Invariants.hessian, Invariants.run, show trace (6 :: t) = .ok t from rfl,
    ok_bind, ddot_ok (fits_self t), bcast_self, show det (6 :: t) = .ok t from rfl, hg, hh, ifGiven,
    addTerm, bound, e, eye_eq, List.drop_succ_cons, List.drop_zero, thirdTerm]

/-- **C38 is false** for the deformation space with forces in the undeformed configuration
(`force=0`) and the Neo-Hookean model, for *every* batch that is not `(1, ..., 1)`: the
second Piola-Kirchhoff stress is returned with trailing axes of length one, and the stress
with the area vector in the deformed configuration as well as the elasticity tensor raise
`ValueError`. -/
theorem C38_reference_force_false {c : ℝ} (hc : c ≠ 0) (t : Shape) (ht : Proper t) (f : ℤ) :
    let m := Invariants.mat (tod (TOD.init c 0 0 0 0 false))
    Deformation.gradient { force := some f } m (3 :: 3 :: t) = .ok (3 :: 3 :: t.map fun _ => 1) ∧
    (3 :: 3 :: t.map fun _ => 1) ≠ 3 :: 3 :: t ∧
    Deformation.gradient { force := some f, area := none } m (3 :: 3 :: t) = .error .valueError ∧
    Deformation.hessian { force := some f } m (3 :: 3 :: t) = .error .valueError := by
  have hne : (t.map fun _ => 1) ≠ t := by
    obtain ⟨n, hn, h1⟩ := ht
    intro h
    rw [← h] at hn
    simp only [List.mem_map] at hn
    obtain ⟨_, _, rfl⟩ := hn
    exact h1 rfl
  have hg := neoHooke_gradient hc t
  have hh := neoHooke_hessian hc t
  have hp := piolaStress_reference (t := t) (u := t.map fun _ => 1) { force := some f } rfl rfl rfl
  refine ⟨?_, ?_, ?_, ?_⟩
  · unfold Deformation.gradient
    rw [def_gradientS hg hp, ok_bind]
  · simpa using hne
  · unfold Deformation.gradient
    rw [def_gradientS_error hg (piolaStress_reference_area _ rfl rfl rfl (Sub.ones t) hne),
      error_bind]
  · rw [def_hessian_eq hg hh hp]
    exact piolaElasticity_reference _ rfl rfl (Sub.ones t) (Sub.ones t) hne

example : Proper [8] := ⟨8, by simp, by simp⟩

/-- **C38 is false** for empty batches: with an axis of length zero the hessian of the
distortional and the dilatational space raises `ValueError` for every well-formed model,
although the gradient returns an (empty) array of the expected shape. -/
theorem C38_empty_batch_false {m : InvModel} {g : InvGrad Shape Unit} {h : InvHess Shape}
    (hm : InvModelShapes m t g h) (ht : 0 ∈ t) (cfg : SpaceCfg) (hfin : cfg.finalize = true)
    (small : Bool)
    (hH : ∃ v, (Invariants.mat m).hessian (6 :: t) = .ok (6 :: 6 :: v) ∧ Sub t v) :
    Distortional.gradient cfg (Invariants.mat m) (3 :: 3 :: t) = .ok (3 :: 3 :: t) ∧
    Distortional.hessian cfg (Invariants.mat m) small (3 :: 3 :: t) = .error .valueError ∧
    Dilatational.hessian cfg (Invariants.mat m) (3 :: 3 :: t) = .error .valueError := by
  have ht0 : t.prod = 0 := List.prod_eq_zero_iff.2 ht
  obtain ⟨r, u, hr, hd, hu, -⟩ := inv_run hm.gradient
    (fun s hs => fits_spec.2 (hm.first s (by simp [hs])))
    (fun s hs => fits_spec.2 (hm.first s (by simp [hs])))
    (fun s hs => fits_spec.2 (hm.first s (by simp [hs])))
  have hg : (Invariants.mat m).gradient (6 :: t) = .ok (6 :: u) := by
    simp only [Invariants.mat, hr, ok_bind, hd]
  obtain ⟨v, hv, hv'⟩ := hH
  have e2 : bcast t (6 :: 6 :: v) = .ok (6 :: 6 :: t) :=
    bcast_lead [6, 6] (by rw [hv'.2]) (fits_right hv'.1)
  have e3 : dya (6 :: t) (6 :: t) = .error .valueError := by
    simp [dya, reshapeDya, ht0, bind, Except.bind]
  have e4 : cdya (6 :: t) (6 :: t) = .ok (6 :: 6 :: t) := cdya_ok rfl (bcast_self t)
  have e5 : cdya (eye (6 :: t)) (eye (6 :: t)) = .ok (6 :: 6 :: t.map fun _ => 1) :=
    cdya_ok rfl (bcast_self _)
  have e6 : ddot24 (eye (6 :: t)) (6 :: 6 :: t) = .ok (6 :: t) := ddot24_ok (fits_ones t)
  have e7 : ddot (6 :: t) (eye (6 :: t)) = .ok t := ddot_ok' (fits_right (fits_ones t))
  refine ⟨(C38_gradient_partial hm cfg hfin).2.1, ?_, ?_⟩
  · unfold Distortional.hessian
    simp only [dist_run hfin hg hu, ok_bind, hv, e2, e5, e3, error_bind]
  · unfold Dilatational.hessian
    simp only [dil_run hfin hg hu, ok_bind, hv, e2, e6, e7, e4, bcast_self, e3, error_bind]

/-- The hypotheses are met by the Neo-Hookean model and an empty batch. -/
example {c : ℝ} (hc : c ≠ 0) : Distortional.hessian {}
    (Invariants.mat (tod (TOD.init c 0 0 0 0 false))) true [3, 3, 0] = .error .valueError := by
  obtain ⟨g, h, hm, -⟩ := todShapes (TOD.init c 0 0 0 0 false) [0]
  exact (C38_empty_batch_false hm (by simp) {} rfl true
    ⟨_, neoHooke_hessian hc [0], Sub.ones [0]⟩).2.1

end Props
