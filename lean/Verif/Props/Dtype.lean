import Verif.Proofs.DtypeInv
import Verif.Proofs.DtypeSplit
import Verif.Model.Lab
import Verif.Model.Stretches
import Verif.Props.RoundingSpace

/-!
# Integer arrays (C67, C68)

C67: integers as input give the result for the same numbers in floating point.  This holds for the
deformation space as long as nothing overflows (entries up to 19 in absolute value never do), for
all configurations of the stress, and for the elasticity tensor with `force=None`.  It fails for the
elasticity tensor with `force=0` (`TypeError`) and, silently, when `FᵀF` overflows.

C68: where a float cannot be stored in an integer array, `TypeError` is raised; nothing is silently
truncated.  This is always the case in the distortional and dilatational spaces.
-/

namespace Props
open Hel Hel.Dt Hel.Spec.Dtype

variable {Z μ σ ι : Type}

/-- Two calls have the same outcome: the same exception, or corresponding results. -/
def SameOutcome {α β : Type} (f : α → β) (r : Res β) (q : Res α) : Prop := r = q.map f

/-- The stress and the state variables with the stress as `float64` array. -/
noncomputable def fltResult (r : Stress × Z) : StressT × Z := (fltStress r.1, r.2)

/-! ### floats: the models with and without dtypes agree -/

/-- On `float64` arrays the model with dtypes is the model of the other files, for every material
which returns floats, in all three spaces. -/
theorem C67_float_arrays (cfg : SpaceCfg) (mat : Material ℝ Z μ) (F : Full2 ℝ) (z : Z) :
    (∀ s : DefSt μ,
      SameOutcome fltResult (defGradient cfg (floatMaterial mat) (fltArr F) z s.material).1
        (Deformation.gradient cfg mat F z s).1 ∧
      SameOutcome fltElasticity (defHessian cfg (floatMaterial mat) (fltArr F) z s.material).1
        (Deformation.hessian cfg mat F z s).1) ∧
    (∀ s : DistSt μ,
      SameOutcome fltResult (distGradient cfg (floatMaterial mat) (fltArr F) z s.material).1
        (Distortional.gradient cfg mat F z s).1 ∧
      SameOutcome fltElasticity (distHessian cfg (floatMaterial mat) (fltArr F) z s.material).1
        (Distortional.hessian cfg mat F z s).1) ∧
    (∀ s : DilSt μ,
      SameOutcome fltResult (dilGradient cfg (floatMaterial mat) (fltArr F) z s.material).1
        (Dilatational.gradient cfg mat F z s).1 ∧
      SameOutcome fltElasticity (dilHessian cfg (floatMaterial mat) (fltArr F) z s.material).1
        (Dilatational.hessian cfg mat F z s).1) := by
  have hd : (Dt.det (Dt.rightCauchyGreen (fltArr F))).val () = Hel.det (Hel.rightCauchyGreen F) := by
    unfold fltArr; rw [rcg_f64, det_f64]; rfl
  have ha : Agree Eq (floatMaterial mat) mat (Dt.rightCauchyGreen (fltArr F)) (Hel.rightCauchyGreen F) := by
    unfold fltArr
    rw [rcg_f64]
    exact float_agree mat _
  refine ⟨fun s => ⟨?_, ?_⟩, fun s => ⟨?_, ?_⟩, fun s => ⟨?_, ?_⟩⟩
  · exact (defGradient_same cfg (fltArr F) F rfl ha (fun _ _ => hd) z s.material s rfl).1
  · exact (defHessian_same cfg (fltArr F) F rfl ha (fun _ => .inr rfl) (fun _ _ => hd) z s.material s rfl).1
  · exact (distGradient_f64 cfg F (float_agree mat _) z s.material s rfl).1
  · exact (distHessian_f64 cfg F (float_agree mat _) z s.material s rfl).1
  · exact (dilGradient_f64 cfg F (float_agree mat _) z s.material s rfl).1
  · exact (dilHessian_f64 cfg F (float_agree mat _) z s.material s rfl).1

/-- The same with `ThirdOrderDeformation` in the invariants framework. -/
theorem C67_float_arrays_tod (cfg : SpaceCfg) (c10 c01 c11 c20 c30 : ℝ) (strain : Bool) (F : Full2 ℝ) (z : Z) :
    let m := TOD.init c10 c01 c11 c20 c30 strain
    (∀ s : DefSt (InvSt ℝ Unit),
      SameOutcome fltResult (defGradient cfg (invMaterial (todMat m)) (fltArr F) z ()).1
        (Deformation.gradient cfg (Invariants.material m.mat) F z s).1 ∧
      SameOutcome fltElasticity (defHessian cfg (invMaterial (todMat m)) (fltArr F) z ()).1
        (Deformation.hessian cfg (Invariants.material m.mat) F z s).1) ∧
    (∀ s : DistSt (InvSt ℝ Unit),
      SameOutcome fltResult (distGradient cfg (invMaterial (todMat m)) (fltArr F) z ()).1
        (Distortional.gradient cfg (Invariants.material m.mat) F z s).1 ∧
      SameOutcome fltElasticity (distHessian cfg (invMaterial (todMat m)) (fltArr F) z ()).1
        (Distortional.hessian cfg (Invariants.material m.mat) F z s).1) ∧
    (∀ s : DilSt (InvSt ℝ Unit),
      SameOutcome fltResult (dilGradient cfg (invMaterial (todMat m)) (fltArr F) z ()).1
        (Dilatational.gradient cfg (Invariants.material m.mat) F z s).1 ∧
      SameOutcome fltElasticity (dilHessian cfg (invMaterial (todMat m)) (fltArr F) z ()).1
        (Dilatational.hessian cfg (Invariants.material m.mat) F z s).1) := by
  intro m
  have hd : (Dt.det (Dt.rightCauchyGreen (fltArr F))).val () = Hel.det (Hel.rightCauchyGreen F) := by
    unfold fltArr; rw [rcg_f64, det_f64]; rfl
  have ha := fun V => (tod_agree_f64 (Z := Z) c10 c01 c11 c20 c30 strain V).agree
  have hc : Dt.rightCauchyGreen (fltArr F) = .f64 (Hel.rightCauchyGreen F) := rcg_f64 F
  refine ⟨fun s => ⟨?_, ?_⟩, fun s => ⟨?_, ?_⟩, fun s => ⟨?_, ?_⟩⟩
  · exact (defGradient_same cfg (fltArr F) F rfl (hc ▸ ha _) (fun _ _ => hd) z () s rfl).1
  · exact (defHessian_same cfg (fltArr F) F rfl (hc ▸ ha _) (fun _ => .inr rfl) (fun _ _ => hd) z () s rfl).1
  · exact (distGradient_f64 cfg F (ha _) z () s rfl).1
  · exact (distHessian_f64 cfg F (ha _) z () s rfl).1
  · exact (dilGradient_f64 cfg F (ha _) z () s rfl).1
  · exact (dilHessian_f64 cfg F (ha _) z () s rfl).1

/-! ### integers -/

/-- C67, stress in the deformation space: an integer deformation gradient gives the result for the
same numbers as floats (or the same exception), if `FᵀF` does not overflow; for every material which
computes with floats, such as `Stretches`. -/
theorem C67_gradient (cfg : SpaceCfg) (mat : Material ℝ Z μ) (w : IntTy) (F : Fin 3 → Fin 3 → ℤ)
    (fit : KinematicsFit w cfg F) (z : Z) (s : DefSt μ) :
    SameOutcome fltResult (defGradient cfg (floatMaterial mat) (intArr w F) z s.material).1
      (Deformation.gradient cfg mat (real F) z s).1 := by
  have ha := float_agree mat (Dt.rightCauchyGreen (intArr w F))
  rw [rcg_val fit.cg] at ha
  exact (defGradient_same cfg (intArr w F) (real F) rfl ha
    (fun a b => det_val fit.cg (fit.det a b)) z s.material s rfl).1

/-- C67, elasticity tensor in the deformation space, unless `finalize=True` and `force=0`. -/
theorem C67_hessian_partial (cfg : SpaceCfg) (mat : Material ℝ Z μ) (w : IntTy) (F : Fin 3 → Fin 3 → ℤ)
    (fit : KinematicsFit w cfg F) (hf : cfg.finalize = true → cfg.force = none) (z : Z) (s : DefSt μ) :
    SameOutcome fltElasticity (defHessian cfg (floatMaterial mat) (intArr w F) z s.material).1
      (Deformation.hessian cfg mat (real F) z s).1 := by
  have ha := float_agree mat (Dt.rightCauchyGreen (intArr w F))
  rw [rcg_val fit.cg] at ha
  exact (defHessian_same cfg (intArr w F) (real F) rfl ha (fun h => .inl (hf h))
    (fun a b => det_val fit.cg (fit.det a b)) z s.material s rfl).1

/-- C67 with `ThirdOrderDeformation` in the invariants framework, where the invariants are integers
as well. -/
theorem C67_third_order_partial (cfg : SpaceCfg) (c10 c01 c11 c20 c30 : ℝ) (strain : Bool) (w : IntTy)
    (F : Fin 3 → Fin 3 → ℤ) (fit : KinematicsFit w cfg F) (fiti : InvariantsFit strain F) (z : Z)
    (s : DefSt (InvSt ℝ Unit)) :
    let m := TOD.init c10 c01 c11 c20 c30 strain
    SameOutcome fltResult (defGradient cfg (invMaterial (todMat m)) (intArr w F) z ()).1
      (Deformation.gradient cfg (Invariants.material m.mat) (real F) z s).1 ∧
    ((cfg.finalize = true → cfg.force = none) →
      SameOutcome fltElasticity (defHessian cfg (invMaterial (todMat m)) (intArr w F) z ()).1
        (Deformation.hessian cfg (Invariants.material m.mat) (real F) z s).1) := by
  intro m
  have ha := (tod_agree_int (Z := Z) c10 c01 c11 c20 c30 strain fit.cg fiti).agree
  exact ⟨(defGradient_same cfg (intArr w F) (real F) rfl ha
      (fun a b => det_val fit.cg (fit.det a b)) z () s rfl).1,
    fun hf => (defHessian_same cfg (intArr w F) (real F) rfl ha (fun h => .inl (hf h))
      (fun a b => det_val fit.cg (fit.det a b)) z () s rfl).1⟩

/-- No overflow for entries up to 19 in absolute value: with the default configuration both methods
return, and return floats: the first Piola-Kirchhoff stress and the elasticity tensor of the same
numbers. -/
theorem C67_small (c10 c01 c11 c20 c30 : ℝ) (strain : Bool) (w : IntTy) (F : Fin 3 → Fin 3 → ℤ)
    (h : ∀ i j, |F i j| ≤ 19) (z : Z) (s : DefSt (InvSt ℝ Unit)) :
    let m := TOD.init c10 c01 c11 c20 c30 strain
    (∃ P, Returns (Deformation.gradient {} (Invariants.material m.mat) (real F) z) s (.full P, z) ∧
      Returns (defGradient {} (invMaterial (todMat m)) (intArr w F) z) () (.full (fltArr P), z)) ∧
    ∃ A, Returns (Deformation.hessian {} (Invariants.material m.mat) (real F) z) s (.full A) ∧
      Returns (defHessian {} (invMaterial (todMat m)) (intArr w F) z) ()
        (.full (.f64 fun p => A p.1 p.2.1 p.2.2.1 p.2.2.2)) := by
  intro m
  obtain ⟨f1, f2⟩ := small_fits h w {} strain
  obtain ⟨h1, h2⟩ := C67_third_order_partial {} c10 c01 c11 c20 c30 strain w F f1 f2 z s
  obtain ⟨P, hP⟩ := tod_space_total .deformation m (real F) z s
  obtain ⟨A, hA⟩ := tod_def_hess_total m (real F) z s
  unfold SameOutcome at h1 h2
  refine ⟨⟨P, hP, ?_⟩, A, hA, ?_⟩
  · unfold Returns
    refine h1.trans ?_
    have hP' : (Deformation.gradient {} (Invariants.material m.mat) (real F) z s).1 = .ok (.full P, z) := hP
    rw [hP']; rfl
  · unfold Returns
    refine (h2 fun _ => rfl).trans ?_
    have hA' : (Deformation.hessian {} (Invariants.material m.mat) (real F) z s).1 = .ok (.full A) := hA
    rw [hA']; rfl

/-- The undeformed state of `np.eye(3, dtype=int)` and a simple shear are covered. -/
example : ∀ i j : Fin 3, |(![![1, 2, 0], ![0, 1, 0], ![0, 0, 1]] : Fin 3 → Fin 3 → ℤ) i j| ≤ 19 := by
  decide

/-- The hypotheses are met by a large array as well. -/
example : KinematicsFit .i64 {} (![![1000, 2, 0], ![0, 1000, 0], ![0, 0, 1000]]) ∧
    InvariantsFit false (![![1000, 2, 0], ![0, 1000, 0], ![0, 0, 1000]]) := by
  refine ⟨⟨?_, by simp⟩, ?_, ?_, ?_, ?_⟩
  · intro I J
    fin_cases I <;> fin_cases J <;> constructor <;> decide
  all_goals constructor <;> decide

/-- The full statement is false with `force=0`: the elasticity tensor is never returned for
integers, whatever the material. -/
theorem C67_reference_force_false (cfg : SpaceCfg) (hfin : cfg.finalize = true) (f : Int)
    (hf : cfg.force = some f) (mt : MaterialT Z μ) (w : IntTy) (F : Fin 3 → Fin 3 → ℤ) (z : Z) (s : μ)
    (A : ElasticityT) : ¬ Returns (defHessian cfg mt (intArr w F) z) s A := by
  have key : ∀ S c, Dt.piolaElasticity cfg (intArr w F) S none c none = .error .typeError := by
    intro S c
    unfold Dt.piolaElasticity forceElasticity
    rw [hf, hfin]
    simp only [if_true, intArr, rcg_int, inv_int, bind, Except.bind]
  unfold Returns defHessian
  simp only [PyM.bind_run, PyM.lift_run, key]
  intro h
  split at h
  · split at h
    · split at h <;> simp at h
    · simp at h
  · simp at h

/-- The full statement is false if `FᵀF` overflows: no exception, and the stress of other numbers. -/
theorem C67_overflow_false (z : Z) :
    ∃ (w : IntTy) (F : Fin 3 → Fin 3 → ℤ) (m : TOD ℝ) (P Q : Vec6 ℝ), (∀ i j, Fits w (F i j)) ∧
      (∀ s, Returns (Deformation.gradient { finalize := false } (Invariants.material m.mat) (real F) z) s
        (.voigt P, z)) ∧
      Returns (defGradient { finalize := false } (invMaterial (todMat m)) (intArr w F) z) ()
        (.voigt (.f64 Q), z) ∧ 0 < P 0 ∧ Q 0 < 0 := by
  let F : Fin 3 → Fin 3 → ℤ := ![![50000, 0, 0], ![0, 1, 0], ![0, 0, 1]]
  let m : TOD ℝ := TOD.init 0 0 0 1 0 false
  have hc : cgInt F = ![2500000000, 1, 1, 0, 0, 0] := by
    rw [cgInt_eq]; decide
  have hr : Dt.rightCauchyGreen (intArr .i32 F) = .int .i32 ![-1794967296, 1, 1, 0, 0, 0] := by
    unfold intArr
    rw [rcg_int, hc]
    congr 1
    funext a
    fin_cases a <;> decide
  have ht : Dt.trace (Dt.rightCauchyGreen (intArr .i32 F)) = .int .i64 fun _ => -1794967294 := by
    rw [hr]
    simp only [Dt.trace]
    congr 1
  have hm : m.C10 = 0 ∧ m.C01 = 0 ∧ m.C11 = 0 ∧ m.C20 = 1 ∧ m.C30 = 0 ∧ m.undeformed = 3 := by
    refine ⟨rfl, rfl, rfl, rfl, rfl, ?_⟩
    simp [m, TOD.init]
  obtain ⟨h1, h2, h3, h4, h5, h6⟩ := hm
  have ht' : Hel.trace (Hel.rightCauchyGreen (real F)) = 2500000002 := by
    rw [← trace_cast]
    have : traceInt F = 2500000002 := by decide
    rw [this]; norm_num
  refine ⟨.i32, F, m, fun a => 2 * (2 * (2500000002 - 3) * Hel.eye a),
    fun a => 2 * (2 * (-1794967294 - 3) * Hel.eye a), ?_, ?_, ?_, ?_, ?_⟩
  · intro i j; fin_cases i <;> fin_cases j <;> constructor <;> decide
  · intro s
    unfold Returns
    rw [Deformation.gradient_run]
    simp only [Invariants.material]
    rw [Invariants.gradient_run]
    simp only [TOD.mat, PyM.lift_run, TOD.gradient_eq, TOD.gradVal, h1, h2, h3, h4, h5, h6, ht',
      Invariants.gradPure]
    simp [Hel.piolaStress]
  · unfold Returns defGradient
    simp only [PyM.bind_run, invMaterial, invGradient, invGradientFull, todMat, PyM.lift_run, todGradient, h1, h2, h3,
      h4, h5, h6, ht]
    have hw : wrap .i64 (-1794967297) = -1794967297 := by decide
    simp [addI1, addI2, addI3, Dt.piolaStress, bind, Except.bind, Dt.addTo, NArr.subLit, NArr.floatMul, hw, eye_eq, bc_f64]
    funext a
    ring
  · norm_num [Hel.eye]
  · norm_num [Hel.eye]

/-! ### load cases -/

/-- The stacked arrays of a deformation gradient as one `float64` array of shape `(3, 3, ...)`. -/
def fltField (F : Full2 (Arr ι)) : NArr (Fin 3 × Fin 3 × ι) := .f64 fun p => F p.1 p.2.1 p.2.2

/-- C67, load cases: integer stretches give floats, the deformation gradients of the same numbers. -/
theorem C67_load_cases (w : IntTy) (stretch : ι → ℤ) :
    Dt.uniaxial (.int w stretch) = fltField (uniaxialDefgrad fun i => (stretch i : ℝ)) ∧
    ((∀ i, Fits w (stretch i ^ 2)) →
      Dt.biaxial (.int w stretch) = fltField (biaxialDefgrad fun i => (stretch i : ℝ))) ∧
    Dt.planar (.int w stretch) = fltField (planarDefgrad fun i => (stretch i : ℝ)) := by
  have aux : ∀ (A : Fin 3 → Fin 3 → NArr ι) (G : Full2 (Arr ι)) (i j : Fin 3) (v : ι → ℝ), A i j = .f64 v →
      (∀ i j, (A i j).val = G i j) → Dt.array33 A = fltField G := by
    intro A G i j v hv h
    unfold Dt.array33
    rw [common_f64 (v := v)]
    · change NArr.f64 _ = NArr.f64 _
      congr 1
      funext p
      exact congrFun (h p.1 p.2.1) p.2.2
    · rw [List.mem_flatMap]
      exact ⟨i, List.mem_finRange i, List.mem_map.2 ⟨j, List.mem_finRange j, hv⟩⟩
  refine ⟨?_, fun h => ?_, ?_⟩
  · unfold Dt.uniaxial
    refine aux _ _ 1 1 _ rfl ?_
    intro i j
    fin_cases i <;> fin_cases j <;> funext k <;>
      simp [Dt.recip, NArr.sqrt, fullLike, uniaxialDefgrad, Arr.sqrt]
  · unfold Dt.biaxial
    refine aux _ _ 2 2 _ rfl ?_
    intro i j
    fin_cases i <;> fin_cases j <;> funext k <;>
      simp [Dt.recip, NArr.sq, fullLike, biaxialDefgrad, wrap_of_fits (h k)]
  · unfold Dt.planar
    refine aux _ _ 2 2 _ rfl ?_
    intro i j
    fin_cases i <;> fin_cases j <;> funext k <;>
      simp [Dt.recip, fullLike, planarDefgrad]

/-- Squares of stretches up to 46340 are `int32`. -/
example : ∀ i, Fits .i32 ((![1, 2, 46340] : Fin 3 → ℤ) i ^ 2) := by
  intro i; fin_cases i <;> constructor <;> decide

/-- Beyond, the biaxial load case is silently wrong: the thickness stretch is negative. -/
theorem C67_biaxial_false :
    ∃ (w : IntTy) (stretch : ℤ), Fits w stretch ∧ 0 < stretch ∧
      (Dt.biaxial (.int w fun _ : Unit => stretch)).val (2, 2, ()) < 0 := by
  refine ⟨.i32, 50000, ⟨by decide, by decide⟩, by norm_num, ?_⟩
  have hw : wrap .i32 (50000 ^ 2) = -1794967296 := by decide
  have : (Dt.biaxial (.int .i32 fun _ : Unit => 50000)).val (2, 2, ()) =
      1 / ((wrap .i32 (50000 ^ 2) : ℤ) : ℝ) := rfl
  rw [this, hw]
  norm_num

/-! ### C68: `TypeError` instead of truncation -/

/-- `inv` without `out=` raises `TypeError` exactly for integers, where the quotients cannot be stored;
with a `float64` array as `out=` it never raises. -/
theorem C68_inv (A : V6) (determinant : Option Num) :
    (Dt.inv A determinant none = .error .typeError ↔ ∃ w v, A = .int w v) ∧
    (∀ v, A = .f64 v →
      Dt.inv A determinant none = .ok (.f64 (Hel.inv v (determinant.map fun d => d.val ())))) ∧
    ∀ o, ∃ r, Dt.inv A determinant (some (.f64 o)) = .ok (.f64 r) := by
  refine ⟨?_, ?_, ?_⟩
  · cases A with
    | int w v => simp [inv_int]
    | f64 v => simp [inv_f64]
  · rintro v rfl
    exact inv_f64 v determinant
  · intro o
    cases A with
    | int w v => exact ⟨_, by simp [Dt.inv, int_mul, int_sub, NArr.div, bind, Except.bind]; rfl⟩
    | f64 v => exact ⟨_, by simp [Dt.inv, NArr.div, bind, Except.bind]; rfl⟩

/-- `inv` of integers with a `float64` array as `out=` is the inverse of the numbers, unless an
intermediate result overflows. -/
theorem C68_inv_out (w : IntTy) (v : Vec6 ℤ) (o : Vec6 ℝ) (hdet : Fits w (Hel.det v))
    (h : ∀ a b, Fits w (v a * v b)) (h2 : ∀ a b c d, Fits w (v a * v b - v c * v d)) :
    Dt.inv (.int w v) none (some (.f64 o)) = .ok (.f64 (Hel.inv (fun a => (v a : ℝ)) none)) := by
  have e : ∀ a b, wrap w (v a * v b) = v a * v b := fun a b => wrap_of_fits (h a b)
  have e2 : ∀ a b c d, wrap w (v a * v b - v c * v d) = v a * v b - v c * v d :=
    fun a b c d => wrap_of_fits (h2 a b c d)
  simp [Dt.inv, int_mul, int_sub, NArr.div, bind, Except.bind, det_int, wrap_of_fits hdet, e, e2, det_cast,
    Hel.inv, invHeap, Heap.store, take]

example : Fits .i64 (Hel.det (![4, 2, 3, 1, 0, 1] : Vec6 ℤ)) ∧
    (∀ a b, Fits .i64 ((![4, 2, 3, 1, 0, 1] : Vec6 ℤ) a * (![4, 2, 3, 1, 0, 1] : Vec6 ℤ) b)) ∧
    ∀ a b c d, Fits .i64 ((![4, 2, 3, 1, 0, 1] : Vec6 ℤ) a * (![4, 2, 3, 1, 0, 1] : Vec6 ℤ) b
      - (![4, 2, 3, 1, 0, 1] : Vec6 ℤ) c * (![4, 2, 3, 1, 0, 1] : Vec6 ℤ) d) := by
  have k : ∀ a b, 0 ≤ (![4, 2, 3, 1, 0, 1] : Vec6 ℤ) a * (![4, 2, 3, 1, 0, 1] : Vec6 ℤ) b ∧
      (![4, 2, 3, 1, 0, 1] : Vec6 ℤ) a * (![4, 2, 3, 1, 0, 1] : Vec6 ℤ) b ≤ 16 := by decide
  refine ⟨⟨by decide, by decide⟩, fun a b => ?_, fun a b c d => ?_⟩
  · have := k a b
    constructor <;> simp only [IntTy.bits] <;> omega
  · have := k a b
    have := k c d
    constructor <;> simp only [IntTy.bits] <;> omega

/-- `cdya(A, B)` raises `TypeError` exactly if one of the operands is of an integer dtype (`same` is
the outcome of `A is B`). -/
theorem C68_cdya (same : Bool) (A B : V6) (hs : same = true → A = B) :
    (Dt.cdya same A B = .error .typeError ↔ (∃ w v, A = .int w v) ∨ ∃ w v, B = .int w v) ∧
    ∀ a b, A = .f64 a → B = .f64 b →
      Dt.cdya same A B = .ok (.f64 fun p => cdyaOut same a b none p.1 p.2) := by
  refine ⟨⟨fun h => ?_, ?_⟩, ?_⟩
  · cases A with
    | int w v => exact .inl ⟨w, v, rfl⟩
    | f64 a =>
      cases B with
      | int w v => exact .inr ⟨w, v, rfl⟩
      | f64 b => simp [cdya_f64] at h
  · rintro (⟨w, v, h⟩ | ⟨w, v, h⟩)
    · exact cdya_int same A B w v (.inl h) hs
    · exact cdya_int same A B w v (.inr h) hs
  · rintro a b rfl rfl
    exact cdya_f64 same a b

/-- The distortional and the dilatational space never return for integers, whatever the material and
the configuration; the exception is `TypeError` unless the material raises. -/
theorem C68_split (cfg : SpaceCfg) (mt : MaterialT Z μ) (w : IntTy) (F : Fin 3 → Fin 3 → ℤ) (z : Z) (s : μ) :
    (∀ r, ¬ Returns (distGradient cfg mt (intArr w F) z) s r) ∧
    (∀ r, ¬ Returns (distHessian cfg mt (intArr w F) z) s r) ∧
    (∀ r, ¬ Returns (dilGradient cfg mt (intArr w F) z) s r) ∧
    (∀ r, ¬ Returns (dilHessian cfg mt (intArr w F) z) s r) ∧
    ((∀ D, ∃ r, Returns (mt.gradient D z) s r) →
      (distGradient cfg mt (intArr w F) z s).1 = .error .typeError ∧
      (distHessian cfg mt (intArr w F) z s).1 = .error .typeError ∧
      (dilGradient cfg mt (intArr w F) z s).1 = .error .typeError ∧
      (dilHessian cfg mt (intArr w F) z s).1 = .error .typeError) := by
  obtain ⟨e, s1, h1, g1⟩ := distGradientFull_int cfg mt w F z s
  obtain ⟨e', s2, h2, g2⟩ := dilGradientFull_int cfg mt w F z s
  have a1 : (distGradient cfg mt (intArr w F) z s).1 = .error e := by
    unfold distGradient; simp only [PyM.bind_run, h1]
  have a2 : (distHessian cfg mt (intArr w F) z s).1 = .error e := by
    unfold distHessian; simp only [PyM.bind_run, h1]
  have a3 : (dilGradient cfg mt (intArr w F) z s).1 = .error e' := by
    unfold dilGradient; simp only [PyM.bind_run, h2]
  have a4 : (dilHessian cfg mt (intArr w F) z s).1 = .error e' := by
    unfold dilHessian; simp only [PyM.bind_run, h2]
  refine ⟨fun r h => ?_, fun r h => ?_, fun r h => ?_, fun r h => ?_, fun ht => ?_⟩
  · unfold Returns at h; simp [a1] at h
  · unfold Returns at h; simp [a2] at h
  · unfold Returns at h; simp [a3] at h
  · unfold Returns at h; simp [a4] at h
  · have no : ∀ e, (∃ D s', mt.gradient D z s = (.error e, s')) → False := by
      rintro e ⟨D, s', h⟩
      obtain ⟨r, hr⟩ := ht D
      unfold Returns at hr
      simp [h] at hr
    have e1 : e = .typeError := g1.resolve_right (no e)
    have e2 : e' = .typeError := g2.resolve_right (no e')
    subst e1 e2
    exact ⟨a1, a2, a3, a4⟩

/-- `ThirdOrderDeformation` in the invariants framework is a material which always returns. -/
example (m : TOD ℝ) (z : Z) (D : V6) : ∃ r, Returns ((invMaterial (todMat m)).gradient D z) () r := by
  have key : ∀ I1 I2 I3 : Num, ∃ r : InvGrad Num Z, todGradient m I1 I2 I3 z = .ok r ∧ r.d3 = none := by
    intro I1 I2 I3
    unfold todGradient
    by_cases h1 : m.C10 = 0 <;> by_cases h2 : m.C01 = 0 <;> by_cases h3 : m.C11 = 0 <;>
      by_cases h4 : m.C20 = 0 <;> by_cases h5 : m.C30 = 0 <;>
      simp [h1, h2, h3, h4, h5, Dt.addTo, bind, Except.bind]
  obtain ⟨r, hr, h3⟩ := key (Dt.trace D) (((Dt.trace D).sq - Dt.ddot D D).divLit 2) (Dt.det D)
  unfold Returns
  simp only [invMaterial, invGradient, invGradientFull, PyM.bind_run, todMat, PyM.lift_run, hr, h3, addI3]
  exact ⟨_, rfl⟩

/-- In the invariants framework a model with a derivative with respect to the third invariant raises
`TypeError` on integers: the inverse cannot be stored. -/
theorem C68_third_invariant (mat : InvMatT Z μ) (w : IntTy) (v : Vec6 ℤ) (z : Z) (s s' : μ) (r : InvGrad Num Z)
    (hr : mat.gradient (Dt.trace (.int w v)) (((Dt.trace (.int w v)).sq - Dt.ddot (.int w v) (.int w v)).divLit 2)
      (Dt.det (.int w v)) z s = (.ok r, s')) (d : Num) (h3 : r.d3 = some d) :
    ((invMaterial mat).gradient (.int w v) z s).1 = .error .typeError ∧
    ((invMaterial mat).hessian (.int w v) z s).1 = .error .typeError := by
  have k : ∀ D : V6, addI3 (.int w v) (Dt.det (.int w v)) D r.d3 = .error .typeError := by
    intro D
    rw [h3]
    simp only [addI3, inv_int, bind, Except.bind]
  constructor
  · simp only [invMaterial, invGradient, invGradientFull, PyM.bind_run, hr, k, PyM.lift_run]
  · simp only [invMaterial, invHessian, invGradientFull, PyM.bind_run, hr, k, PyM.lift_run]

/-- A model with such a derivative. -/
example (w : IntTy) (v : Vec6 ℤ) (z : Z) :
    let mat : InvMatT Z Unit :=
      ⟨fun _ _ I3 z => pure ⟨none, none, some I3, z⟩, fun _ _ _ _ => pure ⟨none, none, none, none, none, none⟩⟩
    ((invMaterial mat).gradient (.int w v) z ()).1 = .error .typeError :=
  (C68_third_invariant _ w v z () () _ rfl _ rfl).1

/-- `Ogden.gradient` on an integer array of stretches raises `TypeError` unless it has no terms; on
floats it never raises. -/
theorem C68_ogden (terms : List (ℝ × ℝ)) (stretches : NArr (Fin 3)) (z : Z) :
    (Dt.ogdenGradient terms stretches z = .error .typeError ↔
      terms ≠ [] ∧ ∃ w v, stretches = .int w v) ∧
    ((∃ l, stretches = .f64 l) → ∃ g, Dt.ogdenGradient terms stretches z = .ok (.f64 g, z)) := by
  have key : ∀ (l : Fin 3 → ℝ) (terms : List (ℝ × ℝ)) (a : Fin 3 → ℝ), ∃ g, terms.foldlM
      (fun acc (t : ℝ × ℝ) => NArr.iadd acc (NArr.floatMul (2 * t.1 / t.2) ((NArr.f64 l).powFloat (t.2 - 1))))
      (NArr.f64 a) = (.ok (.f64 g) : Res (NArr (Fin 3))) := by
    intro l terms
    induction terms with
    | nil => exact fun a => ⟨a, rfl⟩
    | cons t r ih =>
      intro a
      simp only [List.foldlM_cons, NArr.iadd, store_f64, bind, Except.bind]
      exact ih _
  cases stretches with
  | f64 l =>
    obtain ⟨g, hg⟩ := key l terms (fun _ => 0)
    have hf : Dt.ogdenGradient terms (.f64 l) z = .ok (.f64 g, z) := by
      unfold Dt.ogdenGradient
      simp only [hg, bind, Except.bind]
    exact ⟨by simp [hf], fun _ => ⟨g, hf⟩⟩
  | int w v =>
    refine ⟨?_, by simp⟩
    cases terms with
    | nil => simp [Dt.ogdenGradient, bind, Except.bind, pure, Except.pure]
    | cons t r =>
      have : Dt.ogdenGradient (t :: r) (.int w v) z = .error .typeError := by
        simp [Dt.ogdenGradient, bind, Except.bind, NArr.iadd, NArr.floatMul]
      simp [this]

/-- A stress with floats. -/
def IsFloat : StressT → Prop
  | .voigt s => ∃ v, s = .f64 v
  | .full p => ∃ v, p = .f64 v

/-- Whatever the dtype of `F`, the returned stress of a material which returns floats is an array of
floats: nothing is truncated. -/
theorem C68_stress_is_float (cfg : SpaceCfg) (mt : MaterialT Z μ) (F : F2) (z : Z) (s : μ) (P : StressT) (z' : Z)
    (hm : ∀ C g z', Returns (mt.gradient C z) s (g, z') → ∃ v, g = .f64 v)
    (h : Returns (defGradient cfg mt F z) s (P, z')) : IsFloat P := by
  unfold Returns defGradient at h
  simp only [PyM.bind_run, PyM.lift_run] at h
  generalize hx : mt.gradient (Dt.rightCauchyGreen F) z s = x at h
  obtain ⟨x1, x2⟩ := x
  cases x1 with
  | error e => simp at h
  | ok a =>
    obtain ⟨g, z1⟩ := a
    obtain ⟨v, hv⟩ := hm (Dt.rightCauchyGreen F) g z1 (by unfold Returns; rw [hx])
    subst hv
    simp only [intMul_f64] at h
    unfold Dt.piolaStress forceStress at h
    obtain ⟨fin, force, area⟩ := cfg
    cases fin
    · simp at h
      obtain ⟨rfl, _⟩ := h
      exact ⟨_, rfl⟩
    · cases force <;> cases area <;>
        simp only [if_true, Dt.astensor, reindex_f64, bind, Except.bind, einsumOut_f64'] at h
      all_goals simp at h; obtain ⟨rfl, _⟩ := h; exact ⟨_, rfl⟩

theorem einsumOut_int [Fintype κ] {ι : Type} (w : IntTy) (v : ι → ℤ) {ops : List (NArr (ι × κ))} {f : ι × κ → ℝ}
    (h : NArr.f64 f ∈ ops) : NArr.einsumOut (.int w v) ops = .error .typeError := by
  unfold NArr.einsumOut
  rw [einsum_f64 h]

/-- A material which returns an array of integers for a deformation gradient of floats: `TypeError` exactly if one of the
transformations of the stress is configured, whose result would have to be stored in the array of integers. -/
theorem C68_integer_material (cfg : SpaceCfg) (mt : MaterialT Z μ) (F : Fin 3 × Fin 3 → ℝ) (z z' : Z) (s s' : μ)
    (w : IntTy) (v : Fin 6 → ℤ) (hm : mt.gradient (Dt.rightCauchyGreen (.f64 F)) z s = (.ok (.int w v, z'), s')) :
    ((defGradient cfg mt (.f64 F) z s).1 = .error .typeError ↔
      cfg.finalize = true ∧ (cfg.force = none ∨ cfg.area = none)) ∧
    (cfg.finalize = false → (defGradient cfg mt (.f64 F) z s).1 = .ok (.voigt (NArr.intMul 2 (.int w v)), z')) := by
  have key : (defGradient cfg mt (.f64 F) z s).1 =
      (Dt.piolaStress cfg (.f64 F) (.int w fun i => Dt.wrap w (2 * v i)) none).map fun P => (P, z') := by
    unfold defGradient
    simp only [PyM.bind_run, PyM.lift_run, hm, NArr.intMul]
    cases Dt.piolaStress cfg (.f64 F) (.int w fun i => Dt.wrap w (2 * v i)) none <;> rfl
  rw [key]
  have he : ∀ (x : Fin 3 × Fin 3 → ℤ) (A B : NArr ((Fin 3 × Fin 3) × Fin 3)), (∃ f, A = .f64 f) →
      NArr.einsumOut (.int w x) [A, B] = .error .typeError := by
    rintro x A B ⟨f, rfl⟩
    exact einsumOut_int w x (f := f) List.mem_cons_self
  obtain ⟨fin, force, area⟩ := cfg
  cases fin
  · simp [Dt.piolaStress, Except.map, NArr.intMul]
  · cases force <;> cases area <;>
      simp [Dt.piolaStress, forceStress, Dt.astensor, bind, Except.bind, Except.map, he]

/-- Such a material. -/
example : ∃ mt : MaterialT Unit Unit, mt.gradient (Dt.rightCauchyGreen (.f64 fun _ => 2)) () () =
    (.ok (.int .i64 ![1, 1, 1, 0, 0, 0], ()), ()) :=
  ⟨⟨fun _ _ => pure (.int .i64 ![1, 1, 1, 0, 0, 0], ()), fun _ _ => pure (.f64 fun _ => 0)⟩, rfl⟩

end Props
