import Verif.Proofs.ThreadsSteady
import Verif.Props.Threads
import Verif.Props.RoundingSpace

/-!
# C70: threads which share an object and evaluate the same deformation

Two threads which share a space object may destroy each other's results (C58), because the methods pass intermediate
results in attributes.  If all threads evaluate the same deformation, for example one the stress and another one the elasticity
tensor, then they assign the same values, and no schedule changes an outcome.
-/

namespace Props
open Spec Hel

variable {ι : Type} [DecidableEq ι] {Z μ : Type}

/-- the tensor which the space passes to its material -/
noncomputable def Space.argument (w : Space) (F : Full2 ℝ) : Vec6 ℝ := match w with
  | .deformation => rightCauchyGreen F
  | .distortional => Distortional.cu F
  | .dilatational => Dilatational.co F

theorem shared_steady (w : Space) (cfg : SpaceCfg) (M : MatProg Z μ) (F : Full2 ℝ) (z : Z)
    (hM : M.Steady (Space.argument w F) z) (call : ι → Method) (s : w.St μ) (sched : List ι) (i : ι)
    (r : Res ((call i).Result Z))
    (h : ((Machine.shared s fun i => (call i).program w cfg M F z).exec sched).thread i = .done r) (s' : w.St μ) :
    ((call i).sequential (w.obj cfg M.material) F z s').1 = r := by
  have key : ∃ (G : Set (w.St μ → w.St μ)) (rr : (c : Method) → Res (c.Result Z)),
      ∀ c : Method, (c.program w cfg M F z).Safe G (.top G) fun r' _ => r' = rr c := by
    have build : ∀ (G : Set (w.St μ → w.St μ)) (rg : Res (Stress × Z)) (rh : Res Elasticity),
        (Method.gradient.program w cfg M F z).Safe G (.top G) (fun r' _ => r' = rg) →
        (Method.hessian.program w cfg M F z).Safe G (.top G) (fun r' _ => r' = rh) →
        ∃ (G : Set (w.St μ → w.St μ)) (rr : (c : Method) → Res (c.Result Z)),
          ∀ c : Method, (c.program w cfg M F z).Safe G (.top G) fun r' _ => r' = rr c := by
      intro G rg rh h1 h2
      refine ⟨G, fun c => match c with
        | .gradient => rg
        | .hessian => rh, fun c => ?_⟩
      rcases c
      · exact h1
      · exact h2
    rcases w
    · obtain ⟨G, rg, rh, h1, h2⟩ := Threads.steady_deformation cfg M F z hM
      exact build G rg rh h1 h2
    · obtain ⟨G, rg, rh, h1, h2⟩ := Threads.steady_distortional cfg M F z hM
      exact build G rg rh h1 h2
    · obtain ⟨G, rg, rh, h1, h2⟩ := Threads.steady_dilatational cfg M F z hM
      exact build G rg rh h1 h2
  obtain ⟨G, rr, hG⟩ := key
  have h1 := Machine.shared_safe (G := G) (r := fun i => rr (call i)) sched
    (Machine.shared s fun i => (call i).program w cfg M F z) (fun i => ⟨.top G, trivial, hG (call i)⟩) i r h
  rw [h1, ← C57_methods]
  exact ((hG (call i)).run trivial).choose_spec

theorem steady_of_stateless {M : Threads.InvProg Z μ} (hM : Stateless M) (x1 x2 x3 : ℝ) (z : Z) : M.Steady x1 x2 x3 z := by
  obtain ⟨rg, h1⟩ := (hM x1 x2 x3 z).1
  refine ⟨Set.univ, rg, fun z' => (hM x1 x2 x3 z').2.choose, trivial, ?_, fun z' => ?_⟩
  · rw [h1]; exact Prog.safe_done rfl
  · have h2 := (hM x1 x2 x3 z').2.choose_spec
    rw [h2]; exact Prog.safe_done rfl

theorem steady_of_statelessStr {M : Threads.StrProg Z μ} (hM : StatelessStr M) (l : Vec3 ℝ) (z : Z) : M.Steady l z := by
  obtain ⟨rg, h1⟩ := (hM l z).1
  refine ⟨Set.univ, rg, fun z' => (hM l z').2.choose, trivial, ?_, fun _ z' _ => ?_⟩
  · rw [h1]; exact Prog.safe_done rfl
  · have h2 := (hM l z').2.choose_spec
    rw [h2]; exact Prog.safe_done rfl

/-- Any number of threads share one space object with an invariant-based model whose methods keep no intermediate results in
attributes, and all evaluate the deformation `F`, some with `gradient`, some with `hessian`.  For every schedule, a thread which has
finished has the outcome (value or exception) of an uninterrupted call on any object. -/
theorem C70_invariants (w : Space) (cfg : SpaceCfg) (M : Threads.InvProg Z μ) (hM : Stateless M) (F : Full2 ℝ) (z : Z)
    (call : ι → Method) (s : w.St (InvSt ℝ μ)) (sched : List ι) (i : ι) (r : Res ((call i).Result Z))
    (h : ((Machine.shared s fun i => (call i).program w cfg (Threads.invariants M) F z).exec sched).thread i = .done r)
    (s' : w.St (InvSt ℝ μ)) : ((call i).sequential (w.obj cfg (Invariants.material M.mat)) F z s').1 = r := by
  rw [← Threads.invariants_material]
  exact shared_steady w cfg _ F z (Threads.steady_invariants M _ z (steady_of_stateless hM _ _ _ z)) call s sched i r h s'

/-- The same for stretch-based models. -/
theorem C70_stretches (w : Space) (cfg : SpaceCfg) (lapack : Eigh) (M : Threads.StrProg Z μ) (hM : StatelessStr M)
    (F : Full2 ℝ) (z : Z) (call : ι → Method) (s : w.St (StrSt μ)) (sched : List ι) (i : ι) (r : Res ((call i).Result Z))
    (h : ((Machine.shared s fun i => (call i).program w cfg (Threads.stretches lapack M) F z).exec sched).thread i = .done r)
    (s' : w.St (StrSt μ)) : ((call i).sequential (w.obj cfg (Stretches.material lapack M.mat)) F z s').1 = r := by
  rw [← Threads.stretches_material]
  exact shared_steady w cfg _ F z (Threads.steady_stretches lapack M _ z (steady_of_statelessStr hM _ z)) call s sched i r h s'

/-- The same for models in terms of generalized invariants which return the state variables unchanged. -/
theorem C70_generalized [Nonempty μ] (w : Space) (cfg : SpaceCfg) (lapack : Eigh) (g : GenInv) (M : Threads.InvProg Z μ)
    (hM : Stateless M) (hz : ∀ I1 I2 I3 z r s, Returns (M.mat.gradient I1 I2 I3 z) s r → r.sv = z)
    (F : Full2 ℝ) (z : Z) (call : ι → Method) (s : w.St (StrSt (GenSt μ))) (sched : List ι) (i : ι)
    (r : Res ((call i).Result Z))
    (h : ((Machine.shared s fun i =>
      (call i).program w cfg (Threads.stretches lapack (Threads.genModel g M)) F z).exec sched).thread i = .done r)
    (s' : w.St (StrSt (GenSt μ))) : ((call i).sequential (w.obj cfg (generalizedFramework lapack g M.mat)) F z s').1 = r := by
  have e : generalizedFramework lapack g M.mat = (Threads.stretches lapack (Threads.genModel g M)).material := by
    rw [Threads.stretches_material, Threads.genModel_mat]
    rfl
  rw [e]
  exact shared_steady w cfg _ F z (Threads.steady_stretches lapack _ _ z
    (Threads.steady_generalized g M _ z (steady_of_stateless hM _ _ _ z) fun r s => hz _ _ _ z r s)) call s sched i r h s'

/-- A thread which is scheduled again and again finishes, with this outcome: here for the models of the library. -/
theorem C70_progress (w : Space) (cfg : SpaceCfg) (m : TOD ℝ) (F : Full2 ℝ) (z : Z) (call : ι → Method)
    (s : w.St (InvSt ℝ Unit)) (sched : ℕ → ι) (i : ι) (fair : ∀ n, ∃ k, n ≤ k ∧ sched k = i) (s' : w.St (InvSt ℝ Unit)) :
    ∃ n, ((Machine.shared s fun i => (call i).program w cfg (Threads.invariants (Threads.todProg m)) F z).exec
      ((List.range n).map sched)).thread i = .done ((call i).sequential (w.obj cfg (Invariants.material (TOD.mat m))) F z s').1 := by
  obtain ⟨n, r, h⟩ := Machine.finishes sched i fair _
    (Machine.shared s fun i => (call i).program w cfg (Threads.invariants (Threads.todProg m)) F z) 0 rfl
  rw [← List.range_eq_range'] at h
  refine ⟨n, ?_⟩
  have h1 := C70_invariants w cfg (Threads.todProg m) (fun _ _ _ _ => ⟨⟨_, rfl⟩, _, rfl⟩) F z call s _ i r h s'
  rw [h, ← h1]
  rfl

/-- The models of the library keep no intermediate results in attributes. -/
theorem C70_models (m : TOD ℝ) (o : Ogden) :
    Stateless (Threads.todProg (Z := Z) m) ∧ (Threads.todProg (Z := Z) m).mat = TOD.mat m ∧
    StatelessStr (Threads.ogdenProg (Z := Z) o) ∧ (Threads.ogdenProg (Z := Z) o).mat = o.mat :=
  ⟨fun _ _ _ _ => ⟨⟨_, rfl⟩, _, rfl⟩, rfl, fun _ _ => ⟨⟨_, rfl⟩, _, rfl⟩, rfl⟩

/-- The hypotheses are met: one thread evaluates the stress, another one the elasticity tensor of the same
deformation-space object, accesses strictly alternating; both finish and return a value. -/
example (m : TOD ℝ) (F : Ten2 ℝ) (b : Bool) : ∃ (n : ℕ) (v : _), ((Machine.shared
    (Space.deformation.fresh ({ material := () } : InvSt ℝ Unit)) fun b : Bool =>
      (if b then Method.gradient else .hessian).program .deformation {} (Threads.invariants (Threads.todProg m)) F ()).exec
        ((List.range n).map fun k => k % 2 == 0)).thread b = .done (.ok v) := by
  obtain ⟨n, hn⟩ := C70_progress .deformation {} m F () (fun b : Bool => if b then Method.gradient else .hessian)
    (Space.deformation.fresh ({ material := () } : InvSt ℝ Unit)) (fun k => k % 2 == 0) b (fun n => by
      rcases b
      · exact ⟨2 * n + 1, by omega, by simp⟩
      · exact ⟨2 * n, by omega, by simp⟩) (Space.deformation.fresh { material := () })
  refine ⟨n, ?_⟩
  rcases b
  · obtain ⟨A, hA⟩ := tod_def_hess_total m F () (Space.deformation.fresh ({ material := () } : InvSt ℝ Unit))
    exact ⟨.full A, hn.trans (congrArg Prog.done hA)⟩
  · obtain ⟨P, hP⟩ := tod_space_total .deformation m F () (Space.deformation.fresh ({ material := () } : InvSt ℝ Unit))
    exact ⟨(.full P, ()), hn.trans (congrArg Prog.done hP)⟩

end Props
