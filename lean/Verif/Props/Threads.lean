import Verif.Proofs.Threads
import Verif.Spec.Threads
import Verif.Props.Spaces
import Verif.Props.History

/-!
# C57, C58: threads

A method is a sequence of atomic reads and writes of attributes (`Prog`), a schedule is any list of threads, every entry of
which grants one access (`Machine.exec`).  Threads may call the methods of objects of their own (`Machine.separate`) or of
one common object (`Machine.shared`).
-/

namespace Props
open Spec Hel

variable {ι : Type} [DecidableEq ι]

/-! ### The programs are the methods -/

/-- Without interruption, the programs do what the methods do (result, exception and attributes). -/
theorem C57_methods {Z μ : Type} (w : Space) (cfg : SpaceCfg) (M : MatProg Z μ) (F : Full2 ℝ) (z : Z) (c : Method) :
    (c.program w cfg M F z).run = c.sequential (w.obj cfg M.material) F z := by
  rcases c <;> rcases w
  · exact Threads.run_defGradient ..
  · exact Threads.run_distGradient ..
  · exact Threads.run_dilGradient ..
  · exact Threads.run_defHessian ..
  · exact Threads.run_distHessian ..
  · exact Threads.run_dilHessian ..

/-- The same for the frameworks: of invariant-based models, of stretch-based models, and of models in terms of generalized
invariants. -/
theorem C57_framework {Z μ : Type} (lapack : Eigh) (M : Threads.InvProg Z μ) (N : Threads.StrProg Z μ) (g : GenInv) :
    (Threads.invariants M).material = Invariants.material M.mat ∧
    (Threads.stretches lapack N).material = Stretches.material lapack N.mat ∧
    (Threads.stretches lapack (Threads.genModel g M)).material = generalizedFramework lapack g M.mat := by
  refine ⟨Threads.invariants_material M, Threads.stretches_material lapack N, ?_⟩
  rw [Threads.stretches_material, Threads.genModel_mat]
  rfl

/-! ### Objects of their own -/

theorem Prog.sub_eq_done {σ τ α : Type} {get : σ → τ} {put : τ → σ → σ} {p : Prog τ α} {r : Res α}
    (h : p.sub get put = .done r) : p = .done r := by
  rcases p with r' | ⟨u, k⟩
  · simpa only [Prog.sub, Prog.done.injEq] using h
  · simp only [Prog.sub, reduceCtorEq] at h

/-- Any number of threads, any programs, any schedule: a thread which has finished has the result (or the exception) of an
uninterrupted call, and its object the attributes which that call leaves. -/
theorem C57_own_objects {σ α : ι → Type} (s : (i : ι) → σ i) (p : (i : ι) → Prog (σ i) (α i)) (sched : List ι) (i : ι)
    (r : Res (α i)) (h : ((Machine.separate s p).exec sched).thread i = .done r) :
    (p i).run (s i) = (r, ((Machine.separate s p).exec sched).state i) := by
  obtain ⟨s', p', h1, h2⟩ := Machine.separate_exec sched s p
  rw [h1] at h ⊢
  rw [← h2, Prog.sub_eq_done h]
  rfl

/-- A thread which is scheduled again and again finishes, with the result of an uninterrupted call. -/
theorem C57_progress {σ α : ι → Type} (s : (i : ι) → σ i) (p : (i : ι) → Prog (σ i) (α i)) (sched : ℕ → ι) (i : ι)
    (fair : ∀ n, ∃ k, n ≤ k ∧ sched k = i) :
    ∃ n, ((Machine.separate s p).exec ((List.range n).map sched)).thread i = .done ((p i).run (s i)).1 := by
  obtain ⟨n, r, h⟩ := Machine.finishes sched i fair _ (Machine.separate s p) 0 rfl
  rw [← List.range_eq_range'] at h
  exact ⟨n, by rw [h, C57_own_objects s p _ i r h]⟩

/-- Threads which evaluate stresses and elasticities with space objects of their own, with materials of their own: each
gets the result (value or exception) of an uninterrupted call for its deformation, and its object has the attributes of
that call. -/
theorem C57_spaces {Z μ : ι → Type} (w : ι → Space) (cfg : ι → SpaceCfg) (M : (i : ι) → MatProg (Z i) (μ i))
    (F : ι → Full2 ℝ) (z : (i : ι) → Z i) (c : ι → Method) (s : (i : ι) → (w i).St (μ i)) (sched : List ι) (i : ι)
    (r : Res ((c i).Result (Z i)))
    (h : ((Machine.separate s fun i => (c i).program (w i) (cfg i) (M i) (F i) (z i)).exec sched).thread i = .done r) :
    (c i).sequential ((w i).obj (cfg i) (M i).material) (F i) (z i) (s i) =
      (r, ((Machine.separate s fun i => (c i).program (w i) (cfg i) (M i) (F i) (z i)).exec sched).state i) := by
  have h1 := C57_own_objects _ _ _ _ _ h
  rwa [C57_methods] at h1

/-! ### C58: a common object -/

theorem Machine.alone_done {σ : Type} {α : ι → Type} (i : ι) (n : ℕ) (r : Res (α i)) (m : Machine ι σ α)
    (h : (m.exec (List.replicate n i)).thread i = .done r) : ((m.thread i).run m.state).1 = r := by
  induction n generalizing m with
  | zero =>
    have h' : m.thread i = .done r := h
    rw [h']; rfl
  | succ n ih =>
    have h1 := ih (m.step i) h
    rw [← h1]
    unfold Machine.step
    rcases h2 : m.thread i with r' | ⟨u, k⟩
    · simp only [h2]
    · simp only [Function.update_self, Prog.run_act]

/-- Threads which share a space may take turns: whatever the other threads have done before or have left half done, if a
thread calls `gradient` or `hessian` and is not interrupted before it has finished, then it returns (or raises) what a call
on a new object does.  (Missing: interruptions by calls on the same object, see `C58_shared_false`.) -/
theorem C58_turns_partial {Z μ : Type} (w : Space) (cfg : SpaceCfg) (M : MatProg Z μ) (hM : Material.HistoryFree M.material)
    (F : Full2 ℝ) (z : Z) (c : ι → Method) (m : Machine ι (w.St μ) fun i => (c i).Result Z) (before : List ι) (i : ι)
    (hi : (m.exec before).thread i = (c i).program w cfg M F z) (n : ℕ) (r : Res ((c i).Result Z))
    (h : (m.exec (before ++ List.replicate n i)).thread i = .done r) (m₀ : μ) :
    ((c i).sequential (w.obj cfg M.material) F z (w.fresh m₀)).1 = r := by
  rw [Machine.exec_append] at h
  have h1 := Machine.alone_done (α := fun i => (c i).Result Z) i n r _ h
  rw [hi, C57_methods] at h1
  rw [← h1]
  rcases hc : c i <;> rcases w
  · exact (Deformation.history_free cfg M.material hM F z _ _).1
  · exact (Distortional.history_free cfg M.material hM F z _ _).1
  · exact (Dilatational.history_free cfg M.material hM F z _ _).1
  · exact (Deformation.history_free cfg M.material hM F z _ _).2
  · exact (Distortional.history_free cfg M.material hM F z _ _).2
  · exact (Dilatational.history_free cfg M.material hM F z _ _).2

/-- Two threads call `gradient` of one deformation-space object.  If the second one is scheduled right after the first
one has stored its `self.C`, the first one returns the second Piola-Kirchhoff stress of the *other* deformation, pushed
forward with its own deformation gradient. -/
theorem C58_race {Z μ : Type} (cfg : SpaceCfg) (M : MatProg Z μ) (FA FB : Full2 ℝ) (zA zB : Z) (s : DefSt μ)
    (g : Vec6 ℝ) (z' : Z) (hg : Returns (M.material.gradient (rightCauchyGreen FB) zA) s.material (g, z')) :
    ∃ n, ((Machine.shared (ι := Bool) s fun b =>
        Threads.defGradient cfg M (if b then FB else FA) (if b then zB else zA)).exec
          ([false, true] ++ List.replicate n false)).thread false =
      .done (.ok (piolaStress cfg FA (fun a => 2 * g a) none, z')) := by
  set m := Machine.shared (ι := Bool) s fun b =>
        Threads.defGradient cfg M (if b then FB else FA) (if b then zB else zA) with hm
  have hA : ∀ m' : DefSt μ, m'.C = some (rightCauchyGreen FB) → m'.material = s.material → ∀ q,
      Threads.defGradient cfg M FA zA = .act (fun s => { s with C := some (rightCauchyGreen FA) }) (fun _ => q) →
      (q.run m').1 = .ok (piolaStress cfg FA (fun a => 2 * g a) none, z') := by
    intro m' h1 h2 q hq
    -- the rest of the method from a state in which `self.C` is that of the other thread
    have : q = (do
        let C ← Prog.attr (·.C)
        let (dWdC, statevars_new) ← Prog.sub (·.material) (fun m s => { s with material := m }) (M.gradient C zA)
        Prog.assign fun s => { s with S := some fun a => 2 * dWdC a }
        let S ← Prog.attr (·.S)
        pure (piolaStress cfg FA S none, statevars_new)) := by
      have h3 := hq
      unfold Threads.defGradient at h3
      injection h3 with h4 h5
      exact (congrFun h5 m').symm
    subst this
    simp only [Prog.run_bind, Prog.run_attr, PyM.attr_run, h1]
    rw [Prog.run_sub (get := fun s : DefSt μ => s.material) (put := fun m s => { s with material := m })
      (fun _ _ => rfl) (fun _ _ _ => rfl) (fun _ => rfl), PyM.sub_run, h2]
    have h6 : ((M.gradient (rightCauchyGreen FB) zA).run s.material).1 = .ok (g, z') := hg
    rcases h7 : (M.gradient (rightCauchyGreen FB) zA).run s.material with ⟨w, m2⟩
    rw [h7] at h6
    subst h6
    rfl
  obtain ⟨n, hn⟩ := Machine.alone false _ (m.exec [false, true]) rfl
  refine ⟨n, ?_⟩
  rw [Machine.exec_append, hn]
  congr 1
  exact hA (m.exec [false, true]).state rfl rfl _ rfl

/-- The full property would be that threads may share an object: whoever has finished has the result of an uninterrupted
call. -/
def C58_Full : Prop := ∀ (M : MatProg Unit Unit) (F : Bool → Full2 ℝ) (s : DefSt Unit) (sched : List Bool) (P : Stress),
  ((Machine.shared s fun b => Threads.defGradient {} M (F b) ()).exec sched).thread false = .done (.ok (P, ())) →
  Returns ((Deformation.obj {} M.material).gradient (F false) ()) s (P, ())

/-- The material `ψ = C:C / 2`. -/
noncomputable def squareProg : MatProg Unit Unit where
  gradient c _ := .done (.ok (c, ()))
  hessian _ _ := .done (.ok (cdyaSelf eye))

/-- Threads must not share an object: undeformed (`F = 1`, `P = 2·1`), the first thread gets `P = 8·1` while
another one evaluates `F = 2·1`. -/
theorem C58_shared_false : ¬ C58_Full := by
  intro h
  set F : Bool → Full2 ℝ := fun b => if b then ((2 : ℝ) • (1 : Ten2 ℝ)) else (1 : Ten2 ℝ) with hF
  obtain ⟨n, hn⟩ := C58_race {} squareProg (1 : Ten2 ℝ) ((2 : ℝ) • (1 : Ten2 ℝ)) () () { material := () }
    (rightCauchyGreen ((2 : ℝ) • (1 : Ten2 ℝ))) () rfl
  have h1 := h squareProg F { material := () } _ _ hn
  obtain ⟨g, h2, h3⟩ := (Deformation.returns_gradient _ _ _ _ _ _ _).1 h1
  have h4 : g = rightCauchyGreen (1 : Ten2 ℝ) := by
    have : (Except.ok (rightCauchyGreen (1 : Ten2 ℝ), ()) : Res _) = .ok (g, ()) := h2
    simp only [Except.ok.injEq, Prod.mk.injEq, and_true] at this
    exact this.symm
  subst h4
  rw [show F false = (1 : Ten2 ℝ) from rfl, piolaStress_default, piolaStress_default, T2_smul, T2_smul, T2_rcg, T2_rcg] at h3
  have h5 := congrFun (congrFun (Stress.full.inj h3) 0) 0
  simp [cauchyGreen] at h5
  norm_num at h5

/-- Two threads, objects of their own, the same material: with the schedule of the race above both stresses are right. -/
example : ∃ sched : List Bool, ∃ P, ((Machine.separate (fun _ => ({ material := () } : DefSt Unit)) fun b : Bool =>
    Threads.defGradient {} squareProg (if b then ((2 : ℝ) • (1 : Ten2 ℝ)) else (1 : Ten2 ℝ)) ()).exec ([false, true] ++ sched)).thread false
      = .done (.ok (P, ())) ∧ P = .full ((2 : ℝ) • (1 : Ten2 ℝ)) := by
  set m := Machine.separate (fun _ => ({ material := () } : DefSt Unit)) fun b : Bool =>
    Threads.defGradient {} squareProg (if b then ((2 : ℝ) • (1 : Ten2 ℝ)) else (1 : Ten2 ℝ)) () with hm
  obtain ⟨n, hn⟩ := Machine.alone false _ (m.exec [false, true]) rfl
  refine ⟨List.replicate n false, piolaStress {} (1 : Ten2 ℝ) (fun a => 2 * rightCauchyGreen (1 : Ten2 ℝ) a) none, ?_, ?_⟩
  · rw [Machine.exec_append, hn]; rfl
  · rw [piolaStress_default, T2_smul, T2_rcg]
    simp [cauchyGreen]

/-- The hypotheses of `C58_turns_partial` are met by the object of the race above: the second thread has just stored its
`self.C` when the first one calls and, uninterrupted, gets its stress. -/
example : Material.HistoryFree squareProg.material ∧ ∃ n, ((Machine.shared (ι := Bool) ({ material := () } : DefSt Unit) fun b =>
    Threads.defGradient {} squareProg (if b then ((2 : ℝ) • (1 : Ten2 ℝ)) else (1 : Ten2 ℝ)) ()).exec
      ([true] ++ List.replicate n false)).thread false = .done (.ok (.full ((2 : ℝ) • (1 : Ten2 ℝ)), ())) := by
  refine ⟨fun _ _ _ _ => ⟨rfl, rfl⟩, ?_⟩
  obtain ⟨n, hn⟩ := Machine.alone false _ ((Machine.shared (ι := Bool) ({ material := () } : DefSt Unit) fun b =>
    Threads.defGradient {} squareProg (if b then ((2 : ℝ) • (1 : Ten2 ℝ)) else (1 : Ten2 ℝ)) ()).exec [true]) rfl
  refine ⟨n, ?_⟩
  rw [Machine.exec_append, hn]
  congr 1
  have : (.full ((2 : ℝ) • (1 : Ten2 ℝ)) : Stress) =
      piolaStress {} (1 : Ten2 ℝ) (fun a => 2 * rightCauchyGreen (1 : Ten2 ℝ) a) none := by
    rw [piolaStress_default, T2_smul, T2_rcg]
    simp [cauchyGreen]
  rw [this]; rfl

end Props
