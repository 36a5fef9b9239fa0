import Verif.Model.Threads
import Verif.Proofs.PyM
import Verif.Proofs.Space
import Verif.Props.Math

/-! Helper lemmas: uninterrupted runs of the programs are the sequential methods. -/

namespace Hel
namespace Prog

variable {σ τ α β : Type}

@[simp] theorem run_done (r : Res α) (s : σ) : (done r : Prog σ α).run s = (r, s) := rfl
@[simp] theorem run_pure (a : α) (s : σ) : (pure a : Prog σ α).run s = (.ok a, s) := rfl
@[simp] theorem run_act (u : σ → σ) (k : σ → Prog σ α) (s : σ) : (act u k).run s = (k s).run (u s) := rfl

theorem run_andThen (p : Prog σ α) (f : α → Prog σ β) (s : σ) : (p.andThen f).run s = match p.run s with
    | (.ok a, s') => (f a).run s'
    | (.error e, s') => (.error e, s') := by
  induction p generalizing s with
  | done r => rcases r with e | a <;> rfl
  | act u k ih => exact ih s (u s)

@[simp] theorem run_bind (p : Prog σ α) (f : α → Prog σ β) (s : σ) : (p >>= f).run s = match p.run s with
    | (.ok a, s') => (f a).run s'
    | (.error e, s') => (.error e, s') := run_andThen p f s

@[simp] theorem run_attr (f : σ → Option α) (s : σ) : (attr f).run s = PyM.attr f s := by
  simp only [attr, run_act, PyM.attr_run]
  rcases f s with _ | a <;> rfl

@[simp] theorem run_assign (f : σ → σ) (s : σ) : (assign f).run s = (.ok (), f s) := rfl

theorem run_sub {get : σ → τ} {put : τ → σ → σ} (h1 : ∀ t s, get (put t s) = t) (h2 : ∀ t t' s, put t (put t' s) = put t s)
    (h3 : ∀ s, put (get s) s = s) (p : Prog τ α) (s : σ) : (p.sub get put).run s = PyM.sub get put p.run s := by
  induction p generalizing s with
  | done r => simp only [sub, run_done, PyM.sub_run, h3]
  | act u k ih => simp only [sub, run_act, ih, PyM.sub_run, h1, h2]

end Prog

namespace Threads
open Prog

variable {Z μ : Type}

theorem run_defGradient (cfg : SpaceCfg) (M : MatProg Z μ) (F : Full2 ℝ) (z : Z) :
    (defGradient cfg M F z).run = Deformation.gradient cfg M.material F z := by
  funext s
  simp only [defGradient, Deformation.gradient, Deformation.callMat, run_bind, run_assign, run_attr, PyM.bind_run,
    PyM.assign_run, PyM.attr_run, MatProg.material, PyM.sub_run]
  rw [run_sub (get := fun s : DefSt μ => s.material) (put := fun m s => { s with material := m })
    (fun _ _ => rfl) (fun _ _ _ => rfl) (fun _ => rfl), PyM.sub_run]
  rcases (M.gradient (rightCauchyGreen F) z).run s.material with ⟨e | a, m⟩ <;> rfl

theorem run_defHessian (cfg : SpaceCfg) (M : MatProg Z μ) (F : Full2 ℝ) (z : Z) :
    (defHessian cfg M F z).run = Deformation.hessian cfg M.material F z := by
  funext s
  simp only [defHessian, Deformation.hessian, Deformation.callMat, run_bind, run_defGradient, PyM.bind_run, run_attr]
  rcases Deformation.gradient cfg M.material F z s with ⟨e | a, s1⟩
  · rfl
  · simp only [PyM.attr_run]
    rcases s1.C with _ | C
    · rfl
    · simp only [MatProg.material]
      rw [run_sub (get := fun s : DefSt μ => s.material) (put := fun m s => { s with material := m })
    (fun _ _ => rfl) (fun _ _ _ => rfl) (fun _ => rfl), PyM.sub_run]
      rcases (M.hessian C z).run s1.material with ⟨e | a, m⟩
      · rfl
      · rcases s1.S with _ | S <;> rfl

theorem run_distGradient (cfg : SpaceCfg) (M : MatProg Z μ) (F : Full2 ℝ) (z : Z) :
    (distGradient cfg M F z).run = Distortional.gradient cfg M.material F z := by
  funext s
  simp only [distGradient, Distortional.gradient, Distortional.callMat, run_bind, run_assign, run_attr, PyM.bind_run,
    PyM.assign_run, PyM.attr_run, MatProg.material, PyM.sub_run]
  rw [run_sub (get := fun s : DistSt μ => s.material) (put := fun m s => { s with material := m })
    (fun _ _ => rfl) (fun _ _ _ => rfl) (fun _ => rfl), PyM.sub_run]
  dsimp only
  generalize (M.gradient _ z).run s.material = w
  rcases w with ⟨e | a, m⟩ <;> rfl

theorem run_distHessian (cfg : SpaceCfg) (M : MatProg Z μ) (F : Full2 ℝ) (z : Z) :
    (distHessian cfg M F z).run = Distortional.hessian cfg M.material F z := by
  funext s
  simp only [distHessian, Distortional.hessian, Distortional.callMat, run_bind, run_distGradient, PyM.bind_run, run_attr]
  rw [Distortional.gradient_run]
  rcases (M.material.gradient _ z _) with ⟨e | a, m⟩
  · rfl
  · simp only [PyM.attr_run, MatProg.material, Distortional.post]
    rw [run_sub (get := fun s : DistSt μ => s.material) (put := fun m s => { s with material := m })
      (fun _ _ => rfl) (fun _ _ _ => rfl) (fun _ => rfl), PyM.sub_run]
    generalize hw : (M.hessian _ z).run _ = w
    rcases w with ⟨e | a, m⟩
    · simp only [hw, PyM.sub_run]
    · simp only [hw, PyM.sub_run, Props.C07_cdya_self]
      rfl

theorem run_dilGradient (cfg : SpaceCfg) (M : MatProg Z μ) (F : Full2 ℝ) (z : Z) :
    (dilGradient cfg M F z).run = Dilatational.gradient cfg M.material F z := by
  funext s
  simp only [dilGradient, Dilatational.gradient, Dilatational.callMat, run_bind, run_assign, run_attr, PyM.bind_run,
    PyM.assign_run, PyM.attr_run, MatProg.material, PyM.sub_run]
  rw [run_sub (get := fun s : DilSt μ => s.material) (put := fun m s => { s with material := m })
    (fun _ _ => rfl) (fun _ _ _ => rfl) (fun _ => rfl), PyM.sub_run]
  dsimp only
  generalize (M.gradient _ z).run s.material = w
  rcases w with ⟨e | a, m⟩ <;> rfl

theorem run_dilHessian (cfg : SpaceCfg) (M : MatProg Z μ) (F : Full2 ℝ) (z : Z) :
    (dilHessian cfg M F z).run = Dilatational.hessian cfg M.material F z := by
  funext s
  simp only [dilHessian, Dilatational.hessian, Dilatational.callMat, run_bind, run_dilGradient, PyM.bind_run, run_attr]
  rw [Dilatational.gradient_run]
  rcases (M.material.gradient _ z _) with ⟨e | a, m⟩
  · rfl
  · simp only [PyM.attr_run, MatProg.material, Dilatational.post]
    rw [run_sub (get := fun s : DilSt μ => s.material) (put := fun m s => { s with material := m })
      (fun _ _ => rfl) (fun _ _ _ => rfl) (fun _ => rfl), PyM.sub_run]
    generalize hw : (M.hessian _ z).run _ = w
    rcases w with ⟨e | a, m⟩
    · simp only [hw, PyM.sub_run]
    · simp only [hw, PyM.sub_run, Props.C07_cdya_self]
      rfl

theorem run_invGradient (M : InvProg Z μ) (C : Vec6 ℝ) (z : Z) :
    (invGradient M C z).run = Invariants.gradient M.mat C z := by
  funext s
  simp only [invGradient, Invariants.gradient, Invariants.callMat, run_bind, run_assign, run_attr, PyM.bind_run,
    PyM.assign_run, PyM.attr_run, PyM.sub_run, InvProg.mat]
  rw [run_sub (get := fun s : InvSt ℝ μ => s.material) (put := fun m s => { s with material := m })
    (fun _ _ => rfl) (fun _ _ _ => rfl) (fun _ => rfl), PyM.sub_run]
  dsimp only
  generalize (M.gradient _ _ _ z).run s.material = w
  rcases w with ⟨e | ⟨_ | d1, _ | d2, _ | d3, z'⟩, m⟩ <;> rfl

@[simp] theorem run_localVar {σ α : Type} (v : Option α) (s : σ) : (localVar v).run s = PyM.localVar v s := by
  rcases v with _ | a <;> rfl

theorem run_addTerm {σ : Type} (acc : Mat6 ℝ) (cond coef : Option ℝ) (x y : Option (Vec6 ℝ))
    (T : Vec6 ℝ → Vec6 ℝ → Mat6 ℝ) (s : σ) :
    (addTerm acc cond coef x y T).run s = Invariants.addTerm acc cond coef x y T s := by
  rcases cond with _ | c <;> rcases x with _ | x <;> rcases y with _ | y <;> rcases coef with _ | d <;> rfl

theorem run_invHessian (M : InvProg Z μ) (C : Vec6 ℝ) (z : Z) :
    (invHessian M C z).run = Invariants.hessian M.mat C z := by
  funext s
  simp only [invHessian, Invariants.hessian, Invariants.callMat, run_bind, run_invGradient, PyM.bind_run, run_attr,
    run_addTerm]
  rcases Invariants.gradient M.mat C z s with ⟨e | a, s1⟩
  · rfl
  · obtain ⟨I, I1, I2, I3, w1, w2, w3, d1, d2, iC, d3, m⟩ := s1
    simp only [PyM.attr_run]
    rcases I1 with _ | I1
    · rfl
    rcases I2 with _ | I2
    · rfl
    rcases I3 with _ | I3
    · rfl
    simp only [InvProg.mat]
    rw [run_sub (get := fun s : InvSt ℝ μ => s.material) (put := fun m s => { s with material := m })
      (fun _ _ => rfl) (fun _ _ _ => rfl) (fun _ => rfl), PyM.sub_run]
    dsimp only
    generalize (M.hessian _ _ _ _).run _ = w
    rcases w with ⟨e | h, m'⟩
    · rfl
    rcases I with _ | I
    · rfl
    rcases w1 with _ | _ | w1 <;> rcases w2 with _ | _ | w2 <;> rcases w3 with _ | _ | w3 <;>
      rcases d1 with _ | d1 <;> rcases d2 with _ | d2 <;> rcases d3 with _ | d3 <;> rcases iC with _ | iC <;> rfl

theorem run_strGradient (lapack : Eigh) (M : StrProg Z μ) (C : Vec6 ℝ) (z : Z) :
    (strGradient lapack M C z).run = Stretches.gradient lapack M.mat C z := by
  funext s
  simp only [strGradient, Stretches.gradient, Stretches.callMat, run_bind, run_assign, run_attr, PyM.bind_run,
    PyM.assign_run, PyM.attr_run, PyM.sub_run, StrProg.mat]
  rw [run_sub (get := fun s : StrSt μ => s.material) (put := fun m s => { s with material := m })
    (fun _ _ => rfl) (fun _ _ _ => rfl) (fun _ => rfl), PyM.sub_run]
  dsimp only
  generalize (M.gradient _ z).run s.material = w
  rcases w with ⟨e | a, m⟩ <;> rfl

theorem run_strHessian (lapack : Eigh) (M : StrProg Z μ) (C : Vec6 ℝ) (z : Z) :
    (strHessian lapack M C z).run = Stretches.hessian lapack M.mat C z := by
  funext s
  simp only [strHessian, Stretches.hessian, Stretches.callMat, run_bind, run_strGradient, PyM.bind_run, run_attr]
  rcases Stretches.gradient lapack M.mat C z s with ⟨e | a, s1⟩
  · rfl
  · obtain ⟨l, N, d, dC, m⟩ := s1
    simp only [PyM.attr_run]
    rcases l with _ | l
    · rfl
    simp only [StrProg.mat]
    rw [run_sub (get := fun s : StrSt μ => s.material) (put := fun m s => { s with material := m })
      (fun _ _ => rfl) (fun _ _ _ => rfl) (fun _ => rfl), PyM.sub_run]
    dsimp only
    generalize (M.hessian _ _).run _ = w
    rcases w with ⟨e | h, m'⟩
    · rfl
    rcases N with _ | N <;> rcases dC with _ | dC <;> rfl

theorem run_genGradient (g : GenInv) (M : InvProg Z μ) (l : Vec3 ℝ) (z : Z) :
    (genGradient g M l z).run = GenInv.gradient g M.mat l z := by
  funext s
  simp only [genGradient, GenInv.gradient, GenInv.callMat, run_bind, run_assign, run_attr, PyM.bind_run,
    PyM.assign_run, PyM.attr_run, PyM.sub_run, InvProg.mat]
  rw [run_sub (get := fun s : GenSt μ => s.material) (put := fun m s => { s with material := m })
    (fun _ _ => rfl) (fun _ _ _ => rfl) (fun _ => rfl), PyM.sub_run]
  dsimp only
  generalize (M.gradient _ _ _ z).run s.material = w
  rcases w with ⟨e | ⟨_ | d1, _ | d2, _ | d3, z'⟩, m⟩ <;>
    simp [genAdd, run_andThen, number, GenInv.addVec, PyM.attr_run, mul_assoc, PyM.pure_run]

theorem run_genHessian (g : GenInv) (M : InvProg Z μ) (l : Vec3 ℝ) (z : Z) :
    (genHessian g M l z).run = GenInv.hessian g M.mat l z := by
  funext s
  simp only [genHessian, GenInv.hessian, GenInv.callMat, run_bind, run_genGradient, PyM.bind_run, run_attr]
  rcases GenInv.gradient g M.mat l z s with ⟨e | a, s1⟩
  · rfl
  · obtain ⟨E, dE, d2E, I1, I2, I3, w1, w2, w3, d1, d2, d3, m⟩ := s1
    simp only [PyM.attr_run]
    rcases I1 with _ | I1
    · rfl
    rcases I2 with _ | I2
    · rfl
    rcases I3 with _ | I3
    · rfl
    simp only [InvProg.mat]
    rw [run_sub (get := fun s : GenSt μ => s.material) (put := fun m s => { s with material := m })
      (fun _ _ => rfl) (fun _ _ _ => rfl) (fun _ => rfl), PyM.sub_run]
    dsimp only
    generalize (M.hessian _ _ _ _).run _ = w
    rcases w with ⟨e | h, m'⟩
    · rfl
    rcases d1 with _ | d1
    · rfl
    rcases d2 with _ | d2
    · rfl
    rcases d3 with _ | d3
    · rfl
    rcases dE with _ | dE
    · rfl
    rcases d2E with _ | d2E
    · rfl
    rcases w1 with _ | _ | w1 <;> rcases w2 with _ | _ | w2 <;> rcases w3 with _ | _ | w3 <;> rfl

theorem invariants_material (M : InvProg Z μ) : (invariants M).material = Invariants.material M.mat := by
  simp only [MatProg.material, invariants, Invariants.material, run_invGradient, run_invHessian]

theorem stretches_material (lapack : Eigh) (M : StrProg Z μ) :
    (stretches lapack M).material = Stretches.material lapack M.mat := by
  simp only [MatProg.material, stretches, Stretches.material, run_strGradient, run_strHessian]

theorem genModel_mat (g : GenInv) (M : InvProg Z μ) : (genModel g M).mat = g.mat M.mat := by
  simp only [StrProg.mat, genModel, GenInv.mat, run_genGradient, run_genHessian]

end Threads

/-! ### interleavings -/

namespace Machine

variable {ι σ : Type} {α : ι → Type} [DecidableEq ι]

theorem step_of_ne (m : Machine ι σ α) {i j : ι} (h : j ≠ i) : (m.step j).thread i = m.thread i := by
  unfold step
  split
  · rfl
  · exact Function.update_of_ne h.symm _ _

theorem exec_append (m : Machine ι σ α) (a b : List ι) : m.exec (a ++ b) = (m.exec a).exec b := by
  induction a generalizing m with
  | nil => rfl
  | cons i a ih => exact ih _

/-- every thread which is scheduled again and again finishes -/
theorem finishes (f : ℕ → ι) (i : ι) (hf : ∀ n, ∃ k, n ≤ k ∧ f k = i) (q : Prog σ (α i)) :
    ∀ (m : Machine ι σ α) (n : ℕ), m.thread i = q → ∃ len r, (m.exec ((List.range' n len).map f)).thread i = .done r := by
  induction q with
  | done r => exact fun m n h => ⟨0, r, h⟩
  | act u k ih =>
    intro m n h
    obtain ⟨l, hl, hi⟩ := hf n
    -- wait until thread `i` is scheduled
    have wait : ∀ d, ∀ (m : Machine ι σ α) (n : ℕ), m.thread i = .act u k → f (n + d) = i →
        ∃ len r, (m.exec ((List.range' n len).map f)).thread i = .done r := by
      intro d
      induction d with
      | zero =>
        intro m n h hi
        obtain ⟨len, r, hr⟩ := ih m.state (m.step i) (n + 1) (by
          unfold step
          rw [h]
          exact Function.update_self ..)
        refine ⟨len + 1, r, ?_⟩
        rw [List.range'_succ, List.map_cons, exec, show f n = i from hi]
        exact hr
      | succ d ihd =>
        intro m n h hi
        by_cases hn : f n = i
        · obtain ⟨len, r, hr⟩ := ih m.state (m.step i) (n + 1) (by
            unfold step
            rw [h]
            exact Function.update_self ..)
          refine ⟨len + 1, r, ?_⟩
          rw [List.range'_succ, List.map_cons, exec, hn]
          exact hr
        · obtain ⟨len, r, hr⟩ := ihd (m.step (f n)) (n + 1) (by rw [step_of_ne _ hn, h]) (by rw [← hi]; congr 1; ring)
          refine ⟨len + 1, r, ?_⟩
          rw [List.range'_succ, List.map_cons, exec]
          exact hr
    exact wait (l - n) m n h (by rw [← hi]; congr 1; omega)

/-- a thread which runs alone from now on -/
theorem alone (i : ι) (q : Prog σ (α i)) : ∀ (m : Machine ι σ α), m.thread i = q →
    ∃ n, (m.exec (List.replicate n i)).thread i = .done (q.run m.state).1 := by
  induction q with
  | done r => exact fun m h => ⟨0, h⟩
  | act u k ih =>
    intro m h
    have hs : m.step i = { state := u m.state, thread := Function.update m.thread i (k m.state) } := by
      unfold step; rw [h]
    obtain ⟨n, hn⟩ := ih m.state (m.step i) (by rw [hs]; exact Function.update_self ..)
    refine ⟨n + 1, ?_⟩
    rw [List.replicate_succ, exec, hn, hs]
    rfl

theorem separate_step {σ : ι → Type} (s : (i : ι) → σ i) (p : (i : ι) → Prog (σ i) (α i)) (j : ι) :
    ∃ s' p', (separate s p).step j = separate s' p' ∧ ∀ i, (p' i).run (s' i) = (p i).run (s i) := by
  rcases hp : p j with r | ⟨u, k⟩
  · refine ⟨s, p, ?_, fun _ => rfl⟩
    unfold step
    simp only [separate, hp, Prog.sub]
  · refine ⟨Function.update s j (u (s j)), Function.update p j (k (s j)), ?_, fun i => ?_⟩
    · unfold step
      simp only [separate, hp, Prog.sub, Machine.mk.injEq]
      refine ⟨trivial, ?_⟩
      funext i
      rcases eq_or_ne i j with rfl | h
      · simp only [Function.update_self]
      · simp only [Function.update_of_ne h]
    · rcases eq_or_ne i j with rfl | h
      · simp only [Function.update_self, hp, Prog.run_act]
      · simp only [Function.update_of_ne h]

theorem separate_exec {σ : ι → Type} (sched : List ι) (s : (i : ι) → σ i) (p : (i : ι) → Prog (σ i) (α i)) :
    ∃ s' p', (separate s p).exec sched = separate s' p' ∧ ∀ i, (p' i).run (s' i) = (p i).run (s i) := by
  induction sched generalizing s p with
  | nil => exact ⟨s, p, rfl, fun _ => rfl⟩
  | cons j sched ih =>
    obtain ⟨s1, p1, h1, h2⟩ := separate_step s p j
    obtain ⟨s', p', h3, h4⟩ := ih s1 p1
    exact ⟨s', p', by rw [exec, h1, h3], fun i => (h4 i).trans (h2 i)⟩

end Machine
end Hel
