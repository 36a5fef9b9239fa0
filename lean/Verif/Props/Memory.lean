import Verif.Proofs.MemorySpaces
import Verif.Proofs.MemoryInvariants
import Verif.Proofs.MemoryModels
import Verif.Proofs.MemoryStretches
import Verif.Props.Batch
import Verif.Props.Superposition
import Verif.Props.Principal

/-!
# Properties C61, C62: arrays in memory

C61: an evaluation changes no array which exists before the call, returns new arrays, and its result
depends on the current content of the arguments only.  C62: the results written to `out` arrays.
-/

namespace Props
open Spec Hel Hel.Memory

noncomputable section

variable {T Z Zv σ τ μ ν : Type} [Encodable T]

/-! ## C61 -/

/-- `Deformation`: no existing array is changed (also if the call raises), the returned array is new and has the
content computed by the object on values; for every material with this property. -/
theorem C61_deformation (cfg : SpaceCfg) (bc bc4 : Bool) (sv : SV Z Zv) (M : Memory.Mat T Z μ)
    (mat : Material (Arr T) Zv ν) (hM : M.Implements sv mat) :
    (Memory.Deformation.obj cfg bc bc4 M).Implements sv (Batch.Deformation.obj cfg mat) :=
  Memory.Deformation.obj_implements hM cfg bc bc4

/-- `Distortional`: the same, with the in-place updates of its gradient and its hessian. -/
theorem C61_distortional (cfg : SpaceCfg) (bc bc4 : Bool) (sv : SV Z Zv) (M : Memory.Mat T Z μ)
    (mat : Material (Arr T) Zv ν) (hM : M.Implements sv mat) :
    (Memory.Distortional.obj cfg bc bc4 M).Implements sv (Batch.Distortional.obj cfg mat) :=
  Memory.Distortional.obj_implements hM cfg bc bc4

/-- `Dilatational`: the same. -/
theorem C61_dilatational (cfg : SpaceCfg) (bc bc4 : Bool) (sv : SV Z Zv) (M : Memory.Mat T Z μ)
    (mat : Material (Arr T) Zv ν) (hM : M.Implements sv mat) :
    (Memory.Dilatational.obj cfg bc bc4 M).Implements sv (Batch.Dilatational.obj cfg mat) :=
  Memory.Dilatational.obj_implements hM cfg bc bc4

/-- The invariant-based framework, for every model with this property. -/
theorem C61_invariants (sv : SV Z Zv) (M : Memory.InvMat T Z μ) (mat : Hel.InvMat (Arr T) Zv ν)
    (hM : M.Implements sv mat) : (Memory.Invariants.material M).Implements sv (Hel.Invariants.material mat) :=
  Memory.Invariants.material_implements hM

/-- The model `ThirdOrderDeformation`, whose local variables are Python numbers or arrays changed in place. -/
theorem C61_third_order [Nonempty T] [DecidableEq (Arr T)] (C10 C01 C11 C20 C30 : ℝ) (strain : Bool) (sv : SV Z Zv) :
    (todMat (T := T) (TOD.init C10 C01 C11 C20 C30 strain)).Implements sv
      (TOD.init (Arr.const C10) (Arr.const C01) (Arr.const C11) (Arr.const C20) (Arr.const C30 : Arr T) strain).mat :=
  tod_implements C10 C01 C11 C20 C30 strain sv

/-- The stretch-based framework, which builds the hessian in place and fills a buffer through masks, for every model
with this property. -/
theorem C61_stretches (lapack : Eigh) (sv : SV Z Zv) (M : Memory.StrMat T Z μ) (mat : Batch.StrMat T Zv ν)
    (hM : M.Implements sv mat) :
    (Memory.Stretches.material lapack M).Implements sv (Batch.Stretches.material lapack mat) :=
  Memory.Stretches.material_implements lapack hM

/-- Ogden's model, whose hessian returns views of a local array. -/
theorem C61_ogden (o : Ogden) (sv : SV Z Zv) : (Memory.ogdenMat (T := T) o).Implements sv (Batch.ogdenMat o) :=
  ogden_implements o sv

/-! ### the values at single points -/

theorem implements_grad {sv : SV Z Z} {X : Memory.SpaceObj T Z σ} {x : Batch.SpaceObj T Z τ} {A : SpaceObj Z ν}
    (h : X.Implements sv x) (hA : ∀ i, SpaceObj.GradAgreesAt i id x A) (t : τ)
    (m : Mem) (s : σ) (F : Nd (Full2 (Arr T))) (f : Full2 (Arr T)) (z zv : Z) (hF : Holds m F f) (hz : sv.Is m z zv)
    (i₀ : T) (tot : ∀ G : Ten2 ℝ, ∃ a P, Returns (A.gradient G zv) a (.full P, zv)) :
    ∃ P p z', (X.gradient F z (m, s)).1 = .ok (.full P, z') ∧ Ext m (X.gradient F z (m, s)).2.1 ∧
      m.next ≤ P.loc ∧ Holds (X.gradient F z (m, s)).2.1 P p ∧
      ∀ i, SpaceObj.Grad A zv (pt2 i f) (pt2 i p) := by
  obtain ⟨he, hr⟩ := h.gradient m s t F f z zv hF hz
  obtain ⟨a₀, P₀, h₀⟩ := tot (pt2 i₀ f)
  have h1 := hA i₀ f zv t a₀
  rw [show (A.gradient (pt2 i₀ f) (id zv) a₀).1 = .ok (.full P₀, zv) from h₀] at h1
  rcases hx : (x.gradient f zv t).1 with e | ⟨v, z'⟩
  · rw [hx] at h1; cases h1
  rw [hx] at hr
  obtain ⟨⟨R, z''⟩, hR, l, hRv, hzv⟩ := hr.ok
  rcases v with v | p
  · rw [hx] at h1
    have := congrArg Prod.fst (Except.ok.inj h1)
    cases this
  rcases R with R | P
  · cases hRv
  refine ⟨P, p, z'', hR, he, l, hRv, fun i => ?_⟩
  obtain ⟨a, Q, hQ⟩ := tot (pt2 i f)
  have h2 := hA i f zv t a
  rw [hx] at h2
  exact ⟨a, z', h2.symm⟩

/-- End to end: the stress of a third-order-deformation material on the three spaces.  From any memory and any
attributes of the objects the call returns; the arrays which existed before are unchanged; the returned array is new;
at every point its content is the stress at the deformation gradient of this point (see C25, C27, C29). -/
theorem C61_third_order_stress [Nonempty T] (C10 C01 C11 C20 C30 : ℝ) (strain : Bool) (bc bc4 : Bool)
    (sv : SV Z Z) (m : Mem) (F : Nd (Full2 (Arr T))) (f : Full2 (Arr T)) (z zv : Z) (hF : Holds m F f)
    (hz : sv.Is m z zv) (s₁ : Memory.DefSt T (Memory.InvSt T Unit)) (s₂ : Memory.DistSt T (Memory.InvSt T Unit))
    (s₃ : Memory.DilSt T (Memory.InvSt T Unit)) :
    let M : Memory.Mat T Z (Memory.InvSt T Unit) :=
      Memory.Invariants.material (todMat (TOD.init C10 C01 C11 C20 C30 strain))
    let N : Material ℝ Z (InvSt ℝ Unit) := Invariants.material (TOD.init C10 C01 C11 C20 C30 strain).mat
    (∃ P p z', ((Memory.Deformation.obj {} bc bc4 M).gradient F z (m, s₁)).1 = .ok (.full P, z') ∧
      Ext m ((Memory.Deformation.obj {} bc bc4 M).gradient F z (m, s₁)).2.1 ∧ m.next ≤ P.loc ∧
      Holds ((Memory.Deformation.obj {} bc bc4 M).gradient F z (m, s₁)).2.1 P p ∧
      ∀ i, SpaceObj.Grad (Deformation.obj {} N) zv (pt2 i f) (pt2 i p)) ∧
    (∃ P p z', ((Memory.Distortional.obj {} bc bc4 M).gradient F z (m, s₂)).1 = .ok (.full P, z') ∧
      Ext m ((Memory.Distortional.obj {} bc bc4 M).gradient F z (m, s₂)).2.1 ∧ m.next ≤ P.loc ∧
      Holds ((Memory.Distortional.obj {} bc bc4 M).gradient F z (m, s₂)).2.1 P p ∧
      ∀ i, SpaceObj.Grad (Distortional.obj {} N) zv (pt2 i f) (pt2 i p)) ∧
    (∃ P p z', ((Memory.Dilatational.obj {} bc bc4 M).gradient F z (m, s₃)).1 = .ok (.full P, z') ∧
      Ext m ((Memory.Dilatational.obj {} bc bc4 M).gradient F z (m, s₃)).2.1 ∧ m.next ≤ P.loc ∧
      Holds ((Memory.Dilatational.obj {} bc bc4 M).gradient F z (m, s₃)).2.1 P p ∧
      ∀ i, SpaceObj.Grad (Dilatational.obj {} N) zv (pt2 i f) (pt2 i p)) := by
  classical
  intro M N
  have hM := C61_invariants sv _ _ (C61_third_order (T := T) C10 C01 C11 C20 C30 strain sv)
  have hN := fun i : T => C39_invariants i (id : Z → Z) _ _ (C39_third_order C10 C01 C11 C20 C30 strain i id)
  obtain ⟨i₀⟩ := ‹Nonempty T›
  refine ⟨?_, ?_, ?_⟩
  · exact implements_grad (C61_deformation {} bc bc4 sv _ _ hM) (fun i => C39_deformation_gradient {} i id _ _ (hN i))
      { material := { material := () } } m s₁ F f z zv hF hz i₀
      fun G => ⟨{ material := { material := () } }, tod_space_total .deformation _ G zv { material := { material := () } }⟩
  · exact implements_grad (C61_distortional {} bc bc4 sv _ _ hM) (fun i => C39_distortional_gradient {} i id _ _ (hN i))
      { material := { material := () } } m s₂ F f z zv hF hz i₀
      fun G => ⟨{ material := { material := () } }, tod_space_total .distortional _ G zv { material := { material := () } }⟩
  · exact implements_grad (C61_dilatational {} bc bc4 sv _ _ hM) (fun i => C39_dilatational_gradient {} i id _ _ (hN i))
      { material := { material := () } } m s₃ F f z zv hF hz i₀
      fun G => ⟨{ material := { material := () } }, tod_space_total .dilatational _ G zv { material := { material := () } }⟩

theorem ogden_space_total (w : Space) (lapack : Eigh) (mu alpha : List ℝ) (ha : ∀ a ∈ alpha, a ≠ 0) (F : Ten2 ℝ) (z : Z)
    (s : w.St (StrSt Unit)) :
    ∃ P, Returns ((w.obj {} (Stretches.material lapack (Ogden.mat ⟨mu, alpha⟩))).gradient F z) s (.full P, z) := by
  have h1 : Returns ((Stretches.material lapack (Ogden.mat ⟨mu, alpha⟩)).gradient (arg w F) z) (w.inner s) _ :=
    (Stretches.returns_gradient ..).2 ⟨_, ogden_returns mu alpha ha _ z, rfl⟩
  exact ⟨_, (Space.returns_gradient w ..).2 ⟨_, h1, (piolaStress_default ..).symm⟩⟩

/-- End to end: the stress of an Ogden material on the three spaces, as `C61_third_order_stress`. -/
theorem C61_ogden_stress [Nonempty T] (lapack : Eigh) (mu alpha : List ℝ) (ha : ∀ a ∈ alpha, a ≠ 0) (bc bc4 : Bool)
    (sv : SV Z Z) (m : Mem) (F : Nd (Full2 (Arr T))) (f : Full2 (Arr T)) (z zv : Z) (hF : Holds m F f)
    (hz : sv.Is m z zv) (s₁ : Memory.DefSt T (Memory.StrSt T Unit)) (s₂ : Memory.DistSt T (Memory.StrSt T Unit))
    (s₃ : Memory.DilSt T (Memory.StrSt T Unit)) :
    let M : Memory.Mat T Z (Memory.StrSt T Unit) := Memory.Stretches.material lapack (Memory.ogdenMat ⟨mu, alpha⟩)
    let N : Material ℝ Z (StrSt Unit) := Stretches.material lapack (Ogden.mat ⟨mu, alpha⟩)
    (∃ P p z', ((Memory.Deformation.obj {} bc bc4 M).gradient F z (m, s₁)).1 = .ok (.full P, z') ∧
      Ext m ((Memory.Deformation.obj {} bc bc4 M).gradient F z (m, s₁)).2.1 ∧ m.next ≤ P.loc ∧
      Holds ((Memory.Deformation.obj {} bc bc4 M).gradient F z (m, s₁)).2.1 P p ∧
      ∀ i, SpaceObj.Grad (Deformation.obj {} N) zv (pt2 i f) (pt2 i p)) ∧
    (∃ P p z', ((Memory.Distortional.obj {} bc bc4 M).gradient F z (m, s₂)).1 = .ok (.full P, z') ∧
      Ext m ((Memory.Distortional.obj {} bc bc4 M).gradient F z (m, s₂)).2.1 ∧ m.next ≤ P.loc ∧
      Holds ((Memory.Distortional.obj {} bc bc4 M).gradient F z (m, s₂)).2.1 P p ∧
      ∀ i, SpaceObj.Grad (Distortional.obj {} N) zv (pt2 i f) (pt2 i p)) ∧
    (∃ P p z', ((Memory.Dilatational.obj {} bc bc4 M).gradient F z (m, s₃)).1 = .ok (.full P, z') ∧
      Ext m ((Memory.Dilatational.obj {} bc bc4 M).gradient F z (m, s₃)).2.1 ∧ m.next ≤ P.loc ∧
      Holds ((Memory.Dilatational.obj {} bc bc4 M).gradient F z (m, s₃)).2.1 P p ∧
      ∀ i, SpaceObj.Grad (Dilatational.obj {} N) zv (pt2 i f) (pt2 i p)) := by
  intro M N
  have hM := C61_stretches lapack sv _ _ (C61_ogden (T := T) ⟨mu, alpha⟩ sv)
  have hN := fun i : T => C39_stretches lapack i (id : Z → Z) _ _ (C39_ogden ⟨mu, alpha⟩ i id)
  obtain ⟨i₀⟩ := ‹Nonempty T›
  refine ⟨?_, ?_, ?_⟩
  · exact implements_grad (C61_deformation {} bc bc4 sv _ _ hM) (fun i => C39_deformation_gradient {} i id _ _ (hN i))
      { material := { material := () } } m s₁ F f z zv hF hz i₀
      fun G => ⟨{ material := { material := () } }, ogden_space_total .deformation lapack mu alpha ha G zv
        { material := { material := () } }⟩
  · exact implements_grad (C61_distortional {} bc bc4 sv _ _ hM) (fun i => C39_distortional_gradient {} i id _ _ (hN i))
      { material := { material := () } } m s₂ F f z zv hF hz i₀
      fun G => ⟨{ material := { material := () } }, ogden_space_total .distortional lapack mu alpha ha G zv
        { material := { material := () } }⟩
  · exact implements_grad (C61_dilatational {} bc bc4 sv _ _ hM) (fun i => C39_dilatational_gradient {} i id _ _ (hN i))
      { material := { material := () } } m s₃ F f z zv hF hz i₀
      fun G => ⟨{ material := { material := () } }, ogden_space_total .dilatational lapack mu alpha ha G zv
        { material := { material := () } }⟩

/-- Every content can be stored in a memory (so the hypotheses of the theorems can be met). -/
theorem holds_new {α : Type} [Content α] (v : α) (m : Mem) : Holds (new v m).2 (new v m).1 v := (makes_new v m).2.2.2

/-- Two points of simple shear; the objects are new. -/
example : ∃ (m : Mem) (F : Nd (Full2 (Arr (Fin 2)))), Holds m F (fun i j p => (!![1, (p.val + 1 : ℝ), 0; 0, 1, 0; 0, 0, 1] i j)) :=
  ⟨_, _, holds_new _ ⟨0, fun _ _ => 0⟩⟩

/-! ### histories -/

/-- What can happen around an object: its methods are called with any existing arrays (whether they return or raise),
and other code runs, which makes new arrays, writes to the buffers in `W`, and may even rebind the attributes of the
object. -/
inductive Runs (sv : SV Z Zv) (X : Memory.SpaceObj T Z σ) (W : Set ℕ) (a : Mem × σ) : Mem × σ → Prop
  | refl : Runs sv X W a a
  | gradient {m s} (h : Runs sv X W a (m, s)) (F f z zv) (hF : Holds m F f) (hz : sv.Is m z zv) :
      Runs sv X W a (X.gradient F z (m, s)).2
  | hessian {m s} (h : Runs sv X W a (m, s)) (F f z zv) (hF : Holds m F f) (hz : sv.Is m z zv) :
      Runs sv X W a (X.hessian F z (m, s)).2
  | other {m s} (h : Runs sv X W a (m, s)) (m' s') (hn : m.next ≤ m'.next)
      (hc : ∀ l < m.next, l ∉ W → m'.cell l = m.cell l) : Runs sv X W a (m', s')

/-- Along every history, an array is only changed by the code of the user. -/
theorem C61_history (sv : SV Z Zv) (X : Memory.SpaceObj T Z σ) (x : Batch.SpaceObj T Zv τ) (hX : X.Implements sv x) (t : τ)
    (W : Set ℕ) (a b : Mem × σ) (h : Runs sv X W a b) :
    a.1.next ≤ b.1.next ∧ (∀ l < a.1.next, l ∉ W → b.1.cell l = a.1.cell l) ∧
      ∀ {α : Type} [Content α] (A : Nd α) (v : α), Holds a.1 A v → A.loc ∉ W → Holds b.1 A v := by
  have key : a.1.next ≤ b.1.next ∧ ∀ l < a.1.next, l ∉ W → b.1.cell l = a.1.cell l := by
    induction h with
    | refl => exact ⟨le_rfl, fun _ _ _ => rfl⟩
    | @gradient m s h F f z zv hF hz ih =>
      have e := (hX.gradient m s t F f z zv hF hz).1
      exact ⟨ih.1.trans e.next, fun l hl hw => (e.cell l (hl.trans_le ih.1)).trans (ih.2 l hl hw)⟩
    | @hessian m s h F f z zv hF hz ih =>
      have e := (hX.hessian m s t F f z zv hF hz).1
      exact ⟨ih.1.trans e.next, fun l hl hw => (e.cell l (hl.trans_le ih.1)).trans (ih.2 l hl hw)⟩
    | @other m s h m' s' hn hc ih =>
      exact ⟨ih.1.trans hn, fun l hl hw => (hc l (hl.trans_le ih.1) hw).trans (ih.2 l hl hw)⟩
  refine ⟨key.1, key.2, fun A v hA hW => ⟨hA.loc.trans_le key.1, ?_⟩⟩
  rw [← hA.read]
  unfold Mem.read
  rw [key.2 _ hA.loc hW]

/-- A stress is returned; after any history in which the user does not change `F` and the state variables, but possibly
overwrites the returned stress and all arrays which the object keeps, the same call returns a stress with the same
content in another buffer; and the first stress has not changed either unless the user wrote to it. -/
theorem C61_repeat (sv : SV Z Zv) (X : Memory.SpaceObj T Z σ) (x : Batch.SpaceObj T Zv τ) (hX : X.Implements sv x) (t : τ)
    (W : Set ℕ) (m m' : Mem) (s s' : σ) (F : Nd (Full2 (Arr T))) (f : Full2 (Arr T)) (z z₁ : Z) (zv : Zv) (R : StressRef T)
    (hF : Holds m F f) (hz : sv.Is m z zv) (hR : (X.gradient F z (m, s)).1 = .ok (R, z₁))
    (h : Runs sv X W (X.gradient F z (m, s)).2 (m', s')) (hW : F.loc ∉ W) (hz' : sv.Is m' z zv) :
    ∃ v R' z₂, R.Is (X.gradient F z (m, s)).2.1 v ∧ (X.gradient F z (m', s')).1 = .ok (R', z₂) ∧
      R'.Is (X.gradient F z (m', s')).2.1 v ∧ R'.loc ≠ R.loc ∧ R'.loc ≠ F.loc ∧
      (R.loc ∉ W → R.Is (X.gradient F z (m', s')).2.1 v) := by
  obtain ⟨e1, h1⟩ := hX.gradient m s t F f z zv hF hz
  obtain ⟨n, c, k⟩ := C61_history sv X x hX t W _ _ h
  have hF' : Holds m' F f := k F f (hF.ext e1) hW
  obtain ⟨e2, h2⟩ := hX.gradient m' s' t F f z zv hF' hz'
  rw [hR] at h1
  rcases hx : (x.gradient f zv t).1 with e | ⟨v, zv'⟩
  · rw [hx] at h1; exact h1.elim
  rw [hx] at h1 h2
  obtain ⟨⟨R', z₂⟩, hR', l', hv', -⟩ := h2.ok
  obtain ⟨l, hv, -⟩ := h1
  have hl : R.loc < (X.gradient F z (m, s)).2.1.next := by
    rcases R with R | R <;> rcases v with v | v <;> first | exact hv.elim | exact hv.loc
  refine ⟨v, R', z₂, hv, hR', hv', ?_, ?_, fun hw => ?_⟩
  · have : m'.next ≤ R'.loc := l'
    have : _ ≤ m'.next := n
    omega
  · have : m'.next ≤ R'.loc := l'
    have := hF'.loc
    omega
  · rcases R with R | R <;> rcases v with v | v <;> first | exact hv.elim | exact (k R v hv hw).ext e2

/-- The same for the elasticity. -/
theorem C61_repeat_hessian (sv : SV Z Zv) (X : Memory.SpaceObj T Z σ) (x : Batch.SpaceObj T Zv τ) (hX : X.Implements sv x)
    (t : τ) (W : Set ℕ) (m m' : Mem) (s s' : σ) (F : Nd (Full2 (Arr T))) (f : Full2 (Arr T)) (z : Z) (zv : Zv)
    (R : ElasticityRef T) (hF : Holds m F f) (hz : sv.Is m z zv) (hR : (X.hessian F z (m, s)).1 = .ok R)
    (h : Runs sv X W (X.hessian F z (m, s)).2 (m', s')) (hW : F.loc ∉ W) (hz' : sv.Is m' z zv) :
    ∃ v R', R.Is (X.hessian F z (m, s)).2.1 v ∧ (X.hessian F z (m', s')).1 = .ok R' ∧
      R'.Is (X.hessian F z (m', s')).2.1 v ∧ R'.loc ≠ R.loc ∧ R'.loc ≠ F.loc ∧
      (R.loc ∉ W → R.Is (X.hessian F z (m', s')).2.1 v) := by
  obtain ⟨e1, h1⟩ := hX.hessian m s t F f z zv hF hz
  obtain ⟨n, c, k⟩ := C61_history sv X x hX t W _ _ h
  have hF' : Holds m' F f := k F f (hF.ext e1) hW
  obtain ⟨e2, h2⟩ := hX.hessian m' s' t F f z zv hF' hz'
  rw [hR] at h1
  rcases hx : (x.hessian f zv t).1 with e | v
  · rw [hx] at h1; exact h1.elim
  rw [hx] at h1 h2
  obtain ⟨R', hR', l', hv'⟩ := h2.ok
  obtain ⟨l, hv⟩ := h1
  have hl : R.loc < (X.hessian F z (m, s)).2.1.next := by
    rcases R with R | R <;> rcases v with v | v <;> first | exact hv.elim | exact hv.loc
  refine ⟨v, R', hv, hR', hv', ?_, ?_, fun hw => ?_⟩
  · have : m'.next ≤ R'.loc := l'
    have : _ ≤ m'.next := n
    omega
  · have : m'.next ≤ R'.loc := l'
    have := hF'.loc
    omega
  · rcases R with R | R <;> rcases v with v | v <;> first | exact hv.elim | exact (k R v hv hw).ext e2

/-- A user who overwrites the returned stress, and then evaluates again at the same `F`: the first stress is lost, the
second one is the same as the first one was. -/
example (m : Mem) (F : Nd (Full2 (Arr (Fin 2)))) (f : Full2 (Arr (Fin 2))) (hF : Holds m F f)
    (s : Memory.DefSt (Fin 2) (Memory.InvSt (Fin 2) Unit)) (X) (hX : X = Memory.Deformation.obj {} false false
      (Memory.Invariants.material (todMat (T := Fin 2) (Z := Unit) (TOD.init 1 2 0 0 0 false)))) :
    ∃ P p, (X.gradient F () (m, s)).1 = .ok (.full P, ()) ∧ Holds (X.gradient F () (m, s)).2.1 P p ∧
      ∀ m' s', m' = (put P (fun _ _ _ => 0) (X.gradient F () (m, s)).2.1).2 →
        ∃ P', (X.gradient F () (m', s')).1 = .ok (.full P', ()) ∧ Holds (X.gradient F () (m', s')).2.1 P' p := by
  classical
  subst hX
  have hI := C61_deformation {} false false (SV.pure Unit) _ _ (C61_invariants (SV.pure Unit) _ _
    (C61_third_order (T := Fin 2) 1 2 0 0 0 false (SV.pure Unit)))
  obtain ⟨P, p, z', h1, h2, h3, h4, -⟩ := (C61_third_order_stress 1 2 0 0 0 false false false (SV.pure Unit) m F f () () hF
    rfl s { material := { material := () } } { material := { material := () } }).1
  refine ⟨P, p, h1, h4, ?_⟩
  rintro m' s' rfl
  have hlF : F.loc ≠ P.loc := by have := hF.loc; omega
  obtain ⟨v, R', z₂, k1, k2, k3, -⟩ := C61_repeat (SV.pure Unit) _ _ hI { material := { material := () } } {P.loc} m _ s s' F f () z' ()
    (.full P) hF rfl h1 (.other .refl (put P (fun _ _ _ => 0) _).2 s' le_rfl fun l hl hw => by
      funext k
      exact dif_neg fun h => hw h.1) hlF rfl
  rcases v with v | v
  · exact k1.elim
  rcases R' with R' | R'
  · exact k3.elim
  have hv : p = v := h4.read.symm.trans k1.read
  subst hv
  exact ⟨R', k2, k3⟩

/-! ## C62 -/

/-- The array stores a symmetric tensor at every point. -/
def Field (v : Vec6 (Arr T)) (t : T → Ten2 ℝ) : Prop := ∀ i, Stores (pt i v) (t i)

/-- The array stores a minor-symmetric fourth-order tensor at every point. -/
def Field4 (v : Mat6 (Arr T)) (t : T → Ten4 ℝ) : Prop := ∀ i, Stores4 (pt2 i v) (t i)

/-- All buffers of `m` but `l` are unchanged in `m'`. -/
def OnlyChanges (l : ℕ) (m m' : Mem) : Prop := m.next ≤ m'.next ∧ ∀ k < m.next, k ≠ l → m'.cell k = m.cell k

theorem pt_field_inv {a : Vec6 (Arr T)} {t : T → Ten2 ℝ} (ha : Field a t) (hdet : ∀ i, (t i).det ≠ 0)
    {d : Option (Arr T)} (hd : ∀ e, d = some e → ∀ i, e i = (t i).det) : Field (Hel.inv a d) fun i => (t i)⁻¹ := by
  intro i
  rw [inv_pt]
  rcases d with _ | e
  · exact C04_inv (ha i) (hdet i)
  · rw [Option.map_some, hd e rfl i, C04_inv_determinant (ha i)]
    exact C04_inv (ha i) (hdet i)

/-- `inv(A, determinant, out)` with an array `out`, which may be `A` itself or overlap with it: the inverse is
stored in `out`, `out` is returned, and no other buffer is changed.  A given determinant must not be in the buffer of
`out`. -/
theorem C62_inv_out (m : Mem) (A O : V T) (a : Vec6 (Arr T)) (t : T → Ten2 ℝ) (hA : Holds m A a) (ha : Field a t)
    (hdet : ∀ i, (t i).det ≠ 0) (D : Option (Nd (Arr T)))
    (hD : ∀ B, D = some B → Holds m B (fun i => (t i).det) ∧ B.loc ≠ O.loc) (hO : O.loc < m.next) (hi : O.Inj) :
    (Memory.inv A D (some O) m).1 = O ∧ OnlyChanges O.loc m (Memory.inv A D (some O) m).2 ∧
      ∃ v, Holds (Memory.inv A D (some O) m).2 O v ∧ Field v fun i => (t i)⁻¹ := by
  have hD' : HoldsO m D (D.map fun _ i => (t i).det) := by
    rcases D with _ | B
    · trivial
    · exact (hD B rfl).1
  obtain ⟨h1, h2, h3, h4⟩ := inv_out hA hD' hO hi fun B hB => (hD B hB).2
  refine ⟨h1, ⟨h2, h3⟩, _, h4, pt_field_inv ha hdet fun e he i => ?_⟩
  rcases D with _ | B
  · cases he
  · cases he; rfl

/-- In place: `inv(A, out=A)` for an array with the tensors `2 * 1` and `3 * 1`. -/
example : ∃ (m : Mem) (A : V (Fin 2)) (v : Vec6 (Arr (Fin 2))), (Memory.inv A none (some A) m).1 = A ∧
    Holds (Memory.inv A none (some A) m).2 A v ∧ Field v fun i => ((i.val + 2 : ℝ) • (1 : Ten2 ℝ))⁻¹ := by
  have hf : Field (fun a i => ((i.val + 2 : ℝ) • (1 : Ten2 ℝ)) (pos a).1 (pos a).2 : Vec6 (Arr (Fin 2)))
      fun i => (i.val + 2 : ℝ) • (1 : Ten2 ℝ) := fun i => ⟨by
        show Matrix.transpose _ = _
        rw [Matrix.transpose_smul, Matrix.transpose_one], fun a => rfl⟩
  have h := makes_new (fun a i => ((i.val + 2 : ℝ) • (1 : Ten2 ℝ)) (pos a).1 (pos a).2 : Vec6 (Arr (Fin 2))) ⟨0, fun _ _ => 0⟩
  obtain ⟨h1, -, v, h2, h3⟩ := C62_inv_out _ _ _ _ _ h.2.2.2 hf (fun i => by
    rw [Matrix.det_smul, Matrix.det_one, mul_one]
    positivity) none (fun _ h => by cases h) h.2.2.2.loc h.2.2.1
  exact ⟨_, _, v, h1, h2, h3⟩

/-- Without `out` the inverse is in a new array and no buffer is changed. -/
theorem C62_inv_new (m : Mem) (A : V T) (a : Vec6 (Arr T)) (t : T → Ten2 ℝ) (hA : Holds m A a) (ha : Field a t)
    (hdet : ∀ i, (t i).det ≠ 0) (D : Option (Nd (Arr T))) (hD : ∀ B, D = some B → Holds m B (fun i => (t i).det)) :
    Ext m (Memory.inv A D none m).2 ∧ m.next ≤ (Memory.inv A D none m).1.loc ∧
      ∃ v, Holds (Memory.inv A D none m).2 (Memory.inv A D none m).1 v ∧ Field v fun i => (t i)⁻¹ := by
  have hD' : HoldsO m D (D.map fun _ i => (t i).det) := by
    rcases D with _ | B
    · trivial
    · exact hD B rfl
  obtain ⟨h1, h2, -, h4⟩ := makes_inv hA hD'
  refine ⟨h1, h2, _, h4, pt_field_inv ha hdet fun e he i => ?_⟩
  rcases D with _ | B
  · cases he
  · cases he; rfl

/-- `dya(A, B, out)` -/
theorem C62_dya_out (m : Mem) (A B : V T) (O : M T) (a b : Vec6 (Arr T)) (t u : T → Ten2 ℝ) (hA : Holds m A a)
    (ha : Field a t) (hB : Holds m B b) (hb : Field b u) (hO : O.loc < m.next) (hi : O.Inj) :
    (Memory.dya A B (some O) m).1 = O ∧ OnlyChanges O.loc m (Memory.dya A B (some O) m).2 ∧
      ∃ v, Holds (Memory.dya A B (some O) m).2 O v ∧ Field4 v fun i => dyad (t i) (u i) := by
  have h : wp (Memory.dya A B (some O)) m fun R m' => R = O ∧ OnlyChanges O.loc m m' ∧ Holds m' O (Hel.dya a b) := by
    refine wp_rd_bind hA (wp_rd_bind hB (wp_put_bind hO hi fun m' w k => wp_pure ⟨rfl, ⟨w.next.ge, fun l _ hl => w.cell l hl⟩, k⟩))
  exact ⟨h.1, h.2.1, _, h.2.2, fun i => by rw [dya_pt]; exact C06_dya (ha i) (hb i)⟩

theorem cdyaOut_out_pt (i : T) (same : Bool) (a b : Vec6 (Arr T)) (o : Mat6 (Arr T)) :
    pt2 i (cdyaOut same a b (some o)) = cdyaOut same (pt i a) (pt i b) (some (pt2 i o)) := by
  simp only [cdyaOut, writes_pt, List.map_map, Option.getD_some, Function.comp_def, cdyaValue_pt]

/-- `cdya(A, B, out)`: every entry of `out` is overwritten, whatever `out` contains, also if it overlaps with the
operands.  `same` is the outcome of `A is B`. -/
theorem C62_cdya_out (m : Mem) (same : Bool) (A B : V T) (O : M T) (a b : Vec6 (Arr T)) (t u : T → Ten2 ℝ)
    (hsame : same = true → A = B) (hA : Holds m A a)
    (ha : Field a t) (hB : Holds m B b) (hb : Field b u) (hO : O.loc < m.next) (hi : O.Inj) :
    (Memory.cdya same A B (some O) m).1 = O ∧ OnlyChanges O.loc m (Memory.cdya same A B (some O) m).2 ∧
      ∃ v, Holds (Memory.cdya same A B (some O) m).2 O v ∧ Field4 v fun i => dyadSym (t i) (u i) := by
  obtain ⟨h1, h2, h3, h4⟩ := cdya_out (m := m) same hA hB ⟨hO, rfl⟩ hi
  refine ⟨h1, ⟨h2, h3⟩, _, h4, fun i => ?_⟩
  rw [cdyaOut_out_pt]
  refine C07_cdya same _ (fun h => ?_) (ha i) (hb i)
  obtain rfl := hsame h
  rw [← hA.read, ← hB.read]

/-- `tril_from_triu(A, dim, out)` and `triu_from_tril(A, dim, out)` with an `out` which may be `A` itself or overlap
with it: `out` is returned, its triangle is mirrored from the content of `A` before the call, the other entries and all
other buffers are unchanged. -/
theorem C62_triangle_out {n : ℕ} (m : Mem) (A O : Nd (Fin n → Fin n → Arr T)) (dim : ℕ) (a o : Fin n → Fin n → Arr T)
    (hA : Holds m A a) (hO : Holds m O o) (hi : O.Inj) :
    ((Memory.trilFromTriu A dim (some O) m).1 = O ∧ OnlyChanges O.loc m (Memory.trilFromTriu A dim (some O) m).2 ∧
      ∃ v, Holds (Memory.trilFromTriu A dim (some O) m).2 O v ∧ (∀ i j, j < i → i.val < dim → v i j = a j i) ∧
        ∀ i j, ¬ (j < i ∧ i.val < dim) → v i j = o i j) ∧
    ((Memory.triuFromTril A dim (some O) m).1 = O ∧ OnlyChanges O.loc m (Memory.triuFromTril A dim (some O) m).2 ∧
      ∃ v, Holds (Memory.triuFromTril A dim (some O) m).2 O v ∧ (∀ i j, i < j → j.val < dim → v i j = a j i) ∧
        ∀ i j, ¬ (i < j ∧ j.val < dim) → v i j = o i j) := by
  have h1 : wp (Memory.trilFromTriu A dim (some O)) m fun R m' => R = O ∧ OnlyChanges O.loc m m' ∧
      Holds m' O fun r c => if c < r ∧ r.val < dim then a c r else o r c :=
    wp_bind (wp_pure (wp_rd_bind hA (wp_rd_bind hO (wp_put_bind hO.loc hi fun m' w k =>
      wp_pure ⟨rfl, ⟨w.next.ge, fun l _ hl => w.cell l hl⟩, k⟩))))
  have h2 : wp (Memory.triuFromTril A dim (some O)) m fun R m' => R = O ∧ OnlyChanges O.loc m m' ∧
      Holds m' O fun r c => if r < c ∧ c.val < dim then a c r else o r c :=
    wp_bind (wp_pure (wp_rd_bind hA (wp_rd_bind hO (wp_put_bind hO.loc hi fun m' w k =>
      wp_pure ⟨rfl, ⟨w.next.ge, fun l _ hl => w.cell l hl⟩, k⟩))))
  exact ⟨⟨h1.1, h1.2.1, _, h1.2.2, fun i j h h' => if_pos ⟨h, h'⟩, fun i j h => if_neg h⟩,
    h2.1, h2.2.1, _, h2.2.2, fun i j h h' => if_pos ⟨h, h'⟩, fun i j h => if_neg h⟩

/-- Without `out` the triangle functions return a new array and leave `A` unchanged. -/
theorem C62_triangle_new {n : ℕ} (m : Mem) (A : Nd (Fin n → Fin n → Arr T)) (dim : ℕ) (a : Fin n → Fin n → Arr T)
    (hA : Holds m A a) :
    (Ext m (Memory.trilFromTriu A dim none m).2 ∧ m.next ≤ (Memory.trilFromTriu A dim none m).1.loc ∧
      ∃ v, Holds (Memory.trilFromTriu A dim none m).2 (Memory.trilFromTriu A dim none m).1 v ∧
        (∀ i j, j < i → i.val < dim → v i j = a j i) ∧ ∀ i j, ¬ (j < i ∧ i.val < dim) → v i j = a i j) ∧
    (Ext m (Memory.triuFromTril A dim none m).2 ∧ m.next ≤ (Memory.triuFromTril A dim none m).1.loc ∧
      ∃ v, Holds (Memory.triuFromTril A dim none m).2 (Memory.triuFromTril A dim none m).1 v ∧
        (∀ i j, i < j → j.val < dim → v i j = a j i) ∧ ∀ i j, ¬ (i < j ∧ j.val < dim) → v i j = a i j) := by
  have h1 : Makes (Memory.trilFromTriu A dim none) m fun r c => if c < r ∧ r.val < dim then a c r else a r c := by
    refine (makes_copy hA).bind fun O m1 e l i k => ?_
    have e' := e
    carry e
    refine wp_rd_bind hA (wp_rd_bind k (wp_put_bind k.loc i fun m' w k' => wp_pure ⟨w.ext e' l, l, i, k'⟩))
  have h2 : Makes (Memory.triuFromTril A dim none) m fun r c => if r < c ∧ c.val < dim then a c r else a r c := by
    refine (makes_copy hA).bind fun O m1 e l i k => ?_
    have e' := e
    carry e
    refine wp_rd_bind hA (wp_rd_bind k (wp_put_bind k.loc i fun m' w k' => wp_pure ⟨w.ext e' l, l, i, k'⟩))
  exact ⟨⟨h1.1, h1.2.1, _, h1.2.2.2, fun i j h h' => if_pos ⟨h, h'⟩, fun i j h => if_neg h⟩,
    h2.1, h2.2.1, _, h2.2.2.2, fun i j h h' => if_pos ⟨h, h'⟩, fun i j h => if_neg h⟩

/-- What `cdya_ik` and `cdya_il` do with `out`: the result is returned in a new array, `out` receives the plain dyadic
product. -/
theorem C62_cdya_ik_out (m : Mem) (A B : V T) (O : M T) (a b : Vec6 (Arr T)) (t u : T → Ten2 ℝ) (hA : Holds m A a)
    (ha : Field a t) (hB : Holds m B b) (hb : Field b u) (hO : O.loc < m.next) (hi : O.Inj) :
    (m.next ≤ (Memory.cdya_ik A B (some O) m).1.loc ∧ OnlyChanges O.loc m (Memory.cdya_ik A B (some O) m).2 ∧
      (∃ v, Holds (Memory.cdya_ik A B (some O) m).2 O v ∧ Field4 v fun i => dyad (t i) (u i)) ∧
      ∃ w, Holds (Memory.cdya_ik A B (some O) m).2 (Memory.cdya_ik A B (some O) m).1 w ∧
        ∀ i, pt4 i w = dyadIK (t i) (u i)) ∧
    (m.next ≤ (Memory.cdya_il A B (some O) m).1.loc ∧ OnlyChanges O.loc m (Memory.cdya_il A B (some O) m).2 ∧
      (∃ v, Holds (Memory.cdya_il A B (some O) m).2 O v ∧ Field4 v fun i => dyad (t i) (u i)) ∧
      ∃ w, Holds (Memory.cdya_il A B (some O) m).2 (Memory.cdya_il A B (some O) m).1 w ∧
        ∀ i, pt4 i w = dyadIL (t i) (u i)) := by
  have h0 : wp (Memory.dya A B (some O)) m fun R m' => R = O ∧ OnlyChanges O.loc m m' ∧ Holds m' O (Hel.dya a b) := by
    refine wp_rd_bind hA (wp_rd_bind hB (wp_put_bind hO hi fun m' w k => wp_pure ⟨rfl, ⟨w.next.ge, fun l _ hl => w.cell l hl⟩, k⟩))
  have hd : Field4 (Hel.dya a b) fun i => dyad (t i) (u i) := fun i => by rw [dya_pt]; exact C06_dya (ha i) (hb i)
  have h1 : wp (Memory.cdya_ik A B (some O)) m fun R m' => m.next ≤ R.loc ∧ OnlyChanges O.loc m m' ∧
      Holds m' O (Hel.dya a b) ∧ Holds m' R (Hel.cdya_ik a b) := by
    refine wp_bind (wp_mono h0 ?_)
    rintro R m1 ⟨rfl, c, k⟩
    refine (makes_astensor4 k).bind fun Y m2 e l i h => wp_pure ⟨c.1.trans l, ⟨c.1.trans e.next, fun q hq hne => ?_⟩, k.ext e, h.swap12⟩
    rw [e.cell q (hq.trans_le c.1), c.2 q hq hne]
  have h2 : wp (Memory.cdya_il A B (some O)) m fun R m' => m.next ≤ R.loc ∧ OnlyChanges O.loc m m' ∧
      Holds m' O (Hel.dya a b) ∧ Holds m' R (Hel.cdya_il a b) := by
    refine wp_bind (wp_mono h0 ?_)
    rintro R m1 ⟨rfl, c, k⟩
    refine (makes_astensor4 k).bind fun Y m2 e l i h => wp_pure ⟨c.1.trans l, ⟨c.1.trans e.next, fun q hq hne => ?_⟩, k.ext e, h.swap13⟩
    rw [e.cell q (hq.trans_le c.1), c.2 q hq hne]
  exact ⟨⟨h1.1, h1.2.1, ⟨_, h1.2.2.1, hd⟩, _, h1.2.2.2, fun i => C06_cdya_ik (ha i) (hb i)⟩,
    h2.1, h2.2.1, ⟨_, h2.2.2.1, hd⟩, _, h2.2.2.2, fun i => C06_cdya_il (ha i) (hb i)⟩

/-- The documented meaning of `out` for `cdya_ik` and `cdya_il` ("a location into which the result is stored"): the
returned array is in the buffer of `out`. -/
def C62_CdyaOutFull : Prop := ∀ (m : Mem) (A B : V Unit) (O : M Unit), A.loc < m.next → B.loc < m.next → O.loc < m.next →
  O.Inj → (Memory.cdya_ik A B (some O) m).1.loc = O.loc ∧ (Memory.cdya_il A B (some O) m).1.loc = O.loc

/-- It is not true. -/
theorem C62_cdya_ik_false : ¬ C62_CdyaOutFull := by
  intro h
  obtain ⟨O, m, hO, hi⟩ : ∃ (O : M Unit) (m : Mem), O.loc < m.next ∧ O.Inj :=
    ⟨_, _, (makes_new (fun _ _ => 0 : Mat6 (Arr Unit)) ⟨0, fun _ _ => 0⟩).2.2.2.loc,
      (makes_new (fun _ _ => 0 : Mat6 (Arr Unit)) ⟨0, fun _ _ => 0⟩).2.2.1⟩
  have := (h m ⟨O.loc, fun _ => 0⟩ ⟨O.loc, fun _ => 0⟩ O hO hO hO hi).1
  have e : (Memory.cdya_ik ⟨O.loc, fun _ => 0⟩ ⟨O.loc, fun _ => 0⟩ (some O) m).1.loc = m.next := rfl
  omega

end

end Props
