import Verif.Proofs.Stretches
import Verif.Proofs.Models
import Verif.Props.Balance

/-! # Properties C35 and C24: histories of calls and state variables -/

namespace Props
open Spec Hel

variable {Z μ : Type}

/-! ## C35 -/

/-- The results of an `Invariants` object are determined by the arguments and the state of the
model inside: its own attributes, left behind by earlier calls, have no influence. -/
theorem C35_invariants (mat : InvMat ℝ Z μ) (c : Vec6 ℝ) (z : Z) (s s' : InvSt ℝ μ)
    (hs : s.material = s'.material) :
    ((Invariants.material mat).gradient c z s).1 = ((Invariants.material mat).gradient c z s').1 ∧
    ((Invariants.material mat).gradient c z s).2.material =
      ((Invariants.material mat).gradient c z s').2.material ∧
    ((Invariants.material mat).hessian c z s).1 = ((Invariants.material mat).hessian c z s').1 ∧
    ((Invariants.material mat).hessian c z s).2.material =
      ((Invariants.material mat).hessian c z s').2.material := by
  change (Invariants.gradient mat c z s).1 = (Invariants.gradient mat c z s').1 ∧
    (Invariants.gradient mat c z s).2.material = (Invariants.gradient mat c z s').2.material ∧
    (Invariants.hessian mat c z s).1 = (Invariants.hessian mat c z s').1 ∧
    (Invariants.hessian mat c z s).2.material = (Invariants.hessian mat c z s').2.material
  rw [Invariants.gradient_run, Invariants.gradient_run, Invariants.hessian_run, Invariants.hessian_run, hs]
  rcases mat.gradient (trace c) ((trace c ^ 2 - ddot c c) / 2) (det c) z s'.material with ⟨_ | r, m⟩
  · exact ⟨rfl, rfl, rfl, rfl⟩
  · refine ⟨rfl, rfl, ?_⟩
    dsimp only
    rcases mat.hessian (trace c) ((trace c ^ 2 - ddot c c) / 2) (det c) r.sv m with ⟨_ | h, m'⟩ <;>
      exact ⟨rfl, rfl⟩

/-- The same for a `Stretches` object. -/
theorem C35_stretches (lapack : Eigh) (mat : StrMat Z μ) (c : Vec6 ℝ) (z : Z) (s s' : StrSt μ)
    (hs : s.material = s'.material) :
    ((Stretches.material lapack mat).gradient c z s).1 = ((Stretches.material lapack mat).gradient c z s').1 ∧
    ((Stretches.material lapack mat).gradient c z s).2.material =
      ((Stretches.material lapack mat).gradient c z s').2.material ∧
    ((Stretches.material lapack mat).hessian c z s).1 = ((Stretches.material lapack mat).hessian c z s').1 ∧
    ((Stretches.material lapack mat).hessian c z s).2.material =
      ((Stretches.material lapack mat).hessian c z s').2.material := by
  change (Stretches.gradient lapack mat c z s).1 = (Stretches.gradient lapack mat c z s').1 ∧
    (Stretches.gradient lapack mat c z s).2.material = (Stretches.gradient lapack mat c z s').2.material ∧
    (Stretches.hessian lapack mat c z s).1 = (Stretches.hessian lapack mat c z s').1 ∧
    (Stretches.hessian lapack mat c z s).2.material = (Stretches.hessian lapack mat c z s').2.material
  rw [Stretches.gradient_run, Stretches.gradient_run, Stretches.hessian_run, Stretches.hessian_run, hs]
  rcases mat.gradient (eighSqrt lapack c).1 z s'.material with ⟨_ | ⟨g, z'⟩, m⟩
  · exact ⟨rfl, rfl, rfl, rfl⟩
  · refine ⟨rfl, rfl, ?_⟩
    rcases mat.hessian (eighSqrt lapack c).1 z' m with ⟨_ | h, m'⟩ <;> exact ⟨rfl, rfl⟩

/-- The same for a `GeneralizedInvariantsModel`. -/
theorem C35_generalized (g : GenInv) (mat : InvMat ℝ Z μ) (l : Vec3 ℝ) (z : Z) (s s' : GenSt μ)
    (hs : s.material = s'.material) :
    ((g.mat mat).gradient l z s).1 = ((g.mat mat).gradient l z s').1 ∧
    ((g.mat mat).gradient l z s).2.material = ((g.mat mat).gradient l z s').2.material ∧
    ((g.mat mat).hessian l z s).1 = ((g.mat mat).hessian l z s').1 ∧
    ((g.mat mat).hessian l z s).2.material = ((g.mat mat).hessian l z s').2.material := by
  change (GenInv.gradient g mat l z s).1 = (GenInv.gradient g mat l z s').1 ∧
    (GenInv.gradient g mat l z s).2.material = (GenInv.gradient g mat l z s').2.material ∧
    (GenInv.hessian g mat l z s).1 = (GenInv.hessian g mat l z s').1 ∧
    (GenInv.hessian g mat l z s).2.material = (GenInv.hessian g mat l z s').2.material
  rw [GenInv.gradient_run, GenInv.gradient_run, GenInv.hessian_run, GenInv.hessian_run, hs]
  rcases mat.gradient (g.J1 (g.ev l)) (g.J2 (g.ev l)) (GenInv.J3 (g.ev l)) z s'.material with ⟨_ | r, m⟩
  · exact ⟨rfl, rfl, rfl, rfl⟩
  · refine ⟨rfl, rfl, ?_⟩
    rcases mat.hessian (g.J1 (g.ev l)) (g.J2 (g.ev l)) (GenInv.J3 (g.ev l)) z m with ⟨_ | h, m'⟩ <;>
      exact ⟨rfl, rfl⟩

/-- The same for the three spaces, with every configuration. -/
theorem C35_spaces (w : Space) (cfg : SpaceCfg) (mat : Material ℝ Z μ) (F : Ten2 ℝ) (z : Z)
    (s s' : w.St μ) (hs : w.inner s = w.inner s') :
    ((w.obj cfg mat).gradient F z s).1 = ((w.obj cfg mat).gradient F z s').1 ∧
    w.inner ((w.obj cfg mat).gradient F z s).2 = w.inner ((w.obj cfg mat).gradient F z s').2 ∧
    ((w.obj cfg mat).hessian F z s).1 = ((w.obj cfg mat).hessian F z s').1 ∧
    w.inner ((w.obj cfg mat).hessian F z s).2 = w.inner ((w.obj cfg mat).hessian F z s').2 := by
  rcases w
  · exact Deformation.state_congr cfg mat F z s s' hs
  · exact Distortional.state_congr cfg mat F z s s' hs
  · exact Dilatational.state_congr cfg mat F z s s' hs

/-! For models without memory the results are independent of everything done before. -/

/-- An invariant-based material is without memory if its model is. -/
theorem C35_invariants_free (mat : InvMat ℝ Z μ) (h : InvMat.HistoryFree mat) :
    Material.HistoryFree (Invariants.material mat) := by
  intro c z s s'
  change (Invariants.gradient mat c z s).1 = (Invariants.gradient mat c z s').1 ∧
    (Invariants.hessian mat c z s).1 = (Invariants.hessian mat c z s').1
  rw [Invariants.gradient_run, Invariants.gradient_run, Invariants.hessian_run, Invariants.hessian_run]
  have h1 := (h (trace c) ((trace c ^ 2 - ddot c c) / 2) (det c) z s.material s'.material).1
  revert h1
  rcases mat.gradient (trace c) ((trace c ^ 2 - ddot c c) / 2) (det c) z s.material with ⟨_ | r, m⟩ <;>
    rcases mat.gradient (trace c) ((trace c ^ 2 - ddot c c) / 2) (det c) z s'.material with ⟨_ | r', m'⟩ <;>
    intro h1 <;> cases h1
  · exact ⟨rfl, rfl⟩
  · refine ⟨rfl, ?_⟩
    have h2 := (h (trace c) ((trace c ^ 2 - ddot c c) / 2) (det c) r.sv m m').2
    revert h2
    dsimp only
    rcases mat.hessian (trace c) ((trace c ^ 2 - ddot c c) / 2) (det c) r.sv m with ⟨_ | k, n⟩ <;>
      rcases mat.hessian (trace c) ((trace c ^ 2 - ddot c c) / 2) (det c) r.sv m' with ⟨_ | k', n'⟩ <;>
      intro h2 <;> cases h2 <;> rfl

/-- A stretch-based material is without memory if its model is. -/
theorem C35_stretches_free (lapack : Eigh) (mat : StrMat Z μ) (h : StrMat.HistoryFree mat) :
    Material.HistoryFree (Stretches.material lapack mat) := by
  intro c z s s'
  change (Stretches.gradient lapack mat c z s).1 = (Stretches.gradient lapack mat c z s').1 ∧
    (Stretches.hessian lapack mat c z s).1 = (Stretches.hessian lapack mat c z s').1
  rw [Stretches.gradient_run, Stretches.gradient_run, Stretches.hessian_run, Stretches.hessian_run]
  have h1 := (h (eighSqrt lapack c).1 z s.material s'.material).1
  revert h1
  rcases mat.gradient (eighSqrt lapack c).1 z s.material with ⟨_ | ⟨r, z1⟩, m⟩ <;>
    rcases mat.gradient (eighSqrt lapack c).1 z s'.material with ⟨_ | ⟨r', z2⟩, m'⟩ <;>
    intro h1 <;> cases h1
  · exact ⟨rfl, rfl⟩
  · refine ⟨rfl, ?_⟩
    have h2 := (h (eighSqrt lapack c).1 z1 m m').2
    revert h2
    dsimp only
    rcases mat.hessian (eighSqrt lapack c).1 z1 m with ⟨_ | k, n⟩ <;>
      rcases mat.hessian (eighSqrt lapack c).1 z1 m' with ⟨_ | k', n'⟩ <;>
      intro h2 <;> cases h2 <;> rfl

/-- The generalized-invariants model is without memory if its inner model is. -/
theorem C35_generalized_free (g : GenInv) (mat : InvMat ℝ Z μ) (h : InvMat.HistoryFree mat) :
    StrMat.HistoryFree (g.mat mat) := by
  intro l z s s'
  change (GenInv.gradient g mat l z s).1 = (GenInv.gradient g mat l z s').1 ∧
    (GenInv.hessian g mat l z s).1 = (GenInv.hessian g mat l z s').1
  rw [GenInv.gradient_run, GenInv.gradient_run, GenInv.hessian_run, GenInv.hessian_run]
  have h1 := (h (g.J1 (g.ev l)) (g.J2 (g.ev l)) (GenInv.J3 (g.ev l)) z s.material s'.material).1
  revert h1
  rcases mat.gradient (g.J1 (g.ev l)) (g.J2 (g.ev l)) (GenInv.J3 (g.ev l)) z s.material with ⟨_ | r, m⟩ <;>
    rcases mat.gradient (g.J1 (g.ev l)) (g.J2 (g.ev l)) (GenInv.J3 (g.ev l)) z s'.material with ⟨_ | r', m'⟩ <;>
    intro h1 <;> cases h1
  · exact ⟨rfl, rfl⟩
  · refine ⟨rfl, ?_⟩
    have h2 := (h (g.J1 (g.ev l)) (g.J2 (g.ev l)) (GenInv.J3 (g.ev l)) z m m').2
    revert h2
    dsimp only
    rcases mat.hessian (g.J1 (g.ev l)) (g.J2 (g.ev l)) (GenInv.J3 (g.ev l)) z m with ⟨_ | k, n⟩ <;>
      rcases mat.hessian (g.J1 (g.ev l)) (g.J2 (g.ev l)) (GenInv.J3 (g.ev l)) z m' with ⟨_ | k', n'⟩ <;>
      intro h2 <;> cases h2 <;> rfl

/-- After every sequence of calls - each with its own arguments, returning or raising - a space
on top of a memory-free framework returns (or raises) what a freshly built one does, whatever
the state of the material inside. -/
theorem C35_sequence (w : Space) (cfg : SpaceCfg) (mat : Material ℝ Z μ) (h : Material.HistoryFree mat)
    (calls : List (Call Z)) (s : w.St μ) (m₀ : μ) (F : Ten2 ℝ) (z : Z) :
    ((w.obj cfg mat).gradient F z (SpaceObj.after (w.obj cfg mat) calls s)).1 =
      ((w.obj cfg mat).gradient F z (w.fresh m₀)).1 ∧
    ((w.obj cfg mat).hessian F z (SpaceObj.after (w.obj cfg mat) calls s)).1 =
      ((w.obj cfg mat).hessian F z (w.fresh m₀)).1 := by
  generalize SpaceObj.after (w.obj cfg mat) calls s = s'
  rcases w
  · exact Deformation.history_free cfg mat h F z s' _
  · exact Distortional.history_free cfg mat h F z s' _
  · exact Dilatational.history_free cfg mat h F z s' _

/-- End to end: third-order-deformation materials are memory-free ... -/
theorem C35_third_order (m : TOD ℝ) : InvMat.HistoryFree (Z := Z) (μ := Unit) m.mat := by
  intro I1 I2 I3 z s s'
  exact ⟨rfl, rfl⟩

/-- ... and so are Ogden materials. -/
theorem C35_ogden (m : Ogden) : StrMat.HistoryFree (Z := Z) (μ := Unit) m.mat := by
  intro l z s s'
  exact ⟨rfl, rfl⟩

/-- Non-trivial instance: an Ogden material whose exponent is zero raises in every call, and the
object used again afterwards behaves as a new one. -/
example (lapack : Eigh) (F₁ F₂ : Ten2 ℝ) :
    ((Space.distortional.obj {} (Stretches.material lapack (Ogden.mat ⟨[1], [2]⟩))).gradient F₂ ()
      (SpaceObj.after (Space.distortional.obj {} (Stretches.material lapack (Ogden.mat ⟨[1], [2]⟩)))
        [.gradient F₁ (), .hessian F₁ (), .gradient F₂ ()] (Space.distortional.fresh { material := () }))).1 =
    ((Space.distortional.obj {} (Stretches.material lapack (Ogden.mat ⟨[1], [2]⟩))).gradient F₂ ()
      (Space.distortional.fresh { material := () })).1 :=
  (C35_sequence .distortional {} _ (C35_stretches_free lapack _ (C35_ogden _)) _ _ _ F₂ ()).1

/-! ## C24

The state type `μ` of the model inside is arbitrary, so the threading of the model's states below
says exactly which calls of the model were made: a model may record all calls in its state. -/

/-- `gradient` of every space calls the material's gradient once, with the supplied state
variables, and returns the state variables this call returned. -/
theorem C24_spaces_gradient (w : Space) (cfg : SpaceCfg) (mat : Material ℝ Z μ) (F : Ten2 ℝ) (z z' : Z)
    (P : Stress) (s s' : w.St μ) (h : (w.obj cfg mat).gradient F z s = (.ok (P, z'), s')) :
    ∃ c g, mat.gradient c z (w.inner s) = (.ok (g, z'), w.inner s') := by
  rcases w
  · exact ⟨_, Deformation.calls_gradient h⟩
  · exact ⟨_, Distortional.calls_gradient h⟩
  · exact ⟨_, Dilatational.calls_gradient h⟩

/-- `hessian` of every space calls the material's gradient and then its hessian, both with the
state variables supplied by the caller. -/
theorem C24_spaces_hessian (w : Space) (cfg : SpaceCfg) (mat : Material ℝ Z μ) (F : Ten2 ℝ) (z : Z)
    (A : Elasticity) (s s' : w.St μ) (h : (w.obj cfg mat).hessian F z s = (.ok A, s')) :
    ∃ c g z' m k, mat.gradient c z (w.inner s) = (.ok (g, z'), m) ∧
      mat.hessian c z m = (.ok k, w.inner s') := by
  rcases w
  · exact ⟨_, Deformation.calls_hessian h⟩
  · exact ⟨_, Distortional.calls_hessian h⟩
  · exact ⟨_, Dilatational.calls_hessian h⟩

/-- `Invariants.gradient` calls the model's gradient once, with the supplied state variables, and
returns the state variables the model returned. -/
theorem C24_invariants_gradient (mat : InvMat ℝ Z μ) (c g : Vec6 ℝ) (z z' : Z) (s s' : InvSt ℝ μ)
    (h : (Invariants.material mat).gradient c z s = (.ok (g, z'), s')) :
    ∃ I1 I2 I3 r, mat.gradient I1 I2 I3 z s.material = (.ok r, s'.material) ∧ r.sv = z' := by
  change Invariants.gradient mat c z s = _ at h
  rw [Invariants.gradient_run] at h
  refine ⟨trace c, (trace c ^ 2 - ddot c c) / 2, det c, ?_⟩
  revert h
  rcases mat.gradient (trace c) ((trace c ^ 2 - ddot c c) / 2) (det c) z s.material with ⟨_ | r, m⟩ <;>
    intro h <;> cases h
  exact ⟨r, rfl, rfl⟩

/-- The same for `Stretches.gradient`. -/
theorem C24_stretches_gradient (lapack : Eigh) (mat : StrMat Z μ) (c g : Vec6 ℝ) (z z' : Z) (s s' : StrSt μ)
    (h : (Stretches.material lapack mat).gradient c z s = (.ok (g, z'), s')) :
    ∃ l d, mat.gradient l z s.material = (.ok (d, z'), s'.material) := by
  change Stretches.gradient lapack mat c z s = _ at h
  rw [Stretches.gradient_run] at h
  refine ⟨(eighSqrt lapack c).1, ?_⟩
  revert h
  rcases mat.gradient (eighSqrt lapack c).1 z s.material with ⟨_ | ⟨r, z''⟩, m⟩ <;> intro h <;> cases h
  exact ⟨r, rfl⟩

/-- The same for `GeneralizedInvariantsModel.gradient`. -/
theorem C24_generalized_gradient (g : GenInv) (mat : InvMat ℝ Z μ) (l d : Vec3 ℝ) (z z' : Z) (s s' : GenSt μ)
    (h : (g.mat mat).gradient l z s = (.ok (d, z'), s')) :
    ∃ I1 I2 I3 r, mat.gradient I1 I2 I3 z s.material = (.ok r, s'.material) ∧ r.sv = z' := by
  change GenInv.gradient g mat l z s = _ at h
  rw [GenInv.gradient_run] at h
  refine ⟨g.J1 (g.ev l), g.J2 (g.ev l), GenInv.J3 (g.ev l), ?_⟩
  revert h
  rcases mat.gradient (g.J1 (g.ev l)) (g.J2 (g.ev l)) (GenInv.J3 (g.ev l)) z s.material with ⟨_ | r, m⟩ <;>
    intro h <;> cases h
  exact ⟨r, rfl, rfl⟩

/-- `GeneralizedInvariantsModel.hessian` hands the supplied state variables to the model. -/
theorem C24_generalized_hessian (g : GenInv) (mat : InvMat ℝ Z μ) (l : Vec3 ℝ) (z : Z) (H : StrHess)
    (s s' : GenSt μ) (h : (g.mat mat).hessian l z s = (.ok H, s')) :
    ∃ I1 I2 I3 r m k, mat.gradient I1 I2 I3 z s.material = (.ok r, m) ∧
      mat.hessian I1 I2 I3 z m = (.ok k, s'.material) := by
  change GenInv.hessian g mat l z s = _ at h
  rw [GenInv.hessian_run] at h
  refine ⟨g.J1 (g.ev l), g.J2 (g.ev l), GenInv.J3 (g.ev l), ?_⟩
  revert h
  rcases mat.gradient (g.J1 (g.ev l)) (g.J2 (g.ev l)) (GenInv.J3 (g.ev l)) z s.material with ⟨_ | r, m⟩
  · intro h; cases h
  · intro h
    refine ⟨r, m, ?_⟩
    revert h
    dsimp only
    rcases mat.hessian (g.J1 (g.ev l)) (g.J2 (g.ev l)) (GenInv.J3 (g.ev l)) z m with ⟨_ | k, n⟩ <;>
      intro h <;> cases h
    exact ⟨k, rfl, rfl⟩

/-- `Invariants.hessian` hands over the state variables supplied by the caller if the model
returns them unchanged.  Missing: models which update their state variables - for them the
claim is false, see `C24_invariants_false`. -/
theorem C24_invariants_partial (mat : InvMat ℝ Z μ) (c : Vec6 ℝ) (z : Z) (H : Mat6 ℝ) (s s' : InvSt ℝ μ)
    (hk : InvMat.KeepsState mat z)
    (h : (Invariants.material mat).hessian c z s = (.ok H, s')) :
    ∃ I1 I2 I3 r m k, mat.gradient I1 I2 I3 z s.material = (.ok r, m) ∧
      mat.hessian I1 I2 I3 z m = (.ok k, s'.material) := by
  change Invariants.hessian mat c z s = _ at h
  rw [Invariants.hessian_run] at h
  refine ⟨trace c, (trace c ^ 2 - ddot c c) / 2, det c, ?_⟩
  have hk' := hk (trace c) ((trace c ^ 2 - ddot c c) / 2) (det c) s.material
  unfold Returns at hk'
  revert h hk'
  rcases mat.gradient (trace c) ((trace c ^ 2 - ddot c c) / 2) (det c) z s.material with ⟨_ | r, m⟩
  · intro h; cases h
  · intro h hk'
    obtain rfl := hk' r rfl
    refine ⟨r, m, ?_⟩
    revert h
    dsimp only
    rcases mat.hessian (trace c) ((trace c ^ 2 - ddot c c) / 2) (det c) r.sv m with ⟨_ | k, n⟩
    · intro h; cases h
    · intro h
      refine ⟨k, rfl, ?_⟩
      have := (Prod.mk.inj h).2
      rw [← this]; rfl

/-- The same for `Stretches.hessian`; see `C24_stretches_false`. -/
theorem C24_stretches_partial (lapack : Eigh) (mat : StrMat Z μ) (c : Vec6 ℝ) (z : Z) (H : Mat6 ℝ)
    (s s' : StrSt μ) (hk : StrMat.KeepsState mat z)
    (h : (Stretches.material lapack mat).hessian c z s = (.ok H, s')) :
    ∃ l d z' m k, mat.gradient l z s.material = (.ok (d, z'), m) ∧
      mat.hessian l z m = (.ok k, s'.material) := by
  change Stretches.hessian lapack mat c z s = _ at h
  rw [Stretches.hessian_run] at h
  refine ⟨(eighSqrt lapack c).1, ?_⟩
  have hk' := hk (eighSqrt lapack c).1 s.material
  unfold Returns at hk'
  revert h hk'
  rcases mat.gradient (eighSqrt lapack c).1 z s.material with ⟨_ | ⟨r, z''⟩, m⟩
  · intro h; cases h
  · intro h hk'
    obtain rfl := hk' r z'' rfl
    refine ⟨r, z'', m, ?_⟩
    revert h
    dsimp only
    rcases mat.hessian (eighSqrt lapack c).1 z'' m with ⟨_ | k, n⟩
    · intro h; cases h
    · intro h
      refine ⟨k, rfl, ?_⟩
      have := (Prod.mk.inj h).2
      rw [← this]; rfl

/-- An invariant-based model which counts the increments in its state variable and keeps a record
of the state variables handed to it: `(method is hessian, state variable)`. -/
def recorder : InvMat ℝ ℕ (List (Bool × ℕ)) where
  gradient _ _ _ z := fun m => (.ok ⟨none, none, none, z + 1⟩, m ++ [(false, z)])
  hessian _ _ _ z := fun m => (.ok ⟨none, none, none, none, none, none⟩, m ++ [(true, z)])

/-- A stretch-based model of the same kind. -/
def recorderStr : StrMat ℕ (List (Bool × ℕ)) where
  gradient _ z := fun m => (.ok (fun _ => 0, z + 1), m ++ [(false, z)])
  hessian _ z := fun m => (.ok (.array fun _ => 0), m ++ [(true, z)])

/-- In the `Invariants` framework the claim is false for the hessian: with state variable `0` the
model's hessian is handed the updated value `1`. -/
theorem C24_invariants_false (c : Vec6 ℝ) :
    ((Invariants.material recorder).hessian c 0 { material := [] }).2.material = [(false, 0), (true, 1)] := by
  change (Invariants.hessian recorder c 0 { material := [] }).2.material = _
  rw [Invariants.hessian_run]
  rfl

/-- The same in the `Stretches` framework. -/
theorem C24_stretches_false (lapack : Eigh) (c : Vec6 ℝ) :
    ((Stretches.material lapack recorderStr).hessian c 0 { material := [] }).2.material =
      [(false, 0), (true, 1)] := by
  change (Stretches.hessian lapack recorderStr c 0 { material := [] }).2.material = _
  rw [Stretches.hessian_run]
  rfl

/-- In the `GeneralizedInvariants` framework one call of hessian advances the model's state
variables twice, and the model's hessian sees the once updated ones. -/
theorem C24_generalized_false (lapack : Eigh) (g : GenInv) (c : Vec6 ℝ) :
    ((generalizedFramework lapack g recorder).hessian c 0 { material := { material := [] } }).2.material.material =
      [(false, 0), (false, 1), (true, 1)] := by
  change (Stretches.hessian lapack (g.mat recorder) c 0 { material := { material := [] } }).2.material.material = _
  rfl

/-- A framework of the same kind. -/
def recorderMat : Material ℝ ℕ (List (Bool × ℕ)) where
  gradient _ z := fun m => (.ok (fun _ => 0, z + 1), m ++ [(false, z)])
  hessian _ z := fun m => (.ok fun _ _ => 0, m ++ [(true, z)])

/-- The spaces do hand over the supplied state variable. -/
example (w : Space) (cfg : SpaceCfg) (F : Ten2 ℝ) :
    w.inner ((w.obj cfg recorderMat).hessian F 0 (w.fresh [])).2 = [(false, 0), (true, 0)] := by
  rcases w
  · rfl
  · rfl
  · rfl

end Props
