import Verif.Spec.Calculus
import Verif.Model.Stretches
import Verif.Model.Space

/-!
# Specification vocabulary: what API calls return

Relations "a call of this method with these arguments, on the object in some state of its
attributes, returns this", translated from Voigt storage / lists with `None` to full tensors
and numbers (`None` counts as zero).  All relations quantify over every object state, i.e.
over every history of earlier calls.
-/

namespace Spec

open Hel

variable {Z μ σ : Type}

/-- `(dWdI1, dWdI2, dWdI3)` with `None` as zero. -/
def InvGrad.vec (r : InvGrad ℝ Z) : Fin 3 → ℝ := ![r.d1.getD 0, r.d2.getD 0, r.d3.getD 0]

/-- The symmetric matrix of second derivatives with `None` as zero. -/
def InvHess.mat (h : InvHess ℝ) : Fin 3 → Fin 3 → ℝ :=
  ![![h.h11.getD 0, h.h12.getD 0, h.h13.getD 0],
    ![h.h12.getD 0, h.h22.getD 0, h.h23.getD 0],
    ![h.h13.getD 0, h.h23.getD 0, h.h33.getD 0]]

/-- The six second derivatives returned by a stretch-based model, `None` as zero. -/
def StrHess.vec : StrHess → Fin 6 → ℝ
  | .array h => h
  | .list h => fun m => (h m).getD 0

/-- Documented order of the second derivatives: 11, 22, 33, 12, 23, 13. -/
def StrHess.mat (h : StrHess) : Fin 3 → Fin 3 → ℝ :=
  ![![StrHess.vec h 0, StrHess.vec h 3, StrHess.vec h 5],
    ![StrHess.vec h 3, StrHess.vec h 1, StrHess.vec h 4],
    ![StrHess.vec h 5, StrHess.vec h 4, StrHess.vec h 2]]

/-- An invariant-based model may return the gradient `g` at the invariants `x`. -/
def InvMat.Grad (mat : InvMat ℝ Z μ) (z : Z) (x g : Fin 3 → ℝ) : Prop :=
  ∃ s r, Returns (mat.gradient (x 0) (x 1) (x 2) z) s r ∧ g = InvGrad.vec r

/-- An invariant-based model may return the hessian `h` at the invariants `x`. -/
def InvMat.Hess (mat : InvMat ℝ Z μ) (z : Z) (x : Fin 3 → ℝ) (h : Fin 3 → Fin 3 → ℝ) : Prop :=
  ∃ s r, Returns (mat.hessian (x 0) (x 1) (x 2) z) s r ∧ h = InvHess.mat r

/-- The model returns the state variables it was given. -/
def InvMat.KeepsState (mat : InvMat ℝ Z μ) (z : Z) : Prop :=
  ∀ I1 I2 I3 s r, Returns (mat.gradient I1 I2 I3 z) s r → r.sv = z

/-- A stretch-based model may return the gradient `g` at the stretches `x`. -/
def StrMat.Grad (mat : StrMat Z μ) (z : Z) (x g : Fin 3 → ℝ) : Prop :=
  ∃ s z', Returns (mat.gradient x z) s (g, z')

/-- A stretch-based model may return the hessian `h` at the stretches `x`. -/
def StrMat.Hess (mat : StrMat Z μ) (z : Z) (x : Fin 3 → ℝ) (h : Fin 3 → Fin 3 → ℝ) : Prop :=
  ∃ s r, Returns (mat.hessian x z) s r ∧ h = StrHess.mat r

/-- The model returns the state variables it was given. -/
def StrMat.KeepsState (mat : StrMat Z μ) (z : Z) : Prop :=
  ∀ x s g z', Returns (mat.gradient x z) s (g, z') → z' = z

/-- A framework (a material for the spaces) may return the gradient `G` at `C`. -/
def Material.Grad (mat : Material ℝ Z μ) (z : Z) (C G : Ten2 ℝ) : Prop :=
  ∃ s c g z', Stores c C ∧ Stores g G ∧ Returns (mat.gradient c z) s (g, z')

/-- A framework may return the hessian `H` at `C`. -/
def Material.Hess (mat : Material ℝ Z μ) (z : Z) (C : Ten2 ℝ) (H : Ten4 ℝ) : Prop :=
  ∃ s c h, Stores c C ∧ Stores4 h H ∧ Returns (mat.hessian c z) s h

/-- A space may return the (full-storage) stress `P` at the deformation gradient `F`. -/
def SpaceObj.Grad (sp : SpaceObj Z σ) (z : Z) (F P : Ten2 ℝ) : Prop :=
  ∃ s z', Returns (sp.gradient F z) s (.full P, z')

/-- A space may return the (full-storage) elasticity `A` at the deformation gradient `F`. -/
def SpaceObj.Hess (sp : SpaceObj Z σ) (z : Z) (F : Ten2 ℝ) (A : Ten4 ℝ) : Prop :=
  ∃ s, Returns (sp.hessian F z) s (.full A)

/-- The three spaces of the package. -/
inductive Space where
  | deformation
  | distortional
  | dilatational

namespace Space

/-- The attributes of an object of the space. -/
def St : Space → Type → Type
  | deformation, μ => DefSt μ
  | distortional, μ => DistSt μ
  | dilatational, μ => DilSt μ

/-- The state of the material inside the object. -/
def inner : (w : Space) → w.St μ → μ
  | deformation, s => DefSt.material s
  | distortional, s => DistSt.material s
  | dilatational, s => DilSt.material s

/-- A freshly constructed object. -/
def fresh : (w : Space) → μ → w.St μ
  | deformation, m => { material := m : DefSt μ }
  | distortional, m => { material := m : DistSt μ }
  | dilatational, m => { material := m : DilSt μ }

/-- The methods of an object of the space, constructed with the options `cfg`. -/
noncomputable def obj : (w : Space) → SpaceCfg → Material ℝ Z μ → SpaceObj Z (w.St μ)
  | deformation, cfg, mat => Deformation.obj cfg mat
  | distortional, cfg, mat => Distortional.obj cfg mat
  | dilatational, cfg, mat => Dilatational.obj cfg mat

end Space

/-! ### Isotropy -/

/-- The gradient of the framework rotates with its argument: a call with `Q C Qᵀ` returns
`Q G Qᵀ` if the call with `C`, on the same object in the same state, returns `G`. -/
def Material.Isotropic (mat : Material ℝ Z μ) (z : Z) : Prop :=
  ∀ (Q C G : Ten2 ℝ) c c' g z' m, Orthogonal Q → PosDef C → Stores c C → Stores c' (rotate Q C) →
    Stores g G → Returns (mat.gradient c z) m (g, z') →
    ∃ g', Stores g' (rotate Q G) ∧ Returns (mat.gradient c' z) m (g', z')

/-! ### Histories of calls -/

/-- What the methods of an invariant-based model return does not depend on the object's state. -/
def InvMat.HistoryFree (mat : InvMat ℝ Z μ) : Prop := ∀ I1 I2 I3 z s s',
  (mat.gradient I1 I2 I3 z s).1 = (mat.gradient I1 I2 I3 z s').1 ∧
  (mat.hessian I1 I2 I3 z s).1 = (mat.hessian I1 I2 I3 z s').1

/-- The same for a stretch-based model. -/
def StrMat.HistoryFree (mat : StrMat Z μ) : Prop := ∀ l z s s',
  (mat.gradient l z s).1 = (mat.gradient l z s').1 ∧ (mat.hessian l z s).1 = (mat.hessian l z s').1

/-- The same for a framework. -/
def Material.HistoryFree (mat : Material ℝ Z μ) : Prop := ∀ c z s s',
  (mat.gradient c z s).1 = (mat.gradient c z s').1 ∧ (mat.hessian c z s).1 = (mat.hessian c z s').1

/-- A call of a method of a space. -/
inductive Call (Z : Type) where
  | gradient (F : Ten2 ℝ) (z : Z)
  | hessian (F : Ten2 ℝ) (z : Z)

/-- The state of the object after a sequence of calls, each of which may return or raise. -/
def SpaceObj.after (sp : SpaceObj Z σ) (calls : List (Call Z)) (s : σ) : σ :=
  calls.foldl (fun s c => match c with
    | .gradient F z => (sp.gradient F z s).2
    | .hessian F z => (sp.hessian F z s).2) s

end Spec
