import Verif.Model.Threads
import Verif.Spec.Api

/-!
# Vocabulary for threads which share one object (C70)
-/

namespace Spec
open Hel

/-- A call of one of the two methods. -/
inductive Method where
  | gradient
  | hessian

/-- What the call returns. -/
def Method.Result (Z : Type) : Method → Type
  | .gradient => Stress × Z
  | .hessian => Elasticity

/-- The method of a space object, run without interruption. -/
def Method.sequential {Z σ : Type} (obj : SpaceObj Z σ) (F : Full2 ℝ) (z : Z) : (c : Method) → PyM σ (c.Result Z)
  | .gradient => obj.gradient F z
  | .hessian => obj.hessian F z

/-- The same method as a sequence of atomic accesses of attributes. -/
noncomputable def Method.program {Z μ : Type} (w : Space) (cfg : SpaceCfg) (M : MatProg Z μ) (F : Full2 ℝ) (z : Z) :
    (c : Method) → Prog (w.St μ) (c.Result Z)
  | .gradient => match w with
    | .deformation => Threads.defGradient cfg M F z
    | .distortional => Threads.distGradient cfg M F z
    | .dilatational => Threads.dilGradient cfg M F z
  | .hessian => match w with
    | .deformation => Threads.defHessian cfg M F z
    | .distortional => Threads.distHessian cfg M F z
    | .dilatational => Threads.dilHessian cfg M F z

/-- A model whose methods assign and read no attributes but the parameters. -/
def Stateless {Z μ : Type} (M : Threads.InvProg Z μ) : Prop :=
  ∀ I1 I2 I3 z, (∃ r, M.gradient I1 I2 I3 z = .done r) ∧ ∃ r, M.hessian I1 I2 I3 z = .done r

/-- The same for a model in terms of stretches. -/
def StatelessStr {Z μ : Type} (M : Threads.StrProg Z μ) : Prop :=
  ∀ l z, (∃ r, M.gradient l z = .done r) ∧ ∃ r, M.hessian l z = .done r

end Spec
