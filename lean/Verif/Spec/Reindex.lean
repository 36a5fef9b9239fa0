import Verif.Spec.Batch

/-!
# Specification vocabulary: other points in a batch

A batch over `ι` and a map `σ : ι' → ι` give the batch whose point `j` is the point `σ j`: the
points are reordered (`σ` a bijection), repeated (`σ` surjective) or selected (any `σ`), as by
`F[..., indices]` in numpy.  State variables are arrays with the same trailing axes.
-/

namespace Spec
open Hel

variable {ι ι' Z μ : Type}

/-- `F[..., indices]` for an array with two leading axes. -/
def along2 {m n : ℕ} (σ : ι' → ι) (v : Fin m → Fin n → Arr ι) : Fin m → Fin n → Arr ι' := fun a b j => v a b (σ j)

/-- `stress[..., indices]` -/
def Stress.along (σ : ι' → ι) : Batch.Stress ι → Batch.Stress ι'
  | .voigt s => .voigt fun a j => s a (σ j)
  | .full p => .full fun a b j => p a b (σ j)

/-- `elasticity[..., indices]` -/
def Elasticity.along (σ : ι' → ι) : Batch.Elasticity ι → Batch.Elasticity ι'
  | .voigt s => .voigt fun a b j => s a b (σ j)
  | .full p => .full fun a b c d j => p a b c d (σ j)

/-- The stress of the selected points is the selection of the stress: the results, the new state
variables and the exceptions, whatever was called before on either object. -/
def SpaceObj.GradAlong {ν : Type} (σ : ι' → ι) (B : Batch.SpaceObj ι (ι → Z) μ)
    (B' : Batch.SpaceObj ι' (ι' → Z) ν) : Prop :=
  ∀ F z s t, (B'.gradient (along2 σ F) (z ∘ σ) t).1 =
    (B.gradient F z s).1.map fun r => (Stress.along σ r.1, r.2 ∘ σ)

/-- The elasticity of the selected points is the selection of the elasticity. -/
def SpaceObj.HessAlong {ν : Type} (σ : ι' → ι) (B : Batch.SpaceObj ι (ι → Z) μ)
    (B' : Batch.SpaceObj ι' (ι' → Z) ν) : Prop :=
  ∀ F z s t, (B'.hessian (along2 σ F) (z ∘ σ) t).1 =
    (B.hessian F z s).1.map (Elasticity.along σ)

/-- A material that can be evaluated on batches of any shape and acts on every point separately. -/
structure Pointwise (Z : Type) where
  /-- its attributes when it works on batches over `ι` -/
  attrs : Type → Type
  /-- the material on batches over `ι` -/
  batch : ∀ ι : Type, Material (Arr ι) (ι → Z) (attrs ι)
  /-- its attributes at a single point -/
  attrs1 : Type
  /-- the attributes of a new object -/
  new1 : attrs1
  /-- the material at a single point -/
  single : Material ℝ Z attrs1
  /-- every point of a batch is evaluated as if alone -/
  agrees : ∀ (ι : Type) (i : ι), Material.AgreesAt i (fun z => z i) (batch ι) single

end Spec
