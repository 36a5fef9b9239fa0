import Verif.Spec.Batch
import Verif.Spec.Api
import Verif.Spec.Energies
import Verif.Spec.Kinematics
import Verif.Model.Lab

/-!
# Specification vocabulary: the lab

The documented load cases, the documented normal force per undeformed area, keyword arguments,
and "this material object acts at every point like that space object".
-/

namespace Spec
open Hel Matrix

noncomputable section

variable {Z σ : Type}

/-- The three load cases of the package. -/
inductive LoadKind where
  | uniaxial
  | planar
  | biaxial

namespace LoadKind

/-- The documented deformation gradients (docstrings of `Uniaxial`, `Planar`, `Biaxial`). -/
def F : LoadKind → ℝ → Ten2 ℝ
  | uniaxial, l => diagonal ![l, 1 / √l, 1 / √l]
  | planar, l => diagonal ![l, 1, 1 / l]
  | biaxial, l => diagonal ![l, l, 1 / l ^ 2]

/-- The load case object, constructed with an optional label. -/
def case : LoadKind → Option String → LoadCase
  | uniaxial, lab => Hel.uniaxial lab
  | planar, lab => Hel.planar lab
  | biaxial, lab => Hel.biaxial lab

/-- The number of axes the stretch is applied on. -/
def axes : LoadKind → ℝ
  | uniaxial => 1
  | planar => 1
  | biaxial => 2

/-- The classical ratio of the initial slope of the normal force to the shear modulus of an
incompressible solid. -/
def initialRatio : LoadKind → ℝ
  | uniaxial => 3
  | planar => 4
  | biaxial => 6

end LoadKind

/-- The documented normal force per undeformed area `P - P_t λ_t / λ`, on the first axis, with
the third axis free of traction. -/
def normalForce (F P : Ten2 ℝ) : ℝ := P 0 0 - P 2 2 * F 2 2 / F 0 0

/-- The tensor at the data point `i`. -/
def tensorAt {ι : Type} (i : ι) (F : Full2 (Arr ι)) : Ten2 ℝ := pt2 i F

/-- The value last assigned to the key `k` in a list of assignments. -/
def assigned (l : List (String × ℝ)) (k : String) : Option ℝ := (l.reverse.find? (·.1 = k)).map (·.2)

/-- At every point of every batch the material object does what the space object `A` in the state
`s` does on that point alone. -/
def MatObj.ActsAs (B : MatObj Z) (A : SpaceObj Z σ) (s : σ) : Prop := ∀ n (i : Fin n) F z,
  (B.gradient n F z).map (fun r => (Stress.at i r.1, r.2)) = (A.gradient (pt2 i F) z s).1

end

end Spec
