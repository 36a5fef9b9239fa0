import Verif.Spec.Lab

/-!
# Specification vocabulary: a test seen from its free direction

Incompressible tension in one direction is equi-biaxial compression in the two others; planar
tension in one direction is planar compression in the other one.
-/

namespace Spec

noncomputable section

namespace LoadKind

/-- The test seen from the direction which is traction-free. -/
def mirror : LoadKind → LoadKind
  | uniaxial => biaxial
  | planar => planar
  | biaxial => uniaxial

/-- The stretch in the traction-free direction. -/
def mirrorStretch : LoadKind → ℝ → ℝ
  | uniaxial, l => 1 / √l
  | planar, l => 1 / l
  | biaxial, l => 1 / l ^ 2

end LoadKind

end

end Spec
