import Verif.Model.Py
import Verif.Model.Voigt

/-!
# Model of `src/hyperelastic/models/invariants/`

The interface expected by `frameworks.Invariants`, and `ThirdOrderDeformation`.
-/

namespace Hel

/-- What an invariant-based model's `gradient` returns: `dWdI1, dWdI2, dWdI3, statevars`
(`None` allowed for the derivatives). -/
structure InvGrad (K Z : Type) where
  d1 : Option K
  d2 : Option K
  d3 : Option K
  sv : Z

/-- What an invariant-based model's `hessian` returns:
`d2WdI1I1, d2WdI2I2, d2WdI3I3, d2WdI1I2, d2WdI2I3, d2WdI1I3`. -/
structure InvHess (K : Type) where
  h11 : Option K
  h22 : Option K
  h33 : Option K
  h12 : Option K
  h23 : Option K
  h13 : Option K

/-- An invariant-based material object with internal state `μ` (README, "Invariant-based
material formulations"). -/
structure InvMat (K Z μ : Type) where
  gradient : K → K → K → Z → PyM μ (InvGrad K Z)
  hessian : K → K → K → Z → PyM μ (InvHess K)

/-- `x += y` on a local that may be `None`: `None += y` raises `TypeError`. -/
def addTo {K : Type} [Add K] (x : Option K) (y : K) : Res (Option K) :=
  match x with
  | some a => .ok (some (a + y))
  | none => .error .typeError

/-- Attributes of `ThirdOrderDeformation`; `_third_order_deformation.py` lines 45-52. -/
structure TOD (K : Type) where
  C10 : K
  C01 : K
  C11 : K
  C20 : K
  C30 : K
  undeformed : K

variable {K Z : Type}

/-- `ThirdOrderDeformation.__init__`; lines 40-52. -/
def TOD.init [CommRing K] [Div K] (C10 C01 C11 C20 C30 : K) (strain : Bool) : TOD K :=
  { C10, C01, C11, C20, C30, undeformed := if strain then 0 else 3 }

/-- `ThirdOrderDeformation.gradient`; lines 54-84. -/
def TOD.gradient [CommRing K] [Div K] [DecidableEq K] (m : TOD K) (I1 I2 _I3 : K) (statevars : Z) :
    Res (InvGrad K Z) := do
  -- lines 58-66
  let dWdI1 : Option K :=
    if m.C10 ≠ 0 ∨ m.C11 ≠ 0 ∨ m.C20 ≠ 0 ∨ m.C30 ≠ 0 then some 0 else none
  let dWdI2 : Option K := if m.C01 ≠ 0 ∨ m.C11 ≠ 0 then some 0 else none
  let dWdI3 : Option K := none
  -- lines 68-69
  let dWdI1 ← if m.C10 ≠ 0 then addTo dWdI1 m.C10 else .ok dWdI1
  -- lines 71-72
  let dWdI2 ← if m.C01 ≠ 0 then addTo dWdI2 m.C01 else .ok dWdI2
  -- lines 74-76
  let dWdI1 ← if m.C11 ≠ 0 then addTo dWdI1 (m.C11 * (I2 - m.undeformed)) else .ok dWdI1
  let dWdI2 ← if m.C11 ≠ 0 then addTo dWdI2 (m.C11 * (I1 - m.undeformed)) else .ok dWdI2
  -- lines 78-79
  let dWdI1 ← if m.C20 ≠ 0 then addTo dWdI1 (m.C20 * 2 * (I1 - m.undeformed)) else .ok dWdI1
  -- lines 81-82
  let dWdI1 ← if m.C30 ≠ 0 then addTo dWdI1 (m.C30 * 3 * (I1 - m.undeformed) ^ 2) else .ok dWdI1
  .ok { d1 := dWdI1, d2 := dWdI2, d3 := dWdI3, sv := statevars }

/-- `ThirdOrderDeformation.hessian`; lines 86-103. -/
def TOD.hessian [CommRing K] [Div K] [DecidableEq K] (m : TOD K) (I1 _I2 _I3 : K) (_statevars : Z) :
    Res (InvHess K) :=
  .ok {
    h11 := if m.C20 ≠ 0 ∨ m.C30 ≠ 0 then some (m.C20 * 2 + m.C30 * 6 * (I1 - m.undeformed)) else none
    h22 := none
    h33 := none
    h12 := if m.C11 ≠ 0 then some m.C11 else none
    h23 := none
    h13 := none }

/-- `ThirdOrderDeformation` as a material object (it has no mutable attributes). -/
def TOD.mat [CommRing K] [Div K] [DecidableEq K] (m : TOD K) : InvMat K Z Unit where
  gradient I1 I2 I3 z := PyM.lift (m.gradient I1 I2 I3 z)
  hessian I1 I2 I3 z := PyM.lift (m.hessian I1 I2 I3 z)

end Hel
