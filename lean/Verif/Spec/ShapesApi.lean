import Verif.Model.Shapes
import Verif.Spec.Shapes

/-! # What a user's model has to return, in terms of shapes -/

namespace Spec

open Hel Hel.Sh

/-- A well-formed invariant-based model at trailing axes `t`: called with arrays of shape `t`
it returns first and second derivatives (`g` and `h`) each of which is `None`, or a number or
an array that can be broadcast to `t`. -/
structure InvModelShapes (m : InvModel) (t : List ℕ) (g : InvGrad Shape Unit) (h : InvHess Shape) :
    Prop where
  gradient : m.gradient t t t = .ok g
  hessian : m.hessian t t t = .ok h
  first : ∀ s, some s ∈ [g.d1, g.d2, g.d3] → BroadcastsTo s t
  second : ∀ s, some s ∈ [h.h11, h.h22, h.h33, h.h12, h.h23, h.h13] → BroadcastsTo s t

/-- The first derivatives which the hessian needs are given: those with respect to `Ia` and `Ib` for
`d2WdIadIb`; but `d2WdI3dI3` needs `dWdI2` and `d2WdI2dI2`, see C17. -/
def NeededGiven (g : InvGrad Shape Unit) (h : InvHess Shape) : Prop :=
  (h.h11 ≠ none → g.d1 ≠ none) ∧ (h.h22 ≠ none → g.d2 ≠ none) ∧ (h.h33 ≠ none → g.d2 ≠ none ∧ h.h22 ≠ none) ∧
  (h.h12 ≠ none → g.d1 ≠ none ∧ g.d2 ≠ none) ∧ (h.h23 ≠ none → g.d2 ≠ none ∧ g.d3 ≠ none) ∧
  (h.h13 ≠ none → g.d1 ≠ none ∧ g.d3 ≠ none)

/-- A well-formed model in principal stretches at trailing axes `t`: the gradient can be
broadcast to `(3,) + t`; the hessian is an array that can be broadcast to `(6,) + t`, or a
list of six entries, each `None` or something that can be broadcast to `t`. -/
structure StrModelShapes (m : StrModel) (t : List ℕ) : Prop where
  gradient : ∃ s, m.gradient (3 :: t) = .ok s ∧ BroadcastsTo s (3 :: t)
  hessian : (∃ s, m.hessian (3 :: t) = .ok (.array s) ∧ BroadcastsTo s (6 :: t)) ∨
    (∃ l, m.hessian (3 :: t) = .ok (.list l) ∧ ∀ a s, l a = some s → BroadcastsTo s t)

end Spec
