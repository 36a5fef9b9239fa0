import Mathlib.Data.List.Forall2

/-!
# Specification vocabulary for shapes

The shape of an array is the list of its axis lengths.
-/

namespace Spec

/-- An array of shape `s` can be broadcast to the shape `t`: right-aligned, every axis of `s`
has the length of the corresponding axis of `t` or length one
(numpy manual, "General broadcasting rules"). -/
def BroadcastsTo (s t : List ℕ) : Prop :=
  ∃ pre u, t = pre ++ u ∧ List.Forall₂ (fun a b => a = b ∨ a = 1) s u

/-- `t` has an axis longer or shorter than one (it is not `(1, ..., 1)`). -/
def Proper (t : List ℕ) : Prop := ∃ n ∈ t, n ≠ 1

/-- The batch has at least one point: no axis has length zero. -/
def NonEmptyBatch (t : List ℕ) : Prop := ∀ n ∈ t, n ≠ 0

end Spec
