/-!
# Python-level vocabulary: exceptions and methods of stateful objects

`PyM σ α` is a method of an object with attribute record `σ`.  It returns a value or
raises, and in both cases leaves a (possibly modified) attribute record: assignments made
before an exception persist, as in Python.
-/

namespace Hel

/-- The exceptions the modelled code can raise. -/
inductive PyErr where
  | typeError
  | unboundLocal
  | attributeError
  | valueError
  | zeroDivision
  | runtimeError
  | indexError
  deriving DecidableEq, Repr

/-- Result of a Python call. -/
abbrev Res (α : Type) := Except PyErr α

/-- A method of an object with attributes `σ`: runs from a state, returns or raises, and
leaves a state. -/
def PyM (σ α : Type) : Type := σ → Res α × σ

namespace PyM

/-- Return a value. -/
def ret {σ α : Type} (a : α) : PyM σ α := fun s => (.ok a, s)

/-- Sequence two statements; an exception skips the second but keeps the state. -/
def andThen {σ α β : Type} (m : PyM σ α) (f : α → PyM σ β) : PyM σ β := fun s =>
  match m s with
  | (.ok a, s') => f a s'
  | (.error e, s') => (.error e, s')

instance {σ : Type} : Monad (PyM σ) where
  pure := ret
  bind := andThen

/-- Raise an exception. -/
def raise {σ α : Type} (e : PyErr) : PyM σ α := fun s => (.error e, s)

/-- Run a stateless computation inside a method. -/
def lift {σ α : Type} (r : Res α) : PyM σ α := fun s => (r, s)

/-- Read an attribute that may not have been set yet (`AttributeError`). -/
def attr {σ α : Type} (f : σ → Option α) : PyM σ α := fun s =>
  match f s with
  | some a => (.ok a, s)
  | none => (.error .attributeError, s)

/-- Read a local variable that may be unbound (`UnboundLocalError`). -/
def localVar {σ α : Type} (v : Option α) : PyM σ α := fun s =>
  match v with
  | some a => (.ok a, s)
  | none => (.error .unboundLocal, s)

/-- Assign attributes. -/
def assign {σ : Type} (f : σ → σ) : PyM σ Unit := fun s => (.ok (), f s)

/-- Call a method of an object stored inside this object (`self.material.…`). -/
def sub {σ τ α : Type} (get : σ → τ) (put : τ → σ → σ) (m : PyM τ α) : PyM σ α := fun s =>
  let r := m (get s)
  (r.1, put r.2 s)

end PyM

/-- The call `m` on the object in state `s` returns `a`. -/
def Returns {σ α : Type} (m : PyM σ α) (s : σ) (a : α) : Prop := (m s).1 = .ok a

end Hel
