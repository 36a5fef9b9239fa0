import Verif.Model.Py

/-! Helper lemmas: running method bodies. -/

namespace Hel
namespace PyM

variable {σ α β : Type}

@[simp] theorem pure_run (a : α) (s : σ) : (pure a : PyM σ α) s = (.ok a, s) := rfl

@[simp] theorem bind_run (m : PyM σ α) (f : α → PyM σ β) (s : σ) :
    (m >>= f) s = match m s with
      | (.ok a, s') => f a s'
      | (.error e, s') => (.error e, s') := rfl

@[simp] theorem assign_run (f : σ → σ) (s : σ) : assign f s = (.ok (), f s) := rfl

theorem attr_run (f : σ → Option α) (s : σ) : attr f s =
    match f s with
    | some a => (.ok a, s)
    | none => (.error .attributeError, s) := rfl

theorem attr_some {f : σ → Option α} {s : σ} {a : α} (h : f s = some a) : attr f s = (.ok a, s) := by
  simp [attr_run, h]

@[simp] theorem raise_run (e : PyErr) (s : σ) : (raise e : PyM σ α) s = (.error e, s) := rfl
@[simp] theorem lift_run (r : Res α) (s : σ) : (lift r : PyM σ α) s = (r, s) := rfl

@[simp] theorem localVar_some (a : α) (s : σ) : localVar (some a) s = (.ok a, s) := rfl
@[simp] theorem localVar_none (s : σ) : localVar (none : Option α) s = (.error .unboundLocal, s) := rfl

@[simp] theorem sub_run {τ : Type} (get : σ → τ) (put : τ → σ → σ) (m : PyM τ α) (s : σ) :
    sub get put m s = ((m (get s)).1, put (m (get s)).2 s) := rfl

end PyM
end Hel
