import Verif.Spec.MemoryStretches
import Verif.Model.MemoryGeneralized

/-! Vocabulary for statements about generalized-invariants models on arrays in memory, see `Spec/Memory`. -/

namespace Hel.Memory

noncomputable section

variable {T Z μ : Type} [Encodable T]

/-- A strain function on arrays: it changes no existing array, and returns three arrays (new ones, or also its argument or
another existing one) with the measure and its derivatives, entry by entry. -/
def Strain.Implements (S : Strain T) (f : StrainFun) : Prop :=
  ∀ (m : Mem) (L : Nd (Vec3 (Arr T))) (l : Vec3 (Arr T)), Holds m L l →
    Ext m (S L m).2 ∧ Holds (S L m).2 (S L m).1.1 (fun a i => (f.eval (l a i)).E) ∧
    Holds (S L m).2 (S L m).1.2.1 (fun a i => (f.eval (l a i)).dE) ∧
    Holds (S L m).2 (S L m).1.2.2 (fun a i => (f.eval (l a i)).d2E)

/-- The derivative with respect to the third invariant is `None` or an array (not a Python number). -/
def InvMat.ThirdArray (M : InvMat T Z μ) : Prop :=
  ∀ m s A B C z r x, (M.gradient A B C z (m, s)).1 = .ok r → r.d3 ≠ some (.num x)

end

end Hel.Memory
