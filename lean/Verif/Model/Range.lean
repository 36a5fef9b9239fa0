import Verif.Model.Rounding

/-!
# Model of the tensor algebra in floating-point arithmetic with overflow and underflow

`Model/Rounding` has an unbounded range of exponents.  Here the same programs run with the numbers of a machine with
a largest finite number and with (gradual or abrupt) underflow.  The result of an operation is `none` if it overflows,
and it stays `none` from then on (`inf` and `nan` are not told apart, and `x / inf` is not modelled).
-/

namespace Hel.Rnd

/-- A floating-point arithmetic of finite range: unit roundoff `u`, largest error `η` of a result in the underflow
range, largest finite number `Ω`.  The operations take finite numbers.  A result is finite if the exact result, with its
error, does not exceed `Ω`.  `x ** 2` and `x ** y` may be off by two roundings.  A sum of `n` products of at most `p`
factors is computed in any order, with or without fused multiply-adds; its intermediate results are bounded by the
sum of the products of the factors, with factors of absolute value smaller than one replaced by one
(`C87_any_order`). -/
structure Machine where
  u : ℝ
  η : ℝ
  Ω : ℝ
  u_nonneg : 0 ≤ u
  η_nonneg : 0 ≤ η
  η_le : η ≤ 1
  add : ℝ → ℝ → Option ℝ
  sub : ℝ → ℝ → Option ℝ
  mul : ℝ → ℝ → Option ℝ
  div : ℝ → ℝ → Option ℝ
  sq : ℝ → Option ℝ
  pow : ℝ → ℝ → Option ℝ
  einsum : List (List ℝ) → Option ℝ
  add_ok : ∀ x y, (1 + u) * |x + y| + η ≤ Ω → ∃ v, add x y = some v ∧ |v - (x + y)| ≤ u * |x + y| + η
  sub_ok : ∀ x y, (1 + u) * |x - y| + η ≤ Ω → ∃ v, sub x y = some v ∧ |v - (x - y)| ≤ u * |x - y| + η
  mul_ok : ∀ x y, (1 + u) * |x * y| + η ≤ Ω → ∃ v, mul x y = some v ∧ |v - x * y| ≤ u * |x * y| + η
  div_ok : ∀ x y, y ≠ 0 → (1 + u) * |x / y| + η ≤ Ω → ∃ v, div x y = some v ∧ |v - x / y| ≤ u * |x / y| + η
  sq_ok : ∀ x, (1 + u) ^ 2 * x ^ 2 + η ≤ Ω → ∃ v, sq x = some v ∧ |v - x ^ 2| ≤ ((1 + u) ^ 2 - 1) * x ^ 2 + η
  pow_ok : ∀ x y, 0 < x → (1 + u) ^ 2 * x ^ y + η ≤ Ω →
    ∃ v, pow x y = some v ∧ |v - x ^ y| ≤ ((1 + u) ^ 2 - 1) * x ^ y + η
  einsum_ok : ∀ (ts : List (List ℝ)) (p : ℕ) (G : ℝ), (∀ t ∈ ts, t.length ≤ p) →
    2 ^ ts.length * 4 ^ p * (ts.map fun t => (t.map fun x => max 1 |x|).prod).sum ≤ G →
    2 * ((1 + u) ^ (ts.length + p) * G) ≤ Ω →
    ∃ v, einsum ts = some v ∧ |v - (ts.map List.prod).sum| ≤
      ((1 + u) ^ (ts.length + p) - 1) * (ts.map fun t => |t.prod|).sum + η * ((1 + u) ^ (ts.length + p) * G)

/-- A number of the machine, or `none` after an overflow. -/
structure Flo (M : Machine) where
  val : Option ℝ

/-- The values of a list, if all are finite. -/
def allFinite {α : Type} : List (Option α) → Option (List α)
  | [] => some []
  | x :: l => x.bind fun a => (allFinite l).map (a :: ·)

/-- The arithmetic of the machine. -/
noncomputable instance (M : Machine) : Arith (Flo M) where
  add x y := ⟨x.val.bind fun a => y.val.bind fun b => M.add a b⟩
  sub x y := ⟨x.val.bind fun a => y.val.bind fun b => M.sub a b⟩
  mul x y := ⟨x.val.bind fun a => y.val.bind fun b => M.mul a b⟩
  lit x := ⟨some x⟩
  sq x := ⟨x.val.bind M.sq⟩
  divNat x n := ⟨x.val.bind fun a => M.div a (n : ℕ)⟩
  einsum ts := ⟨(allFinite (ts.map fun t => allFinite (t.map Flo.val))).bind M.einsum⟩

namespace Machine

variable (M : Machine)

/-- An array of machine numbers. -/
def arr6 (A : Vec6 ℝ) : Vec6 (Flo M) := fun a => ⟨some (A a)⟩

/-- An array of machine numbers. -/
def arr33 (A : Full2 ℝ) : Full2 (Flo M) := fun a b => ⟨some (A a b)⟩

/-- `det(A)`; `_voigt.py` lines 375-381. -/
noncomputable def det (A : Vec6 ℝ) : Option ℝ := (Rnd.det (M.arr6 A)).val

/-- `DeformationSpace(Invariants(ThirdOrderDeformation)).gradient`; `_deformation.py` lines 69-80.  (`I3` is computed
by the code, but is not used by the model: an overflow of it has no effect.) -/
noncomputable def deformationGradient (p : TOD ℝ) (F : Full2 ℝ) : Fin 3 → Fin 3 → Option ℝ := fun i j =>
  (defGradient p (M.arr33 F) i j).val

/-- `DeformationSpace(Invariants(ThirdOrderDeformation)).hessian`; `_deformation.py` lines 82-91. -/
noncomputable def deformationHessian (p : TOD ℝ) (F : Full2 ℝ) : Fin 3 → Fin 3 → Fin 3 → Fin 3 → Option ℝ :=
  fun i j k l => (defHessian p (M.arr33 F) i j k l).val

end Machine

end Hel.Rnd
