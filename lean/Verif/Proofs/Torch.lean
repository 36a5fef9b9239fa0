import Verif.Spec.Torch
import Verif.Spec.Calculus
import Verif.Spec.Batch
import Verif.Proofs.PyM
import Mathlib.Analysis.Calculus.Deriv.Pow
import Mathlib.Analysis.Calculus.Deriv.Inv
import Mathlib.Analysis.SpecialFunctions.ExpDeriv
import Mathlib.Analysis.SpecialFunctions.Log.Deriv
import Mathlib.Analysis.SpecialFunctions.Pow.Deriv

/-! Helper lemmas: reverse-mode differentiation. -/

namespace Hel.Torch
open Spec

namespace Expr

/-- the partial derivative with respect to the leaf `a` -/
noncomputable def pd (i : Fin 3) (x : Fin 3 → ℝ) : Expr → ℝ
  | const _ => 0
  | leaf j => if j = i then 1 else 0
  | neg a => -a.pd i x
  | add a b => a.pd i x + b.pd i x
  | sub a b => a.pd i x - b.pd i x
  | mul a b => a.pd i x * b.eval x + a.eval x * b.pd i x
  | div a b => a.pd i x / b.eval x - a.eval x / b.eval x / b.eval x * b.pd i x
  | npow a n => n * a.eval x ^ (n - 1) * a.pd i x
  | pow a p => p * a.eval x ^ (p - 1) * a.pd i x
  | exp a => Real.exp (a.eval x) * a.pd i x
  | log a => a.pd i x / a.eval x
  | saved a => a.pd i x

/-- the second partial derivative -/
noncomputable def pd2 (i j : Fin 3) (x : Fin 3 → ℝ) : Expr → ℝ
  | const _ => 0
  | leaf _ => 0
  | neg a => -a.pd2 i j x
  | add a b => a.pd2 i j x + b.pd2 i j x
  | sub a b => a.pd2 i j x - b.pd2 i j x
  | mul a b => a.pd2 i j x * b.eval x + a.pd i x * b.pd j x + a.pd j x * b.pd i x + a.eval x * b.pd2 i j x
  | div a b => a.pd2 i j x / b.eval x - a.pd i x * b.pd j x / b.eval x / b.eval x
      - a.pd j x * b.pd i x / b.eval x / b.eval x + 2 * (a.eval x / b.eval x / b.eval x / b.eval x) * b.pd i x * b.pd j x
      - a.eval x / b.eval x / b.eval x * b.pd2 i j x
  | npow a n => n * (((n - 1 : ℕ) : ℝ) * a.eval x ^ (n - 1 - 1)) * a.pd j x * a.pd i x + n * a.eval x ^ (n - 1) * a.pd2 i j x
  | pow a p => p * ((p - 1) * a.eval x ^ (p - 1 - 1)) * a.pd j x * a.pd i x + p * a.eval x ^ (p - 1) * a.pd2 i j x
  | exp a => Real.exp (a.eval x) * (a.pd i x * a.pd j x + a.pd2 i j x)
  | log a => a.pd2 i j x / a.eval x - a.pd i x * a.pd j x / a.eval x / a.eval x
  | saved a => a.pd2 i j x

theorem pd2_comm (i j : Fin 3) (x : Fin 3 → ℝ) (e : Expr) : e.pd2 i j x = e.pd2 j i x := by
  induction e with
  | const | leaf => rfl
  | neg a ih => simp only [pd2, ih]
  | add a b ha hb | sub a b ha hb => simp only [pd2, ha, hb]
  | mul a b ha hb => simp only [pd2, ha, hb]; ring
  | div a b ha hb => simp only [pd2, ha, hb]; ring
  | npow a n ih => simp only [pd2, ih]; ring
  | pow a p ih => simp only [pd2, ih]; ring
  | exp a ih => simp only [pd2, ih]; ring
  | log a ih => simp only [pd2, ih]; ring
  | saved a ih => exact ih

/-- the numbers in a gradient, zero for `None` -/
noncomputable def val (x : Fin 3 → ℝ) (o : Option Expr) : ℝ := o.elim 0 (eval x)

/-- the partial derivative of a gradient, zero for `None` -/
noncomputable def pdv (j : Fin 3) (x : Fin 3 → ℝ) (o : Option Expr) : ℝ := o.elim 0 (pd j x)

theorem val_accumulate (x : Fin 3 → ℝ) (a b : Option Expr) : val x (accumulate a b) = val x a + val x b := by
  cases a <;> cases b <;> simp [accumulate, val, eval]

theorem pdv_accumulate (j : Fin 3) (x : Fin 3 → ℝ) (a b : Option Expr) :
    pdv j x (accumulate a b) = pdv j x a + pdv j x b := by
  cases a <;> cases b <;> simp [accumulate, pdv, pd]

theorem eval_const (x : Fin 3 → ℝ) (c : ℝ) : (const c).eval x = c := rfl
theorem eval_pow (x : Fin 3 → ℝ) (a : Expr) (p : ℝ) : (pow a p).eval x = a.eval x ^ p := rfl
theorem eval_exp (x : Fin 3 → ℝ) (a : Expr) : (exp a).eval x = Real.exp (a.eval x) := rfl
theorem eval_log (x : Fin 3 → ℝ) (a : Expr) : (log a).eval x = Real.log (a.eval x) := rfl

theorem val_backward (i : Fin 3) (x : Fin 3 → ℝ) (e g : Expr) : val x (e.backward i g) = g.eval x * e.pd i x := by
  induction e generalizing g with
  | const => simp [backward, val, pd]
  | leaf j => by_cases h : j = i <;> simp [backward, val, pd, h]
  | neg a ih => simp only [backward, ih, pd, eval]; ring
  | add a b ha hb | sub a b ha hb | mul a b ha hb | div a b ha hb =>
    simp only [backward, val_accumulate, ha, hb, pd, eval]; ring
  | npow a n ih =>
    simp only [backward, ih, pd]
    split_ifs with h
    · subst h; simp [eval_const]
    · simp only [eval, eval_const]; simp only [Elementwise.const]; ring
  | pow a p ih =>
    simp only [backward, ih, pd]
    split_ifs with h
    · subst h; simp [eval_const]
    · simp only [eval, eval_const]; simp only [Elementwise.const, Elementwise.rpow]; ring
  | exp a ih => simp only [backward, ih, pd, eval]; simp only [Elementwise.exp]; ring
  | log a ih => simp only [backward, ih, pd, eval]; ring
  | saved a ih => exact ih g

theorem pdv_backward (i j : Fin 3) (x : Fin 3 → ℝ) (e g : Expr) :
    pdv j x (e.backward i g) = g.pd j x * e.pd i x + g.eval x * e.pd2 i j x := by
  induction e generalizing g with
  | const => simp [backward, pdv, pd, pd2]
  | leaf k => by_cases h : k = i <;> simp [backward, pdv, pd, pd2, h]
  | neg a ih => simp only [backward, ih, pd, pd2, eval]; ring
  | add a b ha hb | sub a b ha hb | mul a b ha hb | div a b ha hb =>
    simp only [backward, pdv_accumulate, ha, hb, pd, pd2, eval]; ring
  | npow a n ih =>
    simp only [backward, ih, pd2]
    split_ifs with h
    · subst h; simp [eval_const, pd]
    · simp only [pd, eval]; simp only [Elementwise.const]; ring
  | pow a p ih =>
    simp only [backward, ih, pd2]
    split_ifs with h
    · subst h; simp [eval_const, pd]
    · simp only [pd, eval]; simp only [Elementwise.const, Elementwise.rpow]; ring
  | exp a ih => simp only [backward, ih, pd, pd2, eval]; simp only [Elementwise.exp]; ring
  | log a ih => simp only [backward, ih, pd, pd2, eval]; ring
  | saved a ih => exact ih g

/-- differentiation along a motion -/
theorem hasDerivAt_eval (e : Expr) {x : ℝ → Fin 3 → ℝ} {x' : Fin 3 → ℝ} {t₀ : ℝ} (hx : Moves3 x x' t₀)
    (hd : e.Defined (x t₀)) : HasDerivAt (fun t => e.eval (x t)) (∑ b, e.pd b (x t₀) * x' b) t₀ := by
  simp only [Fin.sum_univ_three]
  induction e with
  | const c => simpa [pd, eval] using hasDerivAt_const t₀ (Elementwise.const c : ℝ)
  | leaf i =>
    refine (hx i).congr_deriv ?_
    fin_cases i <;> simp [pd]
  | neg a ih => exact (ih hd).neg.congr_deriv (by simp only [pd]; ring)
  | add a b ha hb => exact ((ha hd.1).add (hb hd.2)).congr_deriv (by simp only [pd]; ring)
  | sub a b ha hb => exact ((ha hd.1).sub (hb hd.2)).congr_deriv (by simp only [pd]; ring)
  | mul a b ha hb => exact ((ha hd.1).mul (hb hd.2)).congr_deriv (by simp only [pd]; ring)
  | div a b ha hb =>
    refine ((ha hd.1).div (hb hd.2.1) hd.2.2).congr_deriv ?_
    have := hd.2.2
    simp only [pd]
    field_simp
    ring
  | npow a n ih => exact ((ih hd).pow n).congr_deriv (by simp only [pd]; ring)
  | pow a p ih => exact ((ih hd.1).rpow_const (.inl hd.2.ne')).congr_deriv (by simp only [pd]; ring)
  | exp a ih => exact (ih hd).exp.congr_deriv (by simp only [pd]; ring)
  | log a ih => exact ((ih hd.1).log hd.2.ne').congr_deriv (by simp only [pd]; ring)
  | saved a ih => exact ih hd

theorem defined_accumulate {x : Fin 3 → ℝ} {a b : Option Expr} (ha : ∀ d ∈ a, d.Defined x) (hb : ∀ d ∈ b, d.Defined x) :
    ∀ d ∈ accumulate a b, d.Defined x := by
  rcases a with _ | a <;> rcases b with _ | b <;> intro d hd <;> simp only [accumulate, Option.mem_def, Option.some.injEq] at hd
  · cases hd
  · subst hd; exact hb _ rfl
  · subst hd; exact ha _ rfl
  · subst hd; exact ⟨ha _ rfl, hb _ rfl⟩

/-- the gradient is computed inside the domains of the operations if the tensor is -/
theorem defined_backward (i : Fin 3) {x : Fin 3 → ℝ} {e g : Expr} (he : e.Defined x) (hg : g.Defined x) :
    ∀ d ∈ e.backward i g, d.Defined x := by
  induction e generalizing g with
  | const => intro d hd; cases hd
  | leaf j =>
    intro d hd
    simp only [backward] at hd
    split_ifs at hd with h
    · obtain rfl : g = d := by simpa using hd
      exact hg
    · cases hd
  | neg a ih => exact ih he hg
  | add a b ha hb => exact defined_accumulate (ha he.1 hg) (hb he.2 hg)
  | sub a b ha hb => exact defined_accumulate (ha he.1 hg) (hb he.2 hg)
  | mul a b ha hb => exact defined_accumulate (ha he.1 ⟨hg, he.2⟩) (hb he.2 ⟨hg, he.1⟩)
  | div a b ha hb => exact defined_accumulate (ha he.1 ⟨hg, he.2⟩) (hb he.2.1 ⟨hg, he, he.2⟩)
  | npow a n ih =>
    refine ih he ?_
    split_ifs
    · trivial
    · exact ⟨hg, trivial, he⟩
  | pow a p ih =>
    refine ih he.1 ?_
    split_ifs
    · trivial
    · exact ⟨hg, trivial, he⟩
  | exp a ih => exact ih he ⟨hg, he⟩
  | log a ih => exact ih he.1 ⟨hg, he.1, he.2.ne'⟩
  | saved a ih => exact ih he hg

end Expr

/-! ### what the methods return -/

variable {K Z : Type} [Neg K] [Add K] [Sub K] [Mul K] [Div K] [Pow K ℕ] [Elementwise K]

/-- what `_grad` returns, if it returns -/
noncomputable def out (leaves : Fin 3 → K) (numpy : Bool) : Option Expr → Obj K
  | some d => if numpy then .array (d.eval leaves) else .tensor d
  | none => .none

/-- the derivative of what an object holds -/
noncomputable def next (i : Fin 3) : Obj K → Option Expr
  | .tensor e => e.backward i (.const 1)
  | _ => none

theorem bind_ok {σ α β : Type} {m : PyM σ α} {f : α → PyM σ β} {s s' : σ} {b : β} (h : (m >>= f) s = (.ok b, s')) :
    ∃ a s1, m s = (.ok a, s1) ∧ f a s1 = (.ok b, s') := by
  rw [PyM.bind_run] at h
  rcases hm : m s with ⟨_ | a, s1⟩ <;> rw [hm] at h
  · exact absurd (congrArg Prod.fst h) (by simp)
  · exact ⟨a, s1, rfl, h⟩

theorem autograd_ok {eng : Engine} {e : Expr} {i : Fin 3} {c r : Bool} {s s' : eng.graph} {o : Option Expr}
    (h : autograd eng e i c r s = (.ok o, s')) : e.requiresGrad ∧ o = e.backward i (.const 1) := by
  rw [autograd] at h
  by_cases hr : e.requiresGrad
  · rw [if_pos hr] at h
    rcases hs : eng.step e i c r s with ⟨_ | err, s1⟩ <;> rw [hs] at h
    · exact ⟨hr, (Except.ok.inj (congrArg Prod.fst h)).symm⟩
    · exact absurd (congrArg Prod.fst h) (by simp)
  · rw [if_neg hr] at h
    exact absurd (congrArg Prod.fst h) (by simp)

theorem grad_ok {eng : Engine} {leaves : Fin 3 → K} {f : Obj K} {i : Fin 3} {n c r : Bool} {s s' : eng.graph} {o : Obj K}
    (h : grad eng leaves f i n c r s = (.ok o, s')) : o = out leaves n (next i f) := by
  rcases f with _ | e | a | _
  · exact (Except.ok.inj (congrArg Prod.fst h)).symm
  · obtain ⟨d, s1, h1, h2⟩ := bind_ok h
    obtain ⟨-, rfl⟩ := autograd_ok h1
    simp only [next]
    generalize e.backward i (.const 1) = d at h2 ⊢
    rcases d with _ | d
    · exact (Except.ok.inj (congrArg Prod.fst h2)).symm
    · rcases n <;> exact (Except.ok.inj (congrArg Prod.fst h2)).symm
  · exact (Except.ok.inj (congrArg Prod.fst h)).symm
  · exact (Except.ok.inj (congrArg Prod.fst h)).symm

theorem gradientObj_ok {m : TorchModel K} {eng : Engine} {leaves : Fin 3 → K} {z : Z} {n c r : Bool} {s s' : eng.graph}
    {o : Obj K × Obj K × Obj K × Z} (h : m.gradientObj eng leaves z n c r s = (.ok o, s')) :
    ∃ f, m.func (.leaf 0) (.leaf 1) (.leaf 2) = .ok f ∧
      o = (out leaves n (next 0 f), out leaves n (next 1 f), out leaves n (next 2 f), z) := by
  obtain ⟨f, s1, h1, h⟩ := bind_ok h
  obtain ⟨g1, s2, h2, h⟩ := bind_ok h
  obtain ⟨g2, s3, h3, h⟩ := bind_ok h
  obtain ⟨g3, s4, h4, h⟩ := bind_ok h
  refine ⟨f, congrArg Prod.fst h1, ?_⟩
  rw [← grad_ok h2, ← grad_ok h3, ← grad_ok h4]
  exact (Except.ok.inj (congrArg Prod.fst h)).symm

theorem hessianObj_ok {m : TorchModel K} {eng : Engine} {leaves : Fin 3 → K} {z : Z} {n : Bool} {s s' : eng.graph}
    {o : Obj K × Obj K × Obj K × Obj K × Obj K × Obj K} (h : m.hessianObj eng leaves z n s = (.ok o, s')) :
    ∃ f, m.func (.leaf 0) (.leaf 1) (.leaf 2) = .ok f ∧
      o = (out leaves n (next 0 (out leaves false (next 0 f))), out leaves n (next 1 (out leaves false (next 1 f))),
        out leaves n (next 2 (out leaves false (next 2 f))), out leaves n (next 1 (out leaves false (next 0 f))),
        out leaves n (next 2 (out leaves false (next 1 f))), out leaves n (next 2 (out leaves false (next 0 f)))) := by
  obtain ⟨⟨d1, d2, d3, z'⟩, s0, h0, k0⟩ := bind_ok h
  obtain ⟨f, hf, hd⟩ := gradientObj_ok h0
  obtain ⟨g1, s2, h1, k1⟩ := bind_ok k0
  obtain ⟨g2, s3, h2, k2⟩ := bind_ok k1
  obtain ⟨g3, s4, h3, k3⟩ := bind_ok k2
  obtain ⟨g4, s5, h4, k4⟩ := bind_ok k3
  obtain ⟨g5, s6, h5, k5⟩ := bind_ok k4
  obtain ⟨g6, s7, h6, k6⟩ := bind_ok k5
  simp only [Prod.mk.injEq] at hd
  obtain ⟨rfl, rfl, rfl, -⟩ := hd
  refine ⟨f, hf, ?_⟩
  rw [← grad_ok h1, ← grad_ok h2, ← grad_ok h3, ← grad_ok h4, ← grad_ok h5, ← grad_ok h6]
  exact (Except.ok.inj (congrArg Prod.fst k6)).symm

theorem toOption_out (leaves : Fin 3 → K) (o : Option Expr) : (out leaves true o).toOption = o.map (Expr.eval leaves) := by
  cases o <;> rfl

theorem next_out (leaves : Fin 3 → K) (i : Fin 3) (o : Option Expr) :
    next i (out leaves false o) = o.bind fun d => d.backward i (.const 1) := by
  cases o <;> rfl

/-- the derivative of the energy tensor `e` -/
noncomputable abbrev d1 (e : Expr) (i : Fin 3) : Option Expr := e.backward i (.const 1)
/-- the second derivative of the energy tensor `e` -/
noncomputable abbrev d2 (e : Expr) (i j : Fin 3) : Option Expr := (e.backward i (.const 1)).bind fun d => d.backward j (.const 1)

theorem mat_gradient_ok {m : TorchModel K} {eng : Engine} {I1 I2 I3 : K} {z : Z} {s : Unit} {r : InvGrad K Z} {e : Expr}
    (he : m.func (.leaf 0) (.leaf 1) (.leaf 2) = .ok (.tensor e))
    (h : Returns ((m.mat eng).gradient I1 I2 I3 z) s r) :
    r = { d1 := (d1 e 0).map (Expr.eval ![I1, I2, I3]), d2 := (d1 e 1).map (Expr.eval ![I1, I2, I3]),
          d3 := (d1 e 2).map (Expr.eval ![I1, I2, I3]), sv := z } := by
  simp only [Returns, TorchModel.mat, PyM.lift_run] at h
  rcases hg : m.gradientObj eng ![I1, I2, I3] z true false false eng.fresh with ⟨_ | o, s'⟩ <;> rw [hg] at h
  · exact absurd h (by simp [Except.map])
  · obtain ⟨f, hf, ho⟩ := gradientObj_ok hg
    rw [he] at hf
    obtain rfl : Obj.tensor e = f := by simpa using hf
    subst ho
    simp only [Except.map, Except.ok.injEq, toOption_out] at h
    exact h.symm

theorem mat_hessian_ok {m : TorchModel K} {eng : Engine} {I1 I2 I3 : K} {z : Z} {s : Unit} {r : InvHess K} {e : Expr}
    (he : m.func (.leaf 0) (.leaf 1) (.leaf 2) = .ok (.tensor e))
    (h : Returns ((m.mat eng).hessian I1 I2 I3 z) s r) :
    r = { h11 := (d2 e 0 0).map (Expr.eval ![I1, I2, I3]), h22 := (d2 e 1 1).map (Expr.eval ![I1, I2, I3]),
          h33 := (d2 e 2 2).map (Expr.eval ![I1, I2, I3]), h12 := (d2 e 0 1).map (Expr.eval ![I1, I2, I3]),
          h23 := (d2 e 1 2).map (Expr.eval ![I1, I2, I3]), h13 := (d2 e 0 2).map (Expr.eval ![I1, I2, I3]) } := by
  simp only [Returns, TorchModel.mat, PyM.lift_run] at h
  rcases hg : m.hessianObj eng ![I1, I2, I3] z true eng.fresh with ⟨_ | o, s'⟩ <;> rw [hg] at h
  · exact absurd h (by simp [Except.map])
  · obtain ⟨f, hf, ho⟩ := hessianObj_ok hg
    rw [he] at hf
    obtain rfl : Obj.tensor e = f := by simpa using hf
    subst ho
    simp only [Except.map, Except.ok.injEq, toOption_out, next_out] at h
    exact h.symm

end Hel.Torch
