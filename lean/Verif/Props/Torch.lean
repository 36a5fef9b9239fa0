import Verif.Proofs.Torch
import Verif.Props.Models
import Verif.Props.Spaces
import Verif.Props.Batch

/-!
# C55, C56: energy functions differentiated by PyTorch

`ψ` is the strain energy which the user's function computes by tensor operations.
-/

namespace Props
open Spec Hel Hel.Torch Filter Topology

variable {Z : Type} (m : TorchModel ℝ) (eng : Engine) (z : Z) (ψ : (Fin 3 → ℝ) → ℝ) (dom : (Fin 3 → ℝ) → Prop)

/-- the derivatives of the energy tensor as numbers -/
theorem torch_grad {m : TorchModel ℝ} {eng : Engine} {e : Expr} (he : m.func (.leaf 0) (.leaf 1) (.leaf 2) = .ok (.tensor e)) {z : Z} {x g : Fin 3 → ℝ}
    (hg : InvMat.Grad (m.mat eng) z x g) : g = fun i => Expr.val x (d1 e i) := by
  obtain ⟨s, r, hr, rfl⟩ := hg
  have e3 : (![x 0, x 1, x 2] : Fin 3 → ℝ) = x := by funext i; fin_cases i <;> rfl
  rw [mat_gradient_ok he hr, e3]
  have key : ∀ o : Option Expr, (o.map (Expr.eval x)).getD 0 = Expr.val x o := fun o => by cases o <;> rfl
  simp only [InvGrad.vec, key]
  funext i
  fin_cases i <;> rfl

theorem torch_hess {m : TorchModel ℝ} {eng : Engine} {e : Expr} (he : m.func (.leaf 0) (.leaf 1) (.leaf 2) = .ok (.tensor e)) {z : Z} {x : Fin 3 → ℝ}
    {h : Fin 3 → Fin 3 → ℝ} (hh : InvMat.Hess (m.mat eng) z x h) : h = fun i j => e.pd2 i j x := by
  obtain ⟨s, r, hr, rfl⟩ := hh
  have e3 : (![x 0, x 1, x 2] : Fin 3 → ℝ) = x := by funext i; fin_cases i <;> rfl
  have key : ∀ i j, ((d2 e i j).map (Expr.eval x)).getD 0 = e.pd2 i j x := by
    intro i j
    have h1 := Expr.pdv_backward i j x e (.const 1)
    rw [show (Expr.const 1).pd j x = 0 from rfl, Expr.eval_const, zero_mul, zero_add, one_mul] at h1
    rw [← h1]
    rcases hd : e.backward i (.const 1) with _ | d
    · simp [d2, hd, Expr.pdv]
    · have h2 := Expr.val_backward j x d (.const 1)
      rw [Expr.eval_const, one_mul] at h2
      simp only [d2, hd, Option.bind_some, Expr.pdv, Option.elim_some, ← h2, Expr.val]
      cases d.backward j (.const 1) <;> rfl
  rw [mat_hessian_ok he hr, e3]
  funext i j
  fin_cases i <;> fin_cases j <;> simp only [InvHess.mat, Fin.isValue, Fin.mk_one, Fin.zero_eta, Fin.reduceFinMk,
    Matrix.cons_val_zero, Matrix.cons_val_one, Matrix.cons_val, key] <;> first | rfl | exact Expr.pd2_comm ..

/-- `TorchModel.gradient` returns the partial derivatives of the energy. -/
theorem C55_gradient (h : Computes m ψ dom) : IsGradient3 dom ψ (InvMat.Grad (m.mat eng) z) := by
  obtain ⟨e, he, hψ⟩ := h
  intro x x' t₀ g hx hm hg
  rw [torch_grad he hg]
  have h1 := Expr.hasDerivAt_eval e hm (hψ _ hx.self_of_nhds).1
  refine (h1.congr_of_eventuallyEq (hx.mono fun t ht => (hψ _ ht).2.symm)).congr_deriv ?_
  refine Finset.sum_congr rfl fun b _ => ?_
  change _ = Expr.val (x t₀) (e.backward b (.const 1)) * x' b
  rw [Expr.val_backward, Expr.eval_const, one_mul]

theorem val_d1 (e : Expr) (i : Fin 3) (x : Fin 3 → ℝ) : Expr.val x (d1 e i) = e.pd i x := by
  rw [d1, Expr.val_backward, Expr.eval_const, one_mul]

theorem hasDerivAt_d1 (e : Expr) {x : ℝ → Fin 3 → ℝ} {x' : Fin 3 → ℝ} {t₀ : ℝ} (hm : Moves3 x x' t₀) (hd : e.Defined (x t₀))
    (a : Fin 3) : HasDerivAt (fun t => Expr.val (x t) (d1 e a)) (∑ b, e.pd2 a b (x t₀) * x' b) t₀ := by
  have h2 := fun b => Expr.pdv_backward a b (x t₀) e (.const 1)
  simp only [show ∀ b, (Expr.const 1).pd b (x t₀) = 0 from fun _ => rfl, Expr.eval_const, zero_mul, zero_add,
    one_mul] at h2
  simp only [← h2]
  have h3 := Expr.defined_backward a hd (show (Expr.const 1).Defined (x t₀) from trivial)
  rcases hda : e.backward a (.const 1) with _ | d
  · simp only [d1, hda, Expr.val, Expr.pdv, Option.elim_none, zero_mul, Finset.sum_const_zero]
    exact hasDerivAt_const _ _
  · rw [hda] at h3
    simp only [d1, hda, Expr.val, Expr.pdv, Option.elim_some]
    exact Expr.hasDerivAt_eval d hm (h3 d rfl)

/-- `TorchModel.hessian` returns the derivatives of what `gradient` returns, in the documented order. -/
theorem C55_hessian (h : Computes m ψ dom) :
    IsHessian3 dom (InvMat.Grad (m.mat eng) z) (InvMat.Hess (m.mat eng) z) := by
  obtain ⟨e, he, hψ⟩ := h
  intro x x' t₀ g k hx hm hg hk a
  rw [torch_hess he hk]
  refine (hasDerivAt_d1 e hm (hψ _ hx.self_of_nhds).1 a).congr_of_eventuallyEq (hg.mono fun t ht => ?_)
  change g t a = _
  rw [torch_grad he ht]

/-- The state variables are handed through. -/
theorem C55_statevars (h : Computes m ψ dom) : InvMat.KeepsState (m.mat eng) z := by
  obtain ⟨e, he, -⟩ := h
  intro I1 I2 I3 s r hr
  rw [mat_gradient_ok he hr]

theorem accumulate_none {a b : Option Expr} (h : Expr.accumulate a b = none) : a = none ∧ b = none := by
  cases a <;> cases b <;> simp_all [Expr.accumulate]

theorem eval_update {i : Fin 3} {e g : Expr} (h : e.backward i g = none) (x : Fin 3 → ℝ) (y : ℝ) :
    e.eval (Function.update x i y) = e.eval x := by
  induction e generalizing g with
  | const => rfl
  | leaf j =>
    simp only [Expr.backward] at h
    split_ifs at h with hj
    simp [Expr.eval, Function.update_of_ne hj]
  | neg a ih => simp only [Expr.eval, ih h]
  | add a b ha hb | sub a b ha hb | mul a b ha hb | div a b ha hb =>
    obtain ⟨h1, h2⟩ := accumulate_none h
    simp only [Expr.eval, ha h1, hb h2]
  | npow a n ih | pow a n ih | exp a ih | log a ih | saved a ih => simp only [Expr.eval, ih h]

/-- A derivative is reported as `None` only if the energy does not depend on that invariant. -/
theorem C55_none (h : Computes m ψ dom) (I1 I2 I3 : ℝ) (s : Unit) (r : InvGrad ℝ Z)
    (hr : Returns ((m.mat eng).gradient I1 I2 I3 z) s r) (x : Fin 3 → ℝ) (y : ℝ) (hx : dom x) :
    (r.d1 = none → dom (Function.update x 0 y) → ψ (Function.update x 0 y) = ψ x) ∧
    (r.d2 = none → dom (Function.update x 1 y) → ψ (Function.update x 1 y) = ψ x) ∧
    (r.d3 = none → dom (Function.update x 2 y) → ψ (Function.update x 2 y) = ψ x) := by
  obtain ⟨e, he, hψ⟩ := h
  have key : ∀ i, (d1 e i).map (Expr.eval ![I1, I2, I3]) = none → dom (Function.update x i y) →
      ψ (Function.update x i y) = ψ x := by
    intro i hi hd
    rw [← (hψ _ hx).2, ← (hψ _ hd).2]
    exact eval_update (Option.map_eq_none_iff.1 hi) x y
  rw [mat_gradient_ok he hr]
  exact ⟨key 0, key 1, key 2⟩

/-- The stress which the spaces compute from a torch energy is the derivative of that energy. -/
theorem C55_stress (h : Computes m ψ dom) :
    IsGradient (fun F => F.det ≠ 0 ∧ dom (invariants (cauchyGreen F))) (fun F => ψ (invariants (cauchyGreen F)))
      (SpaceObj.Grad (Deformation.obj {} (Invariants.material (m.mat eng))) z) ∧
    IsGradient (fun F => F.det ≠ 0 ∧ dom (invariants (unimodular (cauchyGreen F))))
      (fun F => ψ (invariants (unimodular (cauchyGreen F))))
      (SpaceObj.Grad (Distortional.obj {} (Invariants.material (m.mat eng))) z) := by
  have h1 := C16_gradient (m.mat eng) z dom ψ (C55_gradient m eng z ψ dom h)
  refine ⟨fun F F' t₀ P hF hm hP => ?_, fun F F' t₀ P hF hm hP => ?_⟩
  · exact C25_gradient _ z _ _ h1 F F' t₀ P (hF.mono fun t ht => ⟨symInv_cauchyGreen ht.1, ht.2⟩) hm hP
  · refine C27_gradient _ z _ _ h1 F F' t₀ P (hF.mono fun t ht => ⟨ht.1, ⟨?_, ?_⟩, ht.2⟩) hm hP
    · exact (symInv_cauchyGreen ht.1).1.smul _
    · have hp := det_cauchyGreen_pos ht.1
      rw [unimodular, Matrix.det_smul]
      exact mul_ne_zero (pow_ne_zero _ (Real.rpow_pos_of_pos hp _).ne') hp.ne'

/-- the coordinate line through `y` in the direction `a` -/
def coordLine (y : Fin 3 → ℝ) (a : Fin 3) (t : ℝ) : Fin 3 → ℝ := fun b => y b + t * if b = a then 1 else 0

theorem coordLine_zero (y : Fin 3 → ℝ) (a : Fin 3) : coordLine y a 0 = y := by
  funext b; simp [coordLine]

theorem moves_coordLine (y : Fin 3 → ℝ) (a : Fin 3) : Moves3 (coordLine y a) (fun b => if b = a then 1 else 0) 0 :=
  fun _ => (((hasDerivAt_id (0 : ℝ)).mul_const _).const_add _).congr_deriv (by simp)

theorem torch_unique {e : Expr} {ψ : (Fin 3 → ℝ) → ℝ} {R : (Fin 3 → ℝ) → (Fin 3 → ℝ) → Prop}
    {S : (Fin 3 → ℝ) → (Fin 3 → Fin 3 → ℝ) → Prop} (hψ : ∀ x, e.Defined x ∧ e.eval x = ψ x)
    (h1 : IsGradient3 (fun _ => True) ψ R) (h2 : IsHessian3 (fun _ => True) R S) (ht : ∀ x, ∃ g, R x g) (x : Fin 3 → ℝ) :
    (∀ g, R x g → (fun i => Expr.val x (d1 e i)) = g) ∧ ∀ k, S x k → (fun i j => e.pd2 i j x) = k := by
  have hg : ∀ y g', R y g' → (fun i => Expr.val y (d1 e i)) = g' := by
    intro y g' h'
    funext a
    have d1 := Expr.hasDerivAt_eval e (moves_coordLine y a) (by rw [coordLine_zero]; exact (hψ y).1)
    have d2 := h1 _ _ 0 g' (.of_forall fun _ => trivial) (moves_coordLine y a) (by rw [coordLine_zero]; exact h')
    rw [coordLine_zero] at d1
    have d3 := d1.unique (d2.congr_of_eventuallyEq (.of_forall fun t => (hψ _).2))
    rw [val_d1]
    simpa using d3
  refine ⟨hg x, fun k hk => ?_⟩
  funext a b
  have h3 := hasDerivAt_d1 e (moves_coordLine x b) (by rw [coordLine_zero]; exact (hψ x).1) a
  choose g hgr using ht
  have h4 := h2 _ _ 0 (fun t => g (coordLine x b t)) k (.of_forall fun _ => trivial) (moves_coordLine x b)
    (.of_forall fun t => hgr _) (by rw [coordLine_zero]; exact hk) a
  rw [coordLine_zero] at h3
  have h5 := h3.unique (h4.congr_of_eventuallyEq (.of_forall fun t => congrFun (hg _ _ (hgr _)) a))
  simpa using h5

/-- A model differentiated by torch and the same model differentiated by hand give the same numbers
(`tests/test_torch.py` for one energy and one parameter set). -/
theorem C55_third_order (C10 C01 C11 C20 C30 : ℝ) (strain : Bool)
    (h : Computes m (todEnergy C10 C01 C11 C20 C30 (if strain then 0 else 3)) fun _ => True) (x : Fin 3 → ℝ) :
    (∀ g g', InvMat.Grad (m.mat eng) z x g → InvMat.Grad (TOD.init C10 C01 C11 C20 C30 strain).mat z x g' → g = g') ∧
    (∀ k k', InvMat.Hess (m.mat eng) z x k → InvMat.Hess (TOD.init C10 C01 C11 C20 C30 strain).mat z x k' → k = k') := by
  obtain ⟨e, he, hψ⟩ := h
  obtain ⟨u1, u2⟩ := torch_unique (fun x => hψ x trivial) (C10_gradient C10 C01 C11 C20 C30 strain z)
    (C10_hessian C10 C01 C11 C20 C30 strain z) (fun x => (C10_returns C10 C01 C11 C20 C30 strain z x).1) x
  exact ⟨fun g g' h1 h2 => (torch_grad he h1).trans (u1 g' h2), fun k k' h1 h2 => (torch_hess he h1).trans (u2 k' h2)⟩

theorem eval_pt {ι : Type} (i : ι) (L : Fin 3 → Arr ι) (e : Expr) : e.eval L i = e.eval (pt i L) := by
  induction e with
  | const | leaf => rfl
  | neg a ih => simp only [Expr.eval, Pi.neg_apply, ih]
  | add a b ha hb => simp only [Expr.eval, Pi.add_apply, ha, hb]
  | sub a b ha hb => simp only [Expr.eval, Pi.sub_apply, ha, hb]
  | mul a b ha hb => simp only [Expr.eval, Pi.mul_apply, ha, hb]
  | div a b ha hb => simp only [Expr.eval, Pi.div_apply, ha, hb]
  | npow a n ih => simp only [Expr.eval, Pi.pow_apply, ih]
  | pow a p ih => simp only [Expr.eval, ← ih]; rfl
  | exp a ih => simp only [Expr.eval, ← ih]; rfl
  | log a ih => simp only [Expr.eval, ← ih]; rfl
  | saved a ih => exact ih

/-- one point of an object -/
def objAt {ι : Type} (i : ι) : Obj (Arr ι) → Obj ℝ
  | .none => .none
  | .tensor e => .tensor e
  | .array a => .array (a i)
  | .other => .other

/-- running two methods side by side -/
def Along {σ α β : Type} (ρ : α → β) (p : PyM σ α) (q : PyM σ β) : Prop := ∀ s, ((p s).1.map ρ, (p s).2) = q s

theorem along_bind {σ α β γ δ : Type} {ρ : α → β} {ρ' : γ → δ} {p : PyM σ α} {q : PyM σ β} {f : α → PyM σ γ} {g : β → PyM σ δ}
    (h : Along ρ p q) (hf : ∀ a, Along ρ' (f a) (g (ρ a))) : Along ρ' (p >>= f) (q >>= g) := by
  intro s
  rw [PyM.bind_run, PyM.bind_run, ← h s]
  rcases p s with ⟨e | a, s1⟩
  · rfl
  · exact hf a s1

theorem along_grad {ι : Type} (eng : Engine) (i : ι) (L : Fin 3 → Arr ι) (f : Obj (Arr ι)) (x : Fin 3) (n c r : Bool) :
    Along (objAt i) (grad eng L f x n c r) (grad eng (pt i L) (objAt i f) x n c r) := by
  rcases f with _ | e | a | _
  · exact fun s => rfl
  · refine along_bind (ρ := id) (fun s => ?_) fun d s => ?_
    · rcases autograd eng e x c r s with ⟨e | a, s1⟩ <;> rfl
    · rcases d with _ | d
      · rfl
      · rcases n
        · rfl
        · change (Except.ok (Obj.array (d.eval L i)), s) = (Except.ok (Obj.array (d.eval (pt i L))), s)
          rw [eval_pt]
  · exact fun s => rfl
  · exact fun s => rfl

theorem along_gradientObj {ι : Type} {m : TorchModel ℝ} {mb : TorchModel (Arr ι)} {e : Expr}
    (he : m.func (.leaf 0) (.leaf 1) (.leaf 2) = .ok (.tensor e))
    (hb : mb.func (.leaf 0) (.leaf 1) (.leaf 2) = .ok (.tensor e)) (eng : Engine) (i : ι) (L : Fin 3 → Arr ι) (z : Z)
    (n c r : Bool) : Along (fun o => (objAt i o.1, objAt i o.2.1, objAt i o.2.2.1, o.2.2.2))
      (mb.gradientObj eng L z n c r) (m.gradientObj eng (pt i L) z n c r) := by
  refine along_bind (ρ := objAt i) (fun s => by rw [he, hb]; rfl) fun f => ?_
  refine along_bind (along_grad eng i L f 0 n c r) fun g1 => ?_
  refine along_bind (along_grad eng i L f 1 n c r) fun g2 => ?_
  refine along_bind (along_grad eng i L f 2 n c r) fun g3 => fun s => rfl

theorem along_hessianObj {ι : Type} {m : TorchModel ℝ} {mb : TorchModel (Arr ι)} {e : Expr}
    (he : m.func (.leaf 0) (.leaf 1) (.leaf 2) = .ok (.tensor e))
    (hb : mb.func (.leaf 0) (.leaf 1) (.leaf 2) = .ok (.tensor e)) (eng : Engine) (i : ι) (L : Fin 3 → Arr ι) (z : Z)
    (n : Bool) : Along (fun o => (objAt i o.1, objAt i o.2.1, objAt i o.2.2.1, objAt i o.2.2.2.1, objAt i o.2.2.2.2.1,
      objAt i o.2.2.2.2.2)) (mb.hessianObj eng L z n) (m.hessianObj eng (pt i L) z n) := by
  refine along_bind (along_gradientObj he hb eng i L z _ _ _) fun o => ?_
  refine along_bind (along_grad eng i L o.1 0 n _ _) fun h1 => ?_
  refine along_bind (along_grad eng i L o.2.1 1 n _ _) fun h2 => ?_
  refine along_bind (along_grad eng i L o.2.2.1 2 n _ _) fun h3 => ?_
  refine along_bind (along_grad eng i L o.1 1 n _ _) fun h4 => ?_
  refine along_bind (along_grad eng i L o.2.1 2 n _ _) fun h5 => ?_
  exact along_bind (along_grad eng i L o.1 2 n _ _) fun h6 => fun s => rfl

theorem toOption_at {ι : Type} (i : ι) (o : Obj (Arr ι)) : o.toOption.map (· i) = (objAt i o).toOption := by
  cases o <;> rfl

/-- Evaluating a batch and taking a point gives what evaluating the point gives, exceptions included. -/
theorem C55_batch {ι : Type} (mb : TorchModel (Arr ι)) (e : Expr)
    (he : m.func (.leaf 0) (.leaf 1) (.leaf 2) = .ok (.tensor e))
    (hb : mb.func (.leaf 0) (.leaf 1) (.leaf 2) = .ok (.tensor e)) (i : ι) :
    InvMat.AgreesAt i id (mb.mat (Z := Z) eng) (m.mat eng) := by
  intro I1 I2 I3 z s t
  have e3 : pt i ![I1, I2, I3] = ![I1 i, I2 i, I3 i] := by funext a; fin_cases a <;> rfl
  constructor
  · have h := congrArg Prod.fst (along_gradientObj he hb eng i ![I1, I2, I3] z true false false eng.fresh)
    simp only [TorchModel.mat, PyM.lift_run, id]
    rw [← e3, ← h]
    rcases (mb.gradientObj eng ![I1, I2, I3] z true false false eng.fresh).1 with _ | o
    · rfl
    · simp only [Except.map, InvGrad.at, toOption_at, id]
  · have h := congrArg Prod.fst (along_hessianObj he hb eng i ![I1, I2, I3] z true eng.fresh)
    simp only [TorchModel.mat, PyM.lift_run, id]
    rw [← e3, ← h]
    rcases (mb.hessianObj eng ![I1, I2, I3] z true eng.fresh).1 with _ | o
    · rfl
    · simp only [Except.map, InvHess.at, toOption_at]

/-! ### C56: which energies are accepted -/

/-- An engine which never raises: tensors which do not require grad are the only reason for an exception. -/
def Willing (eng : Engine) : Prop := ∀ e i c r s, (eng.step e i c r s).1 = none

theorem requiresGrad_iff (e : Expr) : e.requiresGrad ↔ ∃ i, e.Uses i := by
  induction e with
  | const => simp [Expr.requiresGrad, Expr.Uses]
  | leaf j => simp [Expr.requiresGrad, Expr.Uses]
  | neg a ih | npow a n ih | pow a n ih | exp a ih | log a ih | saved a ih => simpa only [Expr.requiresGrad, Expr.Uses] using ih
  | add a b ha hb | sub a b ha hb | mul a b ha hb | div a b ha hb =>
    simp only [Expr.requiresGrad, Expr.Uses, Bool.or_eq_true, ha, hb, exists_or]

theorem backward_none_iff (i : Fin 3) (e g : Expr) : e.backward i g = none ↔ ¬ e.Uses i := by
  have acc : ∀ a b, Expr.accumulate a b = none ↔ a = none ∧ b = none := by
    intro a b; cases a <;> cases b <;> simp [Expr.accumulate]
  induction e generalizing g with
  | const => simp [Expr.backward, Expr.Uses]
  | leaf j => simp only [Expr.backward, Expr.Uses]; split_ifs with h <;> simp [h]
  | neg a ih | npow a n ih | pow a n ih | exp a ih | log a ih | saved a ih => simp only [Expr.backward, Expr.Uses, ih]
  | add a b ha hb | sub a b ha hb | mul a b ha hb | div a b ha hb =>
    simp only [Expr.backward, Expr.Uses, acc, ha, hb, not_or]

theorem Linked_uses {i : Fin 3} {e : Expr} (h : e.Linked i) : e.Uses i := by
  induction e with
  | const => exact h.elim
  | leaf => exact h
  | neg a ih | exp a ih | log a ih | saved a ih => exact ih h
  | npow a n ih | pow a n ih => exact ih h.2
  | add a b ha hb | sub a b ha hb | mul a b ha hb | div a b ha hb =>
    simp only [Expr.Linked, Expr.Uses] at h ⊢
    tauto

theorem Curved_uses {i : Fin 3} {e : Expr} (h : e.Curved i) : e.Uses i := by
  induction e with
  | const | leaf => exact h.elim
  | neg a ih | saved a ih => exact ih h
  | npow a n ih | pow a n ih => exact h.elim ih fun h => (Linked_uses h.2 : a.Uses i)
  | exp a ih | log a ih => exact h.elim ih fun h => (Linked_uses h : a.Uses i)
  | add a b ha hb | sub a b ha hb | mul a b ha hb | div a b ha hb =>
    have la := @Linked_uses i a
    have lb := @Linked_uses i b
    simp only [Expr.Curved, Expr.Uses] at h ⊢
    tauto

/-- whether a derivative can be differentiated once more -/
theorem backward_requiresGrad (i : Fin 3) (e g d : Expr) (h : e.backward i g = some d) :
    d.requiresGrad ↔ (g.requiresGrad ∧ e.Linked i) ∨ e.Curved i := by
  have acc : ∀ {a b : Option Expr} {d : Expr}, Expr.accumulate a b = some d →
      (d.requiresGrad ↔ (∃ x, a = some x ∧ x.requiresGrad) ∨ ∃ x, b = some x ∧ x.requiresGrad) := by
    intro a b d h
    cases a <;> cases b <;> simp [Expr.accumulate] at h <;> subst h <;> simp [Expr.requiresGrad]
  have split : ∀ {a b : Expr} {ga gb d : Expr} {P Q : Prop}, Expr.accumulate (a.backward i ga) (b.backward i gb) = some d →
      (∀ d, a.backward i ga = some d → (d.requiresGrad ↔ P)) → (∀ d, b.backward i gb = some d → (d.requiresGrad ↔ Q)) →
      (d.requiresGrad ↔ (a.Uses i ∧ P) ∨ (b.Uses i ∧ Q)) ∧ (a.Uses i ∨ b.Uses i) := by
    intro a b ga gb d P Q h hP hQ
    have na := backward_none_iff i a ga
    have nb := backward_none_iff i b gb
    refine ⟨?_, ?_⟩
    · rw [acc h]
      refine or_congr ?_ ?_
      · rcases hx : a.backward i ga with _ | x
        · simp [na.1 hx]
        · have : a.Uses i := by by_contra k; rw [na.2 k] at hx; cases hx
          simp [this, hP x hx]
      · rcases hx : b.backward i gb with _ | x
        · simp [nb.1 hx]
        · have : b.Uses i := by by_contra k; rw [nb.2 k] at hx; cases hx
          simp [this, hQ x hx]
    · by_contra k
      rw [not_or, ← na, ← nb] at k
      rw [k.1, k.2] at h
      cases h
  have uses : ∀ {a ga d : Expr}, a.backward i ga = some d → a.Uses i := by
    intro a ga d h
    by_contra k
    rw [(backward_none_iff i a ga).2 k] at h
    cases h
  induction e generalizing g d with
  | const => cases h
  | leaf j =>
    simp only [Expr.backward] at h
    split_ifs at h
    cases h
    simp_all [Expr.Curved, Expr.Linked]
  | neg a ih => refine (ih _ _ h).trans ?_; simp [Expr.requiresGrad, Expr.Curved, Expr.Linked]
  | saved a ih => exact ih _ _ h
  | add a b ha hb | sub a b ha hb =>
    obtain ⟨h1, h2⟩ := split h (fun d => ha _ d) (fun d => hb _ d)
    have ca := @Curved_uses i a
    have la := @Linked_uses i a
    have lb := @Linked_uses i b
    have cb := @Curved_uses i b
    refine h1.trans ?_
    clear ha hb h1 h acc split uses
    simp only [Expr.requiresGrad, Expr.Curved, Expr.Linked]
    grind
  | mul a b ha hb =>
    obtain ⟨h1, h2⟩ := split h (fun d => ha _ d) (fun d => hb _ d)
    have ca := @Curved_uses i a
    have la := @Linked_uses i a
    have lb := @Linked_uses i b
    have cb := @Curved_uses i b
    refine h1.trans ?_
    clear ha hb h1 h acc split uses
    simp only [Expr.requiresGrad, Expr.Curved, Expr.Linked, Bool.or_eq_true, ← requiresGrad_iff]
    grind
  | div a b ha hb =>
    obtain ⟨h1, h2⟩ := split h (fun d => ha _ d) (fun d => hb _ d)
    have ca := @Curved_uses i a
    have la := @Linked_uses i a
    have lb := @Linked_uses i b
    have cb := @Curved_uses i b
    have rb : b.Uses i → b.requiresGrad := fun h => (requiresGrad_iff b).2 ⟨i, h⟩
    refine h1.trans ?_
    clear ha hb h1 h acc split uses
    simp only [Expr.requiresGrad, Expr.Curved, Expr.Linked, Bool.or_eq_true, ← requiresGrad_iff]
    grind
  | npow a n ih | pow a n ih =>
    have ra := (requiresGrad_iff a).2 ⟨i, uses h⟩
    refine (ih _ _ h).trans ?_
    clear acc split uses ih h
    split_ifs with hn <;> simp [Expr.requiresGrad, Expr.Curved, Expr.Linked, hn, ra] <;> tauto
  | exp a ih | log a ih =>
    have ra := (requiresGrad_iff a).2 ⟨i, uses h⟩
    refine (ih _ _ h).trans ?_
    clear acc split uses ih h
    simp only [Expr.requiresGrad, Expr.Curved, Expr.Linked, ra, Bool.or_true]
    grind

/-- the object can be differentiated: anything but a tensor which does not require grad -/
def Ready {K : Type} : Obj K → Prop
  | .tensor e => e.requiresGrad
  | _ => True

theorem grad_ready {eng : Engine} {leaves : Fin 3 → ℝ} {f : Obj ℝ} {i : Fin 3} {n c r : Bool} {s s' : eng.graph} {o : Obj ℝ}
    (h : grad eng leaves f i n c r s = (.ok o, s')) : Ready f := by
  rcases f with _ | e | a | _
  · trivial
  · obtain ⟨d, s1, h1, -⟩ := bind_ok h
    exact (autograd_ok h1).1
  · trivial
  · trivial

theorem grad_willing {eng : Engine} (heng : Willing eng) (leaves : Fin 3 → ℝ) {f : Obj ℝ} (hf : Ready f) (i : Fin 3)
    (n c r : Bool) (s : eng.graph) : ∃ s', grad eng leaves f i n c r s = (.ok (out leaves n (next i f)), s') := by
  rcases f with _ | e | a | _
  · exact ⟨s, rfl⟩
  · have h1 : autograd eng e i c r s = (.ok (e.backward i (.const 1)), (eng.step e i c r s).2) := by
      rw [autograd, if_pos (show e.requiresGrad = true from hf)]
      have := heng e i c r s
      rcases hs : eng.step e i c r s with ⟨o, s1⟩
      rw [hs] at this
      obtain rfl : o = none := this
      rfl
    refine ⟨(eng.step e i c r s).2, ?_⟩
    simp only [grad, PyM.bind_run, h1, next]
    rcases e.backward i (.const 1) with _ | d
    · rfl
    · rcases n <;> rfl
  · exact ⟨s, rfl⟩
  · exact ⟨s, rfl⟩

theorem gradientObj_willing {m : TorchModel ℝ} {eng : Engine} (heng : Willing eng) {e : Expr}
    (he : m.func (.leaf 0) (.leaf 1) (.leaf 2) = .ok (.tensor e)) (hr : e.requiresGrad) (leaves : Fin 3 → ℝ) (z : Z)
    (n c r : Bool) (s : eng.graph) : ∃ s', m.gradientObj eng leaves z n c r s =
      (.ok (out leaves n (d1 e 0), out leaves n (d1 e 1), out leaves n (d1 e 2), z), s') := by
  obtain ⟨s1, h1⟩ := grad_willing heng leaves (f := .tensor e) hr 0 n c r s
  obtain ⟨s2, h2⟩ := grad_willing heng leaves (f := .tensor e) hr 1 n c r s1
  obtain ⟨s3, h3⟩ := grad_willing heng leaves (f := .tensor e) hr 2 n c r s2
  refine ⟨s3, ?_⟩
  simp only [TorchModel.gradientObj, PyM.bind_run, PyM.lift_run, he, h1, h2, h3]
  rfl

/-- `gradient` returns if and only if an invariant occurs in the energy. -/
theorem C56_gradient (heng : Willing eng) (e : Expr) (he : m.func (.leaf 0) (.leaf 1) (.leaf 2) = .ok (.tensor e))
    (x : Fin 3 → ℝ) : (∃ g, InvMat.Grad (m.mat eng) z x g) ↔ ∃ i, e.Uses i := by
  rw [← requiresGrad_iff]
  constructor
  · rintro ⟨g, s, r, hr, -⟩
    simp only [Returns, TorchModel.mat, PyM.lift_run] at hr
    rcases hg : m.gradientObj eng ![x 0, x 1, x 2] z true false false eng.fresh with ⟨_ | o, s'⟩ <;> rw [hg] at hr
    · exact absurd hr (by simp [Except.map])
    · obtain ⟨f, s1, h1, k1⟩ := bind_ok hg
      obtain ⟨g1, s2, h2, -⟩ := bind_ok k1
      rw [PyM.lift_run, he] at h1
      obtain rfl : Obj.tensor e = f := by simpa using congrArg Prod.fst h1
      exact grad_ready h2
  · intro hr
    obtain ⟨s', h⟩ := gradientObj_willing heng he hr ![x 0, x 1, x 2] z true false false eng.fresh
    have hR : ∃ r, Returns ((m.mat eng).gradient (x 0) (x 1) (x 2) z) () r := by
      simp only [Returns, TorchModel.mat, PyM.lift_run, h, Except.map]
      exact ⟨_, rfl⟩
    obtain ⟨r, hR⟩ := hR
    exact ⟨_, (), r, hR, rfl⟩

/-- `hessian` returns if and only if an invariant occurs in the energy and every invariant which occurs also occurs at a
place where it enters nonlinearly.  (Missing: energies which are linear in an invariant, see `C56_linear_false`.) -/
theorem C56_hessian_partial (heng : Willing eng) (e : Expr) (he : m.func (.leaf 0) (.leaf 1) (.leaf 2) = .ok (.tensor e))
    (x : Fin 3 → ℝ) : (∃ h, InvMat.Hess (m.mat eng) z x h) ↔ (∃ i, e.Uses i) ∧ ∀ i, e.Uses i → e.Curved i := by
  have hcv : (∀ i, e.Uses i → e.Curved i) ↔ ∀ i, ∀ d ∈ e.backward i (.const 1), d.requiresGrad := by
    refine forall_congr' fun i => ⟨fun h d hd => ?_, fun h hu => ?_⟩
    · refine (backward_requiresGrad i e _ d hd).2 (Or.inr (h ?_))
      by_contra k
      rw [(backward_none_iff i e _).2 k] at hd
      cases hd
    · rcases hd : e.backward i (.const 1) with _ | d
      · exact absurd hu ((backward_none_iff i e _).1 hd)
      · exact ((backward_requiresGrad i e _ d hd).1 (h d hd)).resolve_left (by simp [Expr.requiresGrad])
  rw [← requiresGrad_iff, hcv]
  have hready : ∀ (L : Fin 3 → ℝ) i, Ready (out L false (d1 e i)) ↔ ∀ d ∈ e.backward i (.const 1), d.requiresGrad := by
    intro L i
    simp only [d1]
    rcases e.backward i (.const 1) with _ | d
    · simp [out, Ready]
    · simp [out, Ready]
  constructor
  · rintro ⟨g, s, r, hr, -⟩
    simp only [Returns, TorchModel.mat, PyM.lift_run] at hr
    rcases hg : m.hessianObj eng ![x 0, x 1, x 2] z true eng.fresh with ⟨_ | o, s'⟩ <;> rw [hg] at hr
    · exact absurd hr (by simp [Except.map])
    · obtain ⟨⟨d1', d2', d3', z'⟩, s0, h0, k0⟩ := bind_ok hg
      obtain ⟨f, hf, hd⟩ := gradientObj_ok h0
      rw [he] at hf
      obtain rfl : Obj.tensor e = f := by simpa using hf
      obtain ⟨f', s1, h1, k1⟩ := bind_ok h0
      obtain ⟨g0, s2, h2, -⟩ := bind_ok k1
      rw [PyM.lift_run, he] at h1
      obtain rfl : Obj.tensor e = f' := by simpa using congrArg Prod.fst h1
      obtain ⟨g1, s2, r1, k1⟩ := bind_ok k0
      obtain ⟨g2, s3, r2, k2⟩ := bind_ok k1
      obtain ⟨g3, s4, r3, k3⟩ := bind_ok k2
      simp only [Prod.mk.injEq] at hd
      obtain ⟨rfl, rfl, rfl, -⟩ := hd
      refine ⟨grad_ready h2, fun i => ?_⟩
      rw [← hready ![x 0, x 1, x 2] i]
      fin_cases i
      · exact grad_ready r1
      · exact grad_ready r2
      · exact grad_ready r3
  · rintro ⟨hr, hd⟩
    have hd := fun i => (hready ![x 0, x 1, x 2] i).2 (hd i)
    obtain ⟨s0, h0⟩ := gradientObj_willing heng he hr ![x 0, x 1, x 2] z false true false eng.fresh
    obtain ⟨s1, h1⟩ := grad_willing heng ![x 0, x 1, x 2] (hd 0) 0 true false false s0
    obtain ⟨s2, h2⟩ := grad_willing heng ![x 0, x 1, x 2] (hd 1) 1 true false false s1
    obtain ⟨s3, h3⟩ := grad_willing heng ![x 0, x 1, x 2] (hd 2) 2 true false false s2
    obtain ⟨s4, h4⟩ := grad_willing heng ![x 0, x 1, x 2] (hd 0) 1 true false false s3
    obtain ⟨s5, h5⟩ := grad_willing heng ![x 0, x 1, x 2] (hd 1) 2 true false false s4
    obtain ⟨s6, h6⟩ := grad_willing heng ![x 0, x 1, x 2] (hd 0) 2 true false false s5
    have hR : ∃ r, Returns ((m.mat eng).hessian (x 0) (x 1) (x 2) z) () r := by
      simp only [Returns, TorchModel.mat, PyM.lift_run, TorchModel.hessianObj, PyM.bind_run, h0, h1, h2, h3, h4, h5, h6]
      exact ⟨_, rfl⟩
    obtain ⟨r, hR⟩ := hR
    exact ⟨_, (), r, hR, rfl⟩

/-- What a user relies on: the second derivatives of every energy which can be written with tensor operations are
available. -/
def C56_Full : Prop := ∀ (m : TorchModel ℝ) (eng : Engine), Willing eng → ∀ ψ dom, Computes m ψ dom →
  ∀ (z : Unit) x, dom x → ∃ h, InvMat.Hess (m.mat eng) z x h

/-- an engine which never raises -/
def willingEngine : Engine := ⟨Unit, (), fun _ _ _ _ _ => (none, ())⟩

/-- The Neo-Hookean energy `C10 (I1 - 3)` of a user: its first derivative is a tensor which does not require grad, so
`hessian` raises a `RuntimeError`. -/
theorem C56_linear_false : ¬ C56_Full := by
  intro h
  have h1 := h ⟨fun I1 _ _ => .ok (.tensor (.mul (.const 1) (.sub I1 (.const 3))))⟩ willingEngine (fun _ _ _ _ _ => rfl)
    (fun x => 1 * (x 0 - 3)) (fun _ => True) ⟨_, rfl, fun x _ => ⟨⟨trivial, trivial, trivial⟩, rfl⟩⟩ () 0 trivial
  rw [C56_hessian_partial _ _ _ (fun _ _ _ _ _ => rfl) _ rfl] at h1
  have h2 := h1.2 0 (by simp [Expr.Uses])
  simp [Expr.Curved, Expr.Uses, Expr.Linked] at h2

/-- the Yeoh energy of `tests/test_torch.py` (lines 8-10) -/
noncomputable def yeoh (C10 C20 C30 : ℝ) : TorchModel ℝ := ⟨fun I1 _ _ => .ok (.tensor
  (.add (.add (.mul (.const C10) (.sub I1 (.const 3))) (.mul (.const C20) (.npow (.sub I1 (.const 3)) 2)))
    (.mul (.const C30) (.npow (.sub I1 (.const 3)) 3))))⟩

/-- The hypotheses of C55 and C56 are met by the Yeoh energy: it computes the energy of `ThirdOrderDeformation`, and both
methods return. -/
example (C10 C20 C30 : ℝ) (x : Fin 3 → ℝ) : Computes (yeoh C10 C20 C30) (todEnergy C10 0 0 C20 C30 (if false then 0 else 3))
      (fun _ => True) ∧
    (∃ g, InvMat.Grad ((yeoh C10 C20 C30).mat willingEngine) () x g) ∧
    ∃ h, InvMat.Hess ((yeoh C10 C20 C30).mat willingEngine) () x h := by
  have hw : Willing willingEngine := fun _ _ _ _ _ => rfl
  refine ⟨⟨_, rfl, fun x _ => ⟨⟨⟨⟨trivial, trivial, trivial⟩, trivial, trivial, trivial⟩, trivial, trivial, trivial⟩, ?_⟩⟩,
    (C56_gradient _ _ _ hw _ rfl x).2 ⟨0, by simp [Expr.Uses]⟩,
    (C56_hessian_partial _ _ _ hw _ rfl x).2 ⟨⟨0, by simp [Expr.Uses]⟩, fun i => ?_⟩⟩
  · simp only [Expr.eval, Elementwise.const, todEnergy, if_false, Bool.false_eq_true]
    ring
  · simp [Expr.Uses, Expr.Curved, Expr.Linked]

/-- A volumetric energy with a logarithm and a division: `1/2 log(I3)^2 + I1 / I3` on positive invariants. -/
example : Computes (K := ℝ) ⟨fun I1 _ I3 => .ok (.tensor (.add (.mul (.const (1 / 2)) (.npow (.log I3) 2)) (.div I1 I3)))⟩
    (fun x => 1 / 2 * Real.log (x 2) ^ 2 + x 0 / x 2) Positive :=
  ⟨_, rfl, fun x hx => ⟨⟨⟨trivial, trivial, hx 2⟩, trivial, trivial, (hx 2).ne'⟩, rfl⟩⟩

/-! ### released buffers -/

/-- the passes made so far -/
def passes (s : releasing.graph) : List (Expr × Fin 3) := s

/-- the state with one more pass -/
def visited (e : Expr) (x : Fin 3) (s : releasing.graph) : releasing.graph := ((e, x) :: passes s : List (Expr × Fin 3))

theorem passes_visited (e : Expr) (x : Fin 3) (s : releasing.graph) : passes (visited e x s) = (e, x) :: passes s := rfl

theorem passes_fresh : passes releasing.fresh = [] := rfl

/-- the pass from `e` towards `x` meets an operation whose tensors are released -/
def Meets (e : Expr) (x : Fin 3) (s : releasing.graph) : Prop :=
  (∃ y, (e, y) ∈ passes s ∧ e.Couples y x) ∨
    ∃ e' y a, (e', y) ∈ passes s ∧ Keeps a e ∧ PartOf a e' ∧ a.Couples y x

/-- one backward pass of the engine which releases what it visited -/
theorem grad_refused {leaves : Fin 3 → ℝ} {e : Expr} (hr : e.requiresGrad) {x : Fin 3} {s : releasing.graph}
    (h : Meets e x s) (n c : Bool) :
    grad releasing leaves (.tensor e) x n c false s = (.error .runtimeError, visited e x s) := by
  classical
  have hs : releasing.step e x c false s = (some .runtimeError, visited e x s) := by
    refine Prod.ext (if_pos h) rfl
  have h1 : autograd releasing e x c false s = (.error .runtimeError, visited e x s) := by
    rw [autograd, if_pos hr, hs]
  simp only [grad, PyM.bind_run, h1]

theorem grad_granted {leaves : Fin 3 → ℝ} {e : Expr} (hr : e.requiresGrad) {x : Fin 3} {s : releasing.graph}
    (h : ¬ Meets e x s) (n c : Bool) :
    grad releasing leaves (.tensor e) x n c false s = (.ok (out leaves n (d1 e x)), visited e x s) := by
  classical
  have hs : releasing.step e x c false s = (none, visited e x s) := by
    refine Prod.ext (if_neg h) rfl
  have h1 : autograd releasing e x c false s = (.ok (e.backward x (.const 1)), visited e x s) := by
    rw [autograd, if_pos hr, hs]
  simp only [grad, PyM.bind_run, h1, d1]
  rcases e.backward x (.const 1) with _ | d
  · rfl
  · rcases n <;> rfl

/-- the user's own operations meet only what passes from the same tensor released -/
theorem meets_written {e : Expr} (hw : e.Written) (x : Fin 3) (s : releasing.graph) :
    Meets e x s ↔ ∃ y, (e, y) ∈ passes s ∧ e.Couples y x :=
  or_iff_left fun ⟨_, _, a, _, h, _⟩ => hw a h

theorem couples_comm (i j : Fin 3) (e : Expr) : e.Couples i j ↔ e.Couples j i := by
  induction e with
  | const | leaf | saved => rfl
  | neg a ih => exact ih
  | add a b ha hb | sub a b ha hb => simp only [Expr.Couples, ha, hb]
  | mul a b ha hb | div a b ha hb => simp only [Expr.Couples, ha, hb]; tauto
  | npow a n ih | pow a n ih | exp a ih | log a ih => simp only [Expr.Couples, ih]; tauto

/-- the state after the three passes of `gradient` -/
noncomputable def after (e : Expr) : releasing.graph := visited e 2 (visited e 1 (visited e 0 releasing.fresh))

/-- The engine's first three passes over an energy: they return together, or a `RuntimeError` is raised. -/
theorem gradientObj_releasing {m : TorchModel ℝ} {e : Expr} (he : m.func (.leaf 0) (.leaf 1) (.leaf 2) = .ok (.tensor e))
    (hw : e.Written) (hr : e.requiresGrad) (leaves : Fin 3 → ℝ) (z : Z) (n c : Bool) :
    ((∀ i j, i ≠ j → ¬ e.Couples i j) ∧ m.gradientObj releasing leaves z n c false releasing.fresh =
      (.ok (out leaves n (d1 e 0), out leaves n (d1 e 1), out leaves n (d1 e 2), z), after e)) ∨
    ((∃ i j, i ≠ j ∧ e.Couples i j) ∧ ∃ s', m.gradientObj releasing leaves z n c false releasing.fresh = (.error .runtimeError, s')) := by
  have hc : ∀ i j, e.Couples i j ↔ e.Couples j i := fun i j => couples_comm i j e
  have k0 := grad_granted (leaves := leaves) hr (x := 0) (s := releasing.fresh) (by simp [meets_written hw, passes_fresh]) n c
  by_cases h01 : e.Couples 0 1
  · have k1 := grad_refused (leaves := leaves) hr (x := 1) (s := visited e 0 releasing.fresh)
      ((meets_written hw _ _).2 ⟨0, by simp [passes_visited], h01⟩) n c
    exact Or.inr ⟨⟨0, 1, by decide, h01⟩, _, by simp only [TorchModel.gradientObj, PyM.bind_run, PyM.lift_run, he, k0, k1]; rfl⟩
  have k1 := grad_granted (leaves := leaves) hr (x := 1) (s := visited e 0 releasing.fresh)
    (by simp [meets_written hw, passes_visited, passes_fresh, h01]) n c
  by_cases h2 : e.Couples 0 2 ∨ e.Couples 1 2
  · have k2 := grad_refused (leaves := leaves) hr (x := 2) (s := visited e 1 (visited e 0 releasing.fresh))
      ((meets_written hw _ _).2 (h2.elim (fun h => ⟨0, by simp [passes_visited], h⟩) fun h => ⟨1, by simp [passes_visited], h⟩)) n c
    exact Or.inr ⟨h2.elim (fun h => ⟨0, 2, by decide, h⟩) (fun h => ⟨1, 2, by decide, h⟩), _, by
      simp only [TorchModel.gradientObj, PyM.bind_run, PyM.lift_run, he, k0, k1, k2]; rfl⟩
  obtain ⟨h02, h12⟩ := not_or.1 h2
  have k2 := grad_granted (leaves := leaves) hr (x := 2) (s := visited e 1 (visited e 0 releasing.fresh))
    (by simp [meets_written hw, passes_visited, passes_fresh, h02, h12]) n c
  refine Or.inl ⟨fun i j hij => ?_, by
    simp only [TorchModel.gradientObj, PyM.bind_run, PyM.lift_run, he, k0, k1, k2]; rfl⟩
  have h10 := fun k => h01 ((hc 1 0).1 k)
  have h20 := fun k => h02 ((hc 2 0).1 k)
  have h21 := fun k => h12 ((hc 2 1).1 k)
  fin_cases i <;> fin_cases j <;> first | exact absurd rfl hij | assumption

/-- With PyTorch's released buffers `gradient` returns if and only if an invariant occurs in the energy and no operation
which keeps tensors for its backward pass depends on two different invariants. -/
theorem C56_buffers_partial (e : Expr) (he : m.func (.leaf 0) (.leaf 1) (.leaf 2) = .ok (.tensor e)) (hw : e.Written)
    (x : Fin 3 → ℝ) :
    (∃ g, InvMat.Grad (m.mat releasing) z x g) ↔ (∃ i, e.Uses i) ∧ ∀ i j, i ≠ j → ¬ e.Couples i j := by
  rw [← requiresGrad_iff]
  constructor
  · rintro ⟨g, s, r, hr, -⟩
    simp only [Returns, TorchModel.mat, PyM.lift_run] at hr
    rcases hg : m.gradientObj releasing ![x 0, x 1, x 2] z true false false releasing.fresh with ⟨_ | o, s'⟩ <;> rw [hg] at hr
    · exact absurd hr (by simp [Except.map])
    · obtain ⟨f, s1, h1, k1⟩ := bind_ok hg
      obtain ⟨g1, s2, h2, -⟩ := bind_ok k1
      rw [PyM.lift_run, he] at h1
      obtain rfl : Obj.tensor e = f := by simpa using congrArg Prod.fst h1
      have hr' : e.requiresGrad := grad_ready h2
      refine ⟨hr', ?_⟩
      rcases gradientObj_releasing he hw hr' ![x 0, x 1, x 2] z true false with ⟨hc, -⟩ | ⟨-, s'', h⟩
      · exact hc
      · exact absurd (hg.symm.trans h) (by simp)
  · rintro ⟨hr, hc⟩
    rcases gradientObj_releasing he hw hr ![x 0, x 1, x 2] z true false with ⟨-, h⟩ | ⟨⟨i, j, hij, hk⟩, -⟩
    · have hR : ∃ r, Returns ((m.mat releasing).gradient (x 0) (x 1) (x 2) z) () r := by
        simp only [Returns, TorchModel.mat, PyM.lift_run]
        rw [h]
        exact ⟨_, rfl⟩
      obtain ⟨r, hR⟩ := hR
      exact ⟨_, (), r, hR, rfl⟩
    · exact absurd hk (hc i j hij)

/-- An energy which couples two invariants makes both methods raise `RuntimeError`, at every point. -/
theorem C56_coupled (e : Expr) (he : m.func (.leaf 0) (.leaf 1) (.leaf 2) = .ok (.tensor e)) (hw : e.Written)
    (i j : Fin 3) (hij : i ≠ j) (hc : e.Couples i j) (I1 I2 I3 : ℝ) :
    ((m.mat releasing).gradient I1 I2 I3 z ()).1 = .error .runtimeError ∧
    ((m.mat releasing).hessian I1 I2 I3 z ()).1 = .error .runtimeError := by
  by_cases hr : e.requiresGrad
  · constructor
    · rcases gradientObj_releasing he hw hr ![I1, I2, I3] z true false with ⟨h, -⟩ | ⟨-, s', h⟩
      · exact absurd hc (h i j hij)
      · simp only [TorchModel.mat, PyM.lift_run]
        rw [h]
        rfl
    · rcases gradientObj_releasing he hw hr ![I1, I2, I3] z false true with ⟨h, -⟩ | ⟨-, s', h⟩
      · exact absurd hc (h i j hij)
      · simp only [TorchModel.mat, PyM.lift_run, TorchModel.hessianObj, PyM.bind_run]
        rw [h]
        rfl
  · constructor <;>
    simp only [TorchModel.mat, PyM.lift_run, TorchModel.hessianObj, TorchModel.gradientObj, PyM.bind_run, he, grad, autograd,
      if_neg hr] <;> rfl

/-- The `C11` term of `ThirdOrderDeformation`, written for torch, raises although torch can differentiate it: the claim
fails for `gradient`, too. -/
theorem C56_coupled_false : ¬ ∀ (m : TorchModel ℝ) ψ, Computes m ψ (fun _ => True) →
    ∀ (z : Unit) x, ∃ g, InvMat.Grad (m.mat releasing) z x g := by
  intro h
  obtain ⟨g, hg⟩ := h ⟨fun I1 I2 _ => .ok (.tensor (.mul (.mul (.const 1) (.sub I1 (.const 3))) (.sub I2 (.const 3))))⟩
    (fun x => 1 * (x 0 - 3) * (x 1 - 3)) ⟨_, rfl, fun x _ => ⟨⟨⟨trivial, trivial, trivial⟩, trivial, trivial⟩, rfl⟩⟩ () 0
  have hn := ((C56_buffers_partial _ _ _ rfl (by simp [Expr.Written, Keeps]) _).1 ⟨g, hg⟩).2 0 1 (by decide)
  simp [Expr.Couples, Expr.Uses] at hn

/-- The Yeoh energy and the Mooney-Rivlin energy are differentiated by the engine which releases buffers. -/
example (C10 C01 C20 C30 : ℝ) (x : Fin 3 → ℝ) : (∃ g, InvMat.Grad ((yeoh C10 C20 C30).mat releasing) () x g) ∧
    ∃ g, InvMat.Grad (TorchModel.mat ⟨fun I1 I2 _ => .ok (.tensor
      (.add (.mul (.const C10) (.sub I1 (.const 3))) (.mul (.const C01) (.sub I2 (.const 3)))))⟩ releasing) () x g := by
  refine ⟨(C56_buffers_partial _ _ _ rfl (by simp [Expr.Written, Keeps]) x).2 ⟨⟨0, by simp [Expr.Uses]⟩, fun i j hij => ?_⟩,
    (C56_buffers_partial _ _ _ rfl (by simp [Expr.Written, Keeps]) x).2 ⟨⟨0, by simp [Expr.Uses]⟩, fun i j hij => ?_⟩⟩
  · fin_cases i <;> fin_cases j <;> simp_all [Expr.Couples, Expr.Uses]
  · fin_cases i <;> fin_cases j <;> simp_all [Expr.Couples, Expr.Uses]

/-! ### the second backward pass through released buffers -/

theorem accumulate_some {a b : Option Expr} {d : Expr} (h : Expr.accumulate a b = some d) :
    (a = some d ∧ b = none) ∨ (b = some d ∧ a = none) ∨ ∃ x y, a = some x ∧ b = some y ∧ d = .add x y := by
  cases a <;> cases b <;> simp [Expr.accumulate] at h <;> subst h <;> simp

/-- what holds for the derivative held before -/
theorem holds_accumulate {x y : Option Expr} {d a : Expr} (h : Expr.accumulate x y = some d) (ha : Keeps a d) :
    (∃ d', x = some d' ∧ Keeps a d') ∨ ∃ d', y = some d' ∧ Keeps a d' := by
  rcases accumulate_some h with ⟨h, -⟩ | ⟨h, -⟩ | ⟨x', y', h1, h2, rfl⟩
  · exact Or.inl ⟨_, h, ha⟩
  · exact Or.inr ⟨_, h, ha⟩
  · exact ha.imp (fun h => ⟨_, h1, h⟩) fun h => ⟨_, h2, h⟩

theorem within_self (b : Expr) : PartOf b b := by cases b <;> simp [PartOf]

/-- a kept tensor of a derivative was computed on the way to the energy -/
theorem holds_backward (i : Fin 3) {e g d a : Expr} (h : e.backward i g = some d) (ha : Keeps a d) :
    Keeps a g ∨ PartOf a e := by
  induction e generalizing g d with
  | const => cases h
  | leaf j =>
    simp only [Expr.backward] at h
    split_ifs at h
    cases h
    exact Or.inl ha
  | neg b ih => exact (ih h ha).imp id Or.inr
  | saved b ih => exact (ih h ha).imp id Or.inr
  | add b c hb hc | sub b c hb hc | mul b c hb hc | div b c hb hc =>
    have wb := within_self b
    have wc := within_self c
    simp only [PartOf]
    rcases holds_accumulate h ha with ⟨d', h, ha⟩ | ⟨d', h, ha⟩
    · have := hb h ha
      try simp only [Keeps] at this
      grind
    · have := hc h ha
      try simp only [Keeps] at this
      grind
  | npow b n ih | pow b n ih =>
    have wb := within_self b
    simp only [PartOf]
    have := ih h ha
    split_ifs at this <;> simp only [Keeps] at this <;> grind
  | exp b ih | log b ih =>
    have wb := within_self b
    simp only [PartOf]
    have := ih h ha
    simp only [Keeps] at this
    grind

/-- a tensor computed on the way to an energy couples no more than the energy -/
theorem couples_within {i j : Fin 3} {e a : Expr} (hw : e.Written) (ha : PartOf a e) (hc : a.Couples i j) : e.Couples i j := by
  induction e with
  | const | leaf => simp only [PartOf] at ha; subst ha; exact hc
  | saved b ih => exact absurd rfl (hw b)
  | neg b ih =>
    rcases ha with rfl | ha
    · exact hc
    · exact ih (fun x hx => hw x hx) ha
  | npow b n ih | pow b n ih | exp b ih | log b ih =>
    rcases ha with rfl | ha
    · exact hc
    · exact Or.inr (ih (fun x hx => hw x hx) ha)
  | add b c hb hc' | sub b c hb hc' =>
    rcases ha with rfl | ha | ha
    · exact hc
    · exact Or.inl (hb (fun x hx => hw x (Or.inl hx)) ha)
    · exact Or.inr (hc' (fun x hx => hw x (Or.inr hx)) ha)
  | mul b c hb hc' | div b c hb hc' =>
    rcases ha with rfl | ha | ha
    · exact hc
    · exact Or.inr (Or.inl (hb (fun x hx => hw x (Or.inl hx)) ha))
    · exact Or.inr (Or.inr (hc' (fun x hx => hw x (Or.inr hx)) ha))

theorem couples_uses {i j : Fin 3} {e : Expr} (h : e.Couples i j) : e.Uses i ∧ e.Uses j := by
  induction e with
  | const | leaf | saved => cases h
  | neg a ih => exact ih h
  | add a b ha hb | sub a b ha hb | mul a b ha hb | div a b ha hb =>
    simp only [Expr.Couples, Expr.Uses] at h ⊢
    tauto
  | npow a n ih | pow a n ih | exp a ih | log a ih =>
    simp only [Expr.Couples, Expr.Uses] at h ⊢
    tauto

theorem holds_uses {i : Fin 3} {e a : Expr} (h : Keeps a e) (ha : a.Uses i) : e.Uses i := by
  induction e with
  | const | leaf => cases h
  | saved b => obtain rfl : b = a := h; exact ha
  | neg a ih | npow a n ih | pow a n ih | exp a ih | log a ih => exact ih h
  | add a b ha hb | sub a b ha hb | mul a b ha hb | div a b ha hb => exact h.imp ha hb

theorem uses_accumulate {x y : Option Expr} {d : Expr} {j : Fin 3} (h : Expr.accumulate x y = some d) (ha : d.Uses j) :
    (∃ d', x = some d' ∧ d'.Uses j) ∨ ∃ d', y = some d' ∧ d'.Uses j := by
  rcases accumulate_some h with ⟨h, -⟩ | ⟨h, -⟩ | ⟨x', y', h1, h2, rfl⟩
  · exact Or.inl ⟨_, h, ha⟩
  · exact Or.inr ⟨_, h, ha⟩
  · exact ha.imp (fun h => ⟨_, h1, h⟩) fun h => ⟨_, h2, h⟩

theorem backward_uses {i : Fin 3} {e g d : Expr} (h : e.backward i g = some d) : e.Uses i := by
  by_contra k
  rw [(backward_none_iff i e g).2 k] at h
  cases h

/-- the derivative of an energy which couples no two invariants depends on its own invariant only -/
theorem uses_backward {i j : Fin 3} (hij : i ≠ j) {e g d : Expr} (hw : e.Written) (hc : ¬ e.Couples i j)
    (h : e.backward i g = some d) (hd : d.Uses j) : g.Uses j := by
  induction e generalizing g d with
  | const => cases h
  | leaf k =>
    simp only [Expr.backward] at h
    split_ifs at h
    cases h
    exact hd
  | saved b ih => exact absurd rfl (hw b)
  | neg b ih => exact ih (g := .neg g) (fun x hx => hw x hx) hc h hd
  | add b c hb hc' =>
    rcases uses_accumulate h hd with ⟨d', h, hd⟩ | ⟨d', h, hd⟩
    · exact hb (fun x hx => hw x (Or.inl hx)) (fun k => hc (Or.inl k)) h hd
    · exact hc' (fun x hx => hw x (Or.inr hx)) (fun k => hc (Or.inr k)) h hd
  | sub b c hb hc' =>
    rcases uses_accumulate h hd with ⟨d', h, hd⟩ | ⟨d', h, hd⟩
    · exact hb (fun x hx => hw x (Or.inl hx)) (fun k => hc (Or.inl k)) h hd
    · exact hc' (g := .neg g) (fun x hx => hw x (Or.inr hx)) (fun k => hc (Or.inr k)) h hd
  | mul b c hb hc' | div b c hb hc' =>
    simp only [Expr.Couples] at hc
    rcases uses_accumulate h hd with ⟨d', h, hd⟩ | ⟨d', h, hd⟩
    · have := hb (fun x hx => hw x (Or.inl hx)) (by tauto) h hd
      have := backward_uses h
      simp only [Expr.Uses] at *
      tauto
    · have := hc' (fun x hx => hw x (Or.inr hx)) (by tauto) h hd
      have := backward_uses h
      simp only [Expr.Uses] at *
      tauto
  | npow b n ih | pow b n ih =>
    simp only [Expr.Couples] at hc
    have h1 := ih (fun x hx => hw x hx) (by tauto) h hd
    have := backward_uses h
    split_ifs at h1 <;> simp only [Expr.Uses] at h1 <;> tauto
  | exp b ih | log b ih =>
    simp only [Expr.Couples] at hc
    have h1 := ih (fun x hx => hw x hx) (by tauto) h hd
    have := backward_uses h
    simp only [Expr.Uses] at h1
    tauto

theorem Nested_uses {i : Fin 3} {e : Expr} (h : e.Nested i) : e.Uses i := by
  induction e with
  | const | leaf => cases h
  | neg a ih | saved a ih => exact ih h
  | add a b ha hb | sub a b ha hb | mul a b ha hb | div a b ha hb =>
    have la := @Linked_uses i a
    have lb := @Linked_uses i b
    simp only [Expr.Nested, Expr.Uses] at h ⊢
    tauto
  | npow a n ih | pow a n ih | exp a ih | log a ih =>
    have la := @Linked_uses i a
    simp only [Expr.Nested, Expr.Uses] at h ⊢
    tauto

/-- The derivative holds a tensor which was computed by a visited operation. -/
def Stale (i : Fin 3) (d : Expr) : Prop := ∃ a, Keeps a d ∧ a.Couples i i

theorem stale_add (i : Fin 3) (a b : Expr) : Stale i (.add a b) ↔ Stale i a ∨ Stale i b := by
  simp only [Stale, Keeps, or_and_right, exists_or]
theorem stale_mul (i : Fin 3) (a b : Expr) : Stale i (.mul a b) ↔ Stale i a ∨ Stale i b := by
  simp only [Stale, Keeps, or_and_right, exists_or]
theorem stale_div (i : Fin 3) (a b : Expr) : Stale i (.div a b) ↔ Stale i a ∨ Stale i b := by
  simp only [Stale, Keeps, or_and_right, exists_or]
theorem stale_neg (i : Fin 3) (a : Expr) : Stale i (.neg a) ↔ Stale i a := Iff.rfl
theorem stale_npow (i : Fin 3) (a : Expr) (n : ℕ) : Stale i (.npow a n) ↔ Stale i a := Iff.rfl
theorem stale_pow (i : Fin 3) (a : Expr) (n : ℝ) : Stale i (.pow a n) ↔ Stale i a := Iff.rfl
theorem stale_const (i : Fin 3) (c : ℝ) : Stale i (.const c) ↔ False := by simp [Stale, Keeps]
theorem stale_saved (i : Fin 3) (a : Expr) : Stale i (.saved a) ↔ a.Couples i i := by simp [Stale, Keeps]

theorem backward_stale (i : Fin 3) {e g d : Expr} (h : e.backward i g = some d) :
    Stale i d ↔ (Stale i g ∧ e.Linked i) ∨ e.Nested i := by
  have acc : ∀ {a b : Option Expr} {d : Expr}, Expr.accumulate a b = some d →
      (Stale i d ↔ (∃ x, a = some x ∧ Stale i x) ∨ ∃ x, b = some x ∧ Stale i x) := by
    intro a b d h
    cases a <;> cases b <;> simp [Expr.accumulate] at h <;> subst h <;> simp [stale_add]
  have split : ∀ {a b : Expr} {ga gb d : Expr} {P Q : Prop}, Expr.accumulate (a.backward i ga) (b.backward i gb) = some d →
      (∀ d, a.backward i ga = some d → (Stale i d ↔ P)) → (∀ d, b.backward i gb = some d → (Stale i d ↔ Q)) →
      (Stale i d ↔ (a.Uses i ∧ P) ∨ (b.Uses i ∧ Q)) := by
    intro a b ga gb d P Q h hP hQ
    have na := backward_none_iff i a ga
    have nb := backward_none_iff i b gb
    rw [acc h]
    refine or_congr ?_ ?_
    · rcases hx : a.backward i ga with _ | x
      · simp [na.1 hx]
      · simp [backward_uses hx, hP x hx]
    · rcases hx : b.backward i gb with _ | x
      · simp [nb.1 hx]
      · simp [backward_uses hx, hQ x hx]
  induction e generalizing g d with
  | const => cases h
  | leaf j =>
    simp only [Expr.backward] at h
    split_ifs at h
    cases h
    simp_all [Expr.Nested, Expr.Linked]
  | neg a ih => exact (ih h).trans (by simp [stale_neg, Expr.Nested, Expr.Linked])
  | saved a ih => exact ih h
  | add a b ha hb | sub a b ha hb | mul a b ha hb | div a b ha hb =>
    have h1 := split h (fun d => ha) (fun d => hb)
    have ca := @Nested_uses i a
    have la := @Linked_uses i a
    have lb := @Linked_uses i b
    have cb := @Nested_uses i b
    refine h1.trans ?_
    clear ha hb h1 h acc split
    simp only [stale_neg, stale_mul, stale_div, stale_saved, Expr.Nested, Expr.Linked]
    grind
  | npow a n ih | pow a n ih =>
    refine (ih h).trans ?_
    simp only [Expr.Nested, Expr.Linked]
    clear ih h acc split
    split_ifs <;> simp only [stale_mul, stale_const, stale_npow, stale_pow, stale_saved] <;> grind
  | exp a ih =>
    have la := @Linked_uses i a
    refine (ih h).trans ?_
    clear ih h acc split
    simp only [stale_mul, stale_saved, Expr.Nested, Expr.Linked, Expr.Couples]
    grind
  | log a ih =>
    refine (ih h).trans ?_
    clear ih h acc split
    simp only [stale_div, stale_saved, Expr.Nested, Expr.Linked]
    grind

/-- a derivative depends on invariants through kept tensors only -/
theorem holds_of_uses {i j : Fin 3} {e g d : Expr} (h : e.backward i g = some d) (hg : g.Uses j → ∃ a, Keeps a g)
    (hd : d.Uses j) : ∃ a, Keeps a d := by
  have acc : ∀ {x y : Option Expr} {d : Expr}, Expr.accumulate x y = some d → (∀ d', x = some d' → d'.Uses j → ∃ a, Keeps a d') →
      (∀ d', y = some d' → d'.Uses j → ∃ a, Keeps a d') → d.Uses j → ∃ a, Keeps a d := by
    intro x y d h hx hy hd
    rcases accumulate_some h with ⟨h, -⟩ | ⟨h, -⟩ | ⟨x', y', h1, h2, rfl⟩
    · exact hx _ h hd
    · exact hy _ h hd
    · rcases hd with hd | hd
      · exact (hx _ h1 hd).imp fun a ha => Or.inl ha
      · exact (hy _ h2 hd).imp fun a ha => Or.inr ha
  induction e generalizing g d with
  | const => cases h
  | leaf k =>
    simp only [Expr.backward] at h
    split_ifs at h
    cases h
    exact hg hd
  | saved b ih => exact ih h hg hd
  | neg b ih => exact ih (g := .neg g) h hg hd
  | add b c hb hc => exact acc h (fun d' h => hb h hg) (fun d' h => hc h hg) hd
  | sub b c hb hc => exact acc h (fun d' h => hb h hg) (fun d' h => hc (g := .neg g) h hg) hd
  | mul b c hb hc =>
    exact acc h (fun d' h => hb h fun _ => ⟨c, Or.inr rfl⟩) (fun d' h => hc h fun _ => ⟨b, Or.inr rfl⟩) hd
  | div b c hb hc =>
    exact acc h (fun d' h => hb h fun _ => ⟨c, Or.inr rfl⟩) (fun d' h => hc h fun _ => ⟨c, Or.inr (Or.inr rfl)⟩) hd
  | npow b n ih | pow b n ih =>
    refine ih h (fun hu => ?_) hd
    split_ifs at hu ⊢
    · exact hu.elim
    · exact ⟨b, Or.inr (Or.inr rfl)⟩
  | exp b ih => exact ih h (fun _ => ⟨_, Or.inr rfl⟩) hd
  | log b ih => exact ih h (fun _ => ⟨b, Or.inr rfl⟩) hd

/-- one pass of `hessian`: what it starts from, or nothing -/
theorem grad_pass {L : Fin 3 → ℝ} {o : Option Expr} (x : Fin 3) (s : releasing.graph) (hr : ∀ d ∈ o, d.requiresGrad)
    (h : ∀ d ∈ o, ¬ Meets d x s) :
    ∃ s', grad releasing L (out L false o) x true false false s = (.ok (out L true (o.bind fun d => d1 d x)), s') ∧
      ∀ p, p ∈ passes s' ↔ p ∈ passes s ∨ ∃ d ∈ o, p = (d, x) := by
  rcases o with _ | d
  · exact ⟨s, rfl, by simp⟩
  · refine ⟨_, grad_granted (hr d rfl) (h d rfl) true false, fun p => ?_⟩
    simp [passes_visited, or_comm]

theorem grad_fails {L : Fin 3 → ℝ} {d : Expr} (x : Fin 3) (s : releasing.graph) (h : d.requiresGrad → Meets d x s) :
    ∃ s', grad releasing L (.tensor d) x true false false s = (.error .runtimeError, s') := by
  by_cases hr : d.requiresGrad
  · exact ⟨_, grad_refused hr (h hr) true false⟩
  · exact ⟨s, by simp only [grad, PyM.bind_run, autograd, if_neg hr]⟩

/-- With PyTorch's released buffers `hessian` returns if and only if an invariant occurs in the energy, no operation which
keeps tensors depends on two different invariants, and every invariant which occurs enters nonlinearly, but not through an
exponential and not through two such operations applied one after the other. -/
theorem C56_hessian_buffers_partial (e : Expr) (he : m.func (.leaf 0) (.leaf 1) (.leaf 2) = .ok (.tensor e)) (hw : e.Written)
    (x : Fin 3 → ℝ) : (∃ h, InvMat.Hess (m.mat releasing) z x h) ↔
      (∃ i, e.Uses i) ∧ (∀ i j, i ≠ j → ¬ e.Couples i j) ∧ ∀ i, e.Uses i → e.Curved i ∧ ¬ e.Nested i := by
  set L : Fin 3 → ℝ := ![x 0, x 1, x 2] with hL
  have hrun : (∃ h, InvMat.Hess (m.mat releasing) z x h) ↔
      ∃ r, (m.hessianObj releasing L z true releasing.fresh).1 = .ok r := by
    constructor
    · rintro ⟨g, s, r, hr, -⟩
      simp only [Returns, TorchModel.mat, PyM.lift_run] at hr
      rcases hg : m.hessianObj releasing L z true releasing.fresh with ⟨_ | o, s'⟩
      · rw [hg] at hr
        exact absurd hr (by simp [Except.map])
      · exact ⟨o, rfl⟩
    · rintro ⟨r, hr⟩
      have hR : ∃ r, Returns ((m.mat releasing).hessian (x 0) (x 1) (x 2) z) () r := by
        simp only [Returns, TorchModel.mat, PyM.lift_run]
        rw [hr]
        exact ⟨_, rfl⟩
      obtain ⟨r, hR⟩ := hR
      exact ⟨_, (), r, hR, rfl⟩
  rw [hrun]
  by_cases hr : e.requiresGrad
  swap
  · have hne : (m.hessianObj releasing L z true releasing.fresh).1 = .error .runtimeError := by
      simp only [TorchModel.hessianObj, TorchModel.gradientObj, PyM.bind_run, PyM.lift_run, he, grad, autograd, if_neg hr]
    rw [hne, ← requiresGrad_iff]
    simp [hr]
  rcases gradientObj_releasing he hw hr L z false true with ⟨hc, h0⟩ | ⟨⟨i, j, hij, hk⟩, s', h0⟩
  swap
  · have hne : (m.hessianObj releasing L z true releasing.fresh).1 = .error .runtimeError := by
      simp only [TorchModel.hessianObj, PyM.bind_run, h0]
    rw [hne]
    simp only [reduceCtorEq, exists_false, false_iff, not_and]
    intro _ h
    exact absurd hk (h i j hij)
  -- the passes over the derivatives
  have hown : ∀ {i j d}, d1 e i = some d → d.Uses j → j = i := by
    intro i j d hd hu
    by_contra k
    exact uses_backward (Ne.symm k) hw (hc i j (Ne.symm k)) hd hu
  have hreq : ∀ i, (∀ d ∈ d1 e i, d.requiresGrad) ↔ (e.Uses i → e.Curved i) := by
    refine fun i => ⟨fun h hu => ?_, fun h d hd => (backward_requiresGrad i e _ d hd).2 (Or.inr (h (backward_uses hd)))⟩
    rcases hd : e.backward i (.const 1) with _ | d
    · exact absurd hu ((backward_none_iff i e _).1 hd)
    · exact ((backward_requiresGrad i e _ d hd).1 (h d hd)).resolve_left (by simp [Expr.requiresGrad])
  have hst : ∀ i, (∀ d ∈ d1 e i, ¬ Stale i d) ↔ (e.Uses i → ¬ e.Nested i) := by
    refine fun i => ⟨fun h hu => ?_, fun h d hd k => ?_⟩
    · rcases hd : e.backward i (.const 1) with _ | d
      · exact absurd hu ((backward_none_iff i e _).1 hd)
      · exact fun k => h d hd ((backward_stale i hd).2 (Or.inr k))
    · exact h (backward_uses hd) (((backward_stale i hd).1 k).resolve_left (by simp [stale_const]))
  -- the state lists passes from `e` and from derivatives towards invariants
  have hmeets : ∀ {i j d s}, d1 e i = some d → d.requiresGrad →
      (∀ p ∈ passes s, p.1 = e ∨ ∃ k, d1 e k = some p.1 ∧ p.1.requiresGrad ∧ ¬ (k = i ∧ p.2 = j)) →
      (i = j → ¬ Stale i d) → ¬ Meets d j s := by
    rintro i j d s hd hrd hs hst (⟨y, hy, hcy⟩ | ⟨e', y, a, hy, ha, hwi, hcy⟩)
    · obtain ⟨hu1, hu2⟩ := couples_uses hcy
      obtain rfl := hown hd hu1
      obtain rfl := hown hd hu2
      rcases hs _ hy with h | ⟨k, hk, hrk, hne⟩
      · simp only at h
        subst h
        obtain ⟨a, ha⟩ := holds_of_uses hd (fun h => h.elim) hu1
        exact hw a ha
      · exact hne ⟨(hown hk hu1).symm, rfl⟩
    · have hwe := (holds_backward i hd ha).resolve_left (by simp [Keeps])
      have hyj : y = j := by
        by_contra k
        exact hc y j k (couples_within hw hwe hcy)
      subst hyj
      obtain rfl := hown hd (holds_uses ha (couples_uses hcy).1)
      exact hst rfl ⟨a, ha, hcy⟩
  have hstale : ∀ {i d s}, d1 e i = some d → (e, i) ∈ passes s → Stale i d → Meets d i s := by
    rintro i d s hd hs ⟨a, ha, hac⟩
    exact Or.inr ⟨e, i, a, hs, ha, (holds_backward i hd ha).resolve_left (by simp [Keeps]), hac⟩
  let Good : Fin 3 → Prop := fun i => ∀ d ∈ d1 e i, d.requiresGrad ∧ ¬ Stale i d
  have hgood : ((∃ i, e.Uses i) ∧ (∀ i j, i ≠ j → ¬ e.Couples i j) ∧ ∀ i, e.Uses i → e.Curved i ∧ ¬ e.Nested i) ↔
      ∀ i, Good i := by
    constructor
    · rintro ⟨-, -, h⟩ i d hd
      exact ⟨(hreq i).2 (fun hu => (h i hu).1) d hd, (hst i).2 (fun hu => (h i hu).2) d hd⟩
    · exact fun h => ⟨(requiresGrad_iff e).1 hr, hc, fun i hu =>
        ⟨(hreq i).1 (fun d hd => (h i d hd).1) hu, (hst i).1 (fun d hd => (h i d hd).2) hu⟩⟩
  rw [hgood]
  let Done : releasing.graph → List (Fin 3 × Fin 3) → Prop := fun s l => (∀ i, (e, i) ∈ passes s) ∧
    ∀ p ∈ passes s, p.1 = e ∨ ∃ k, d1 e k = some p.1 ∧ p.1.requiresGrad ∧ (k, p.2) ∈ l
  have good : ∀ (i j : Fin 3) (s : releasing.graph) (l : List (Fin 3 × Fin 3)), Good i → Done s l → (i, j) ∉ l →
      ∃ r s', grad releasing L (out L false (d1 e i)) j true false false s = (.ok r, s') ∧ Done s' ((i, j) :: l) := by
    intro i j s l hg hs hl
    obtain ⟨s', h1, h2⟩ := grad_pass (L := L) j s (fun d hd => (hg d hd).1) fun d hd =>
      hmeets (j := j) (s := s) hd (hg d hd).1 (fun p hp => (hs.2 p hp).imp id fun ⟨k, hk, hkr, hkl⟩ =>
        ⟨k, hk, hkr, fun ⟨hi, hj⟩ => hl (hi ▸ hj ▸ hkl)⟩) (fun _ => (hg d hd).2)
    refine ⟨_, s', h1, fun i => (h2 _).2 (Or.inl (hs.1 i)), fun p hp => ?_⟩
    rcases (h2 p).1 hp with hp | ⟨d, hd, rfl⟩
    · exact (hs.2 p hp).imp id fun ⟨k, hk, hkr, hkl⟩ => ⟨k, hk, hkr, List.mem_cons_of_mem _ hkl⟩
    · exact Or.inr ⟨i, hd, (hg d hd).1, by simp⟩
  have bad : ∀ (i : Fin 3) (s : releasing.graph), ¬ Good i → (e, i) ∈ passes s →
      ∃ s', grad releasing L (out L false (d1 e i)) i true false false s = (.error .runtimeError, s') := by
    intro i s hg hs
    simp only [Good, not_forall] at hg
    obtain ⟨d, hd, hn⟩ := hg
    have hd' : d1 e i = some d := hd
    rw [hd']
    exact grad_fails i s fun hrd => hstale hd hs (by_contra fun k => hn ⟨hrd, k⟩)
  have D0 : Done (after e) [] := by
    refine ⟨fun i => ?_, fun p hp => Or.inl ?_⟩
    · fin_cases i <;> simp [after, passes_visited]
    · simp only [after, passes_visited, passes_fresh, List.mem_cons, List.not_mem_nil, or_false] at hp
      rcases hp with rfl | rfl | rfl <;> rfl
  have fails : ∀ {s'}, m.hessianObj releasing L z true releasing.fresh = (.error .runtimeError, s') →
      ¬ ∃ r, (m.hessianObj releasing L z true releasing.fresh).1 = .ok r := by
    intro s' h
    rw [h]
    simp
  by_cases g0 : Good 0
  swap
  · obtain ⟨s1, h1⟩ := bad 0 _ g0 (D0.1 0)
    exact iff_of_false (fails (by simp only [TorchModel.hessianObj, PyM.bind_run, h0, h1]; rfl)) fun h => g0 (h 0)
  obtain ⟨r1, s1, h1, D1⟩ := good 0 0 _ _ g0 D0 (by simp)
  by_cases g1 : Good 1
  swap
  · obtain ⟨s2, h2⟩ := bad 1 _ g1 (D1.1 1)
    exact iff_of_false (fails (by simp only [TorchModel.hessianObj, PyM.bind_run, h0, h1, h2]; rfl)) fun h => g1 (h 1)
  obtain ⟨r2, s2, h2, D2⟩ := good 1 1 _ _ g1 D1 (by simp)
  by_cases g2 : Good 2
  swap
  · obtain ⟨s3, h3⟩ := bad 2 _ g2 (D2.1 2)
    exact iff_of_false (fails (by simp only [TorchModel.hessianObj, PyM.bind_run, h0, h1, h2, h3]; rfl)) fun h => g2 (h 2)
  obtain ⟨r3, s3, h3, D3⟩ := good 2 2 _ _ g2 D2 (by simp)
  obtain ⟨r4, s4, h4, D4⟩ := good 0 1 _ _ g0 D3 (by simp)
  obtain ⟨r5, s5, h5, D5⟩ := good 1 2 _ _ g1 D4 (by simp)
  obtain ⟨r6, s6, h6, -⟩ := good 0 2 _ _ g0 D5 (by simp)
  refine iff_of_true ⟨(r1, r2, r3, r4, r5, r6), ?_⟩ fun i => ?_
  · simp only [TorchModel.hessianObj, PyM.bind_run, h0, h1, h2, h3, h4, h5, h6]
    rfl
  · fin_cases i
    · exact g0
    · exact g1
    · exact g2

/-- The exponential energy `exp(I1 - 3)` raises a `RuntimeError` in `hessian`, although it is nonlinear and `gradient`
returns: without `retain_graph` the first pass releases the kept result of the exponential, which the second pass needs. -/
theorem C56_exponential_false : ∃ m : TorchModel ℝ, Computes m (fun x => Real.exp (x 0 - 3)) (fun _ => True) ∧
    ∀ x, (∃ g, InvMat.Grad (m.mat releasing) () x g) ∧ (∃ h, InvMat.Hess (m.mat willingEngine) () x h) ∧
      ¬ ∃ h, InvMat.Hess (m.mat releasing) () x h := by
  refine ⟨⟨fun I1 _ _ => .ok (.tensor (.exp (.sub I1 (.const 3))))⟩, ⟨_, rfl, fun x _ => ⟨⟨trivial, trivial⟩, rfl⟩⟩,
    fun x => ⟨(C56_buffers_partial _ _ _ rfl (by simp [Expr.Written, Keeps]) x).2 ⟨⟨0, by simp [Expr.Uses]⟩, ?_⟩,
      (C56_hessian_partial _ _ _ (fun _ _ _ _ _ => rfl) _ rfl x).2 ⟨⟨0, by simp [Expr.Uses]⟩, ?_⟩, ?_⟩⟩
  · intro i j hij
    simp only [Expr.Couples, Expr.Uses]
    rintro (⟨h1 | h1, h2 | h2⟩ | h1 | h1) <;> first | exact h1 | exact h2 | exact hij (h1.symm.trans h2)
  · simp [Expr.Uses, Expr.Curved, Expr.Linked]
  · rw [C56_hessian_buffers_partial _ _ _ rfl (by simp [Expr.Written, Keeps])]
    rintro ⟨-, -, h⟩
    exact (h 0 (by simp [Expr.Uses])).2 (by simp [Expr.Nested, Expr.Linked])

/-- The Yeoh energy's second derivatives are returned by the engine which releases buffers. -/
example (C10 C20 C30 : ℝ) (x : Fin 3 → ℝ) : ∃ h, InvMat.Hess ((yeoh C10 C20 C30).mat releasing) () x h := by
  refine (C56_hessian_buffers_partial _ _ _ rfl (by simp [Expr.Written, Keeps]) x).2
    ⟨⟨0, by simp [Expr.Uses]⟩, fun i j hij => ?_, fun i => ?_⟩
  · fin_cases i <;> fin_cases j <;> simp_all [Expr.Couples, Expr.Uses]
  · simp [Expr.Uses, Expr.Curved, Expr.Linked, Expr.Nested, Expr.Couples]

end Props
