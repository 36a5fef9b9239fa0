import Verif.Model.Dtype
import Verif.Proofs.Voigt
import Mathlib.Data.ZMod.Basic
import Mathlib.Tactic.Linarith
import Mathlib.Tactic.Ring
import Mathlib.Tactic.FinCases
import Mathlib.Tactic.NormNum

/-! # Lemmas on arrays with a dtype -/

namespace Hel.Dt
open NArr

variable {ι κ Z μ : Type}

/-! ### wrap-around -/

theorem wrap_modEq (w : IntTy) (x : ℤ) : wrap w x ≡ x [ZMOD 2 ^ w.bits] := by
  have h := @Int.bmod_emod x (2 ^ w.bits)
  unfold Int.ModEq wrap
  push_cast at h ⊢
  exact_mod_cast h

theorem wrap_congr {w : IntTy} {x y : ℤ} (h : x ≡ y [ZMOD 2 ^ w.bits]) : wrap w x = wrap w y := by
  have h' : x % ((2 ^ w.bits : ℕ) : ℤ) = y % ((2 ^ w.bits : ℕ) : ℤ) := by
    push_cast; exact h
  unfold wrap
  rw [Int.bmod_def, Int.bmod_def, h']

theorem wrap_fits {w : IntTy} {x : ℤ} (h0 : -2 ^ (w.bits - 1) ≤ x) (h1 : x < 2 ^ (w.bits - 1)) :
    wrap w x = x := by
  unfold wrap
  cases w <;> simp only [IntTy.bits] at * <;> rw [Int.bmod_def] <;> norm_num at * <;> omega

@[simp] theorem wrap_zero (w : IntTy) : wrap w 0 = 0 := wrap_fits (by simp) (by positivity)

theorem wrap_wrap (w : IntTy) (x : ℤ) : wrap w (wrap w x) = wrap w x := wrap_congr (wrap_modEq w x)

/-! ### operations with floats -/

@[simp] theorem val_f64 (v : ι → ℝ) : (NArr.f64 v).val = v := rfl
@[simp] theorem val_int (w : IntTy) (v : ι → ℤ) : (NArr.int w v).val = fun i => (v i : ℝ) := rfl
@[simp] theorem ints_int (w : IntTy) (v : ι → ℤ) : (NArr.int w v).ints = v := rfl
@[simp] theorem reindex_f64 (v : ι → ℝ) (f : κ → ι) : (NArr.f64 v).reindex f = .f64 fun k => v (f k) := rfl
@[simp] theorem reindex_int (w : IntTy) (v : ι → ℤ) (f : κ → ι) :
    (NArr.int w v).reindex f = .int w fun k => v (f k) := rfl
@[simp] theorem val_reindex (A : NArr ι) (f : κ → ι) : (A.reindex f).val = fun k => A.val (f k) := by
  cases A <;> rfl

@[simp] theorem f64_add (a : ι → ℝ) (B : NArr ι) : NArr.f64 a + B = .f64 fun i => a i + B.val i := by
  cases B <;> rfl
@[simp] theorem f64_sub (a : ι → ℝ) (B : NArr ι) : NArr.f64 a - B = .f64 fun i => a i - B.val i := by
  cases B <;> rfl
@[simp] theorem f64_mul (a : ι → ℝ) (B : NArr ι) : NArr.f64 a * B = .f64 fun i => a i * B.val i := by
  cases B <;> rfl
@[simp] theorem add_f64 (A : NArr ι) (b : ι → ℝ) : A + NArr.f64 b = .f64 fun i => A.val i + b i := by
  cases A <;> rfl
@[simp] theorem sub_f64 (A : NArr ι) (b : ι → ℝ) : A - NArr.f64 b = .f64 fun i => A.val i - b i := by
  cases A <;> rfl
@[simp] theorem mul_f64 (A : NArr ι) (b : ι → ℝ) : A * NArr.f64 b = .f64 fun i => A.val i * b i := by
  cases A <;> rfl
theorem int_mul (w w' : IntTy) (a b : ι → ℤ) :
    NArr.int w a * NArr.int w' b = .int (w.join w') fun i => wrap (w.join w') (a i * b i) := rfl
theorem int_add (w w' : IntTy) (a b : ι → ℤ) :
    NArr.int w a + NArr.int w' b = .int (w.join w') fun i => wrap (w.join w') (a i + b i) := rfl
theorem int_sub (w w' : IntTy) (a b : ι → ℤ) :
    NArr.int w a - NArr.int w' b = .int (w.join w') fun i => wrap (w.join w') (a i - b i) := rfl
@[simp] theorem intMul_f64 (n : ℤ) (a : ι → ℝ) : intMul n (.f64 a) = .f64 fun i => n * a i := rfl
@[simp] theorem subLit_f64 (n : ℤ) (a : ι → ℝ) : (NArr.f64 a).subLit n = .f64 fun i => a i - n := rfl
@[simp] theorem sq_f64 (a : ι → ℝ) : (NArr.f64 a).sq = .f64 fun i => a i ^ 2 := rfl
@[simp] theorem store_f64 (a : ι → ℝ) (r : NArr ι) : store (.f64 a) r = .ok (.f64 r.val) := by
  cases r <;> rfl
@[simp] theorem store_int_f64 (w : IntTy) (a : ι → ℤ) (b : ι → ℝ) :
    store (.int w a) (.f64 b) = .error .typeError := rfl
@[simp] theorem store_int_int (w w' : IntTy) (a b : ι → ℤ) :
    store (.int w a) (.int w' b) = .ok (.int w fun i => wrap w (b i)) := rfl

@[simp] theorem join_self (w : IntTy) : w.join w = w := by cases w <;> rfl
@[simp] theorem join_i64 (w : IntTy) : w.join .i64 = .i64 := by cases w <;> rfl
@[simp] theorem i64_join (w : IntTy) : IntTy.i64.join w = .i64 := by cases w <;> rfl
@[simp] theorem join_i32 (w : IntTy) : w.join .i32 = w := by cases w <;> rfl

theorem bc_f64 (x : Unit → ℝ) : (bc (.f64 x) : NArr ι) = .f64 fun _ => x () := rfl
@[simp] theorem val_bc (x : Num) : (bc x : NArr ι).val = fun _ => x.val () := by cases x <;> rfl

/-! ### `einsum` -/

theorem common_f64 {ops : List (NArr ι)} {v : ι → ℝ} (h : NArr.f64 v ∈ ops) : common ops = none := by
  induction ops with
  | nil => simp at h
  | cons A r ih =>
    cases A with
    | int w a => simp only [List.mem_cons, reduceCtorEq, false_or] at h; simp [common, ih h]
    | f64 a => rfl

theorem einsum_f64 [Fintype κ] {ops : List (NArr (ι × κ))} {v : ι × κ → ℝ} (h : NArr.f64 v ∈ ops) :
    einsum ops = .f64 fun i => ∑ k, (ops.map fun A => A.val (i, k)).prod := by
  unfold einsum; rw [common_f64 h]

theorem einsumOut_f64 [Fintype κ] (o : ι → ℝ) {ops : List (NArr (ι × κ))} {v : ι × κ → ℝ}
    (h : NArr.f64 v ∈ ops) :
    einsumOut (.f64 o) ops = .ok (.f64 fun i => ∑ k, (ops.map fun A => A.val (i, k)).prod) := by
  unfold einsumOut; rw [einsum_f64 h]; rfl

theorem einsumOut_f64' [Fintype κ] (o : ι → ℝ) (ops : List (NArr (ι × κ))) :
    einsumOut (.f64 o) ops = .ok (.f64 (einsum ops).val) := by
  unfold einsumOut; cases einsum ops <;> rfl

/-! ### the right Cauchy-Green tensor -/

/-- The exact integers `FᵀF` in Voigt storage. -/
def cgInt (F : Fin 3 → Fin 3 → ℤ) : Fin 6 → ℤ := Hel.asvoigt fun I J => ∑ k, F k I * F k J

theorem rcg_int (w : IntTy) (F : Fin 3 → Fin 3 → ℤ) :
    rightCauchyGreen (.int w fun p => F p.1 p.2) = .int w fun a => wrap w (cgInt F a) := by
  simp [rightCauchyGreen, asvoigt, einsum, common, cgInt, Hel.asvoigt]

theorem rcg_f64 (F : Full2 ℝ) :
    rightCauchyGreen (.f64 fun p => F p.1 p.2) = .f64 (Hel.rightCauchyGreen F) := by
  simp [rightCauchyGreen, asvoigt, einsum, common, Hel.rightCauchyGreen]
  rfl

theorem cgInt_cast (F : Fin 3 → Fin 3 → ℤ) (a : Fin 6) :
    ((cgInt F a : ℤ) : ℝ) = Hel.rightCauchyGreen (fun i j => (F i j : ℝ)) a := by
  simp [cgInt, Hel.rightCauchyGreen, Hel.asvoigt]

/-! ### `det` -/

theorem det_f64 (v : Vec6 ℝ) : det (.f64 v) = .f64 fun _ => Hel.det v := by
  simp [det, item, Hel.det]

theorem wrap_cast (w : IntTy) (x : ℤ) : ((wrap w x : ℤ) : ZMod (2 ^ w.bits)) = x := by
  rw [ZMod.intCast_eq_intCast_iff]; push_cast; exact wrap_modEq w x

theorem wrap_of_cast {w : IntTy} {x y : ℤ} (h : (x : ZMod (2 ^ w.bits)) = y) : wrap w x = wrap w y := by
  rw [ZMod.intCast_eq_intCast_iff] at h; push_cast at h; exact wrap_congr h

theorem det_int (w : IntTy) (v : Vec6 ℤ) : det (.int w v) = .int w fun _ => wrap w (Hel.det v) := by
  simp only [det, item, reindex_int, int_mul, int_add, int_sub, intMul, NArr.sq, join_self, Hel.det]
  congr 1
  funext _
  apply wrap_of_cast
  push_cast [wrap_cast]
  ring

/-! ### `inv`, `ddot`, `dya`, `cdya`, `trace` of floats -/

theorem inv_int (w : IntTy) (v : Vec6 ℤ) (d : Option Num) : inv (.int w v) d none = .error .typeError := by
  simp [inv, int_mul, int_sub, NArr.div, bind, Except.bind]

theorem inv_f64 (v : Vec6 ℝ) (d : Option Num) :
    inv (.f64 v) d none = .ok (.f64 (Hel.inv v (d.map fun x => x.val ()))) := by
  cases d with
  | none => simp [inv, bind, Except.bind, NArr.div, bc, det_f64, Hel.inv, invHeap, Heap.store, take]
  | some d => simp [inv, bind, Except.bind, NArr.div, Hel.inv, invHeap, Heap.store, take]

theorem eye_val : eye.val = (Hel.eye : Vec6 ℝ) := rfl

theorem trace_f64 (v : Vec6 ℝ) : trace (.f64 v) = .f64 fun _ => Hel.trace v := rfl

theorem weights_val (k : Fin 6) : weights.val k = (Hel.weights : Vec6 ℝ) k := by
  fin_cases k <;> simp [weights, Hel.weights]

theorem ddot_f64 (a : Vec6 ℝ) (B : V6) : ddot (.f64 a) B = .f64 fun _ => Hel.ddot a B.val := by
  unfold ddot
  rw [einsum_f64 (v := fun p : Unit × Fin 6 => a p.2) (by simp)]
  simp [Hel.ddot, weights_val, mul_assoc]

theorem ddot44_f64 (a : Fin 6 × Fin 6 → ℝ) (B : M6) :
    ddot44 (.f64 a) B = .f64 fun p => Hel.ddot44 (fun i j => a (i, j)) (fun i j => B.val (i, j)) p.1 p.2 := by
  unfold ddot44
  rw [einsum_f64 (v := fun p : (Fin 6 × Fin 6) × Fin 6 => a (p.1.1, p.2)) (by simp)]
  simp [Hel.ddot44, weights_val, mul_assoc]

theorem ddot24_f64 (a : Vec6 ℝ) (B : M6) :
    ddot24 (.f64 a) B = .f64 (Hel.ddot24 a (fun i j => B.val (i, j))) := by
  unfold ddot24
  rw [einsum_f64 (v := fun p : Fin 6 × Fin 6 => a p.2) (by simp)]
  congr 1
  funext j
  simp [Hel.ddot24, weights_val, mul_assoc]

theorem dya_f64 (a b : Vec6 ℝ) : dya (.f64 a) (.f64 b) = .f64 fun p => Hel.dya a b p.1 p.2 := by
  simp [dya, Hel.dya]

theorem dya_f64_left (a : Vec6 ℝ) (B : V6) : dya (.f64 a) B = .f64 fun p => Hel.dya a B.val p.1 p.2 := by
  simp [dya, Hel.dya]

theorem cdya_ik_f64 (a b : Vec6 ℝ) :
    cdya_ik (.f64 a) (.f64 b) = .f64 fun p => Hel.cdya_ik a b p.1 p.2.1 p.2.2.1 p.2.2.2 := by
  simp [cdya_ik, dya_f64, astensor4, Hel.cdya_ik, Hel.swap12, Hel.astensor4]

theorem cdya_f64 (same : Bool) (a b : Vec6 ℝ) :
    cdya same (.f64 a) (.f64 b) = .ok (.f64 fun p => cdyaOut same a b none p.1 p.2) := by
  cases same
  all_goals
    simp only [cdya, reindex_f64, store_f64, f64_mul, val_f64, f64_add, bind, Except.bind, NArr.divLit,
      iadd, if_true, Bool.true_eq_false, if_false]
    congr 2
    funext ⟨p, q⟩
    rw [cdyaOut_entry]
    unfold cdyaIdx cdyaValue
    by_cases h : p ≤ q <;> simp [h]

theorem cdya_true_f64 (a : Vec6 ℝ) :
    cdya true (.f64 a) (.f64 a) = .ok (.f64 fun p => cdyaSelf a p.1 p.2) := cdya_f64 true a a

/-- `cdya` with an integer array raises. -/
theorem cdya_int (same : Bool) (A B : V6) (w : IntTy) (v : Fin 6 → ℤ) (h : A = .int w v ∨ B = .int w v)
    (hs : same = true → A = B) : cdya same A B = .error .typeError := by
  cases same with
  | true =>
    have e := hs rfl
    subst e
    have h : A = .int w v := by tauto
    subst h
    simp [cdya, bind, Except.bind, int_mul, int_add, NArr.divLit]
  | false =>
    cases A with
    | f64 a =>
      have h : B = .int w v := by simpa using h
      subst h
      simp [cdya, bind, Except.bind]
    | int w' a =>
      cases B with
      | f64 b => simp [cdya, bind, Except.bind]
      | int w'' b => simp [cdya, bind, Except.bind, int_mul, int_add, NArr.divLit, iadd]

theorem transpose_f64 (a : Fin 6 × Fin 6 → ℝ) : transpose (.f64 a) = .f64 fun p => a (p.2, p.1) := rfl

end Hel.Dt
