import Verif.Proofs.DtypeSpace
import Verif.Proofs.Invariants
import Verif.Proofs.Models

/-! # `Invariants` and `ThirdOrderDeformation` on arrays with a dtype -/

namespace Hel.Dt
open NArr Spec.Dtype PyM

variable {Z μ : Type}

/-- a Python float or `float64` scalar -/
noncomputable def flt (x : ℝ) : Num := .f64 fun _ => x

noncomputable def fltGrad (r : InvGrad ℝ Z) : InvGrad Num Z :=
  { d1 := r.d1.map flt, d2 := r.d2.map flt, d3 := r.d3.map flt, sv := r.sv }

noncomputable def fltHess (h : InvHess ℝ) : InvHess Num :=
  { h11 := h.h11.map flt, h22 := h.h22.map flt, h33 := h.h33.map flt, h12 := h.h12.map flt,
    h23 := h.h23.map flt, h13 := h.h13.map flt }

theorem eye_eq : eye = .f64 Hel.eye := rfl

/-- The second invariant as computed. -/
noncomputable def i2 (C : V6) : Num := ((trace C).sq - ddot C C).divLit 2

/-- The typed model agrees with the real-number model at the invariants of `C`. -/
structure InvAgree (mt : InvMatT Z μ) (m : InvMat ℝ Z μ) (C : V6) (V : Vec6 ℝ) : Prop where
  val : C.val = V
  tr : (trace C).val () = Hel.trace V
  grad : ∀ z s, mt.gradient (trace C) (i2 C) (det C) z s =
    ((m.gradient (Hel.trace V) ((Hel.trace V ^ 2 - Hel.ddot V V) / 2) (Hel.det V) z s).1.map fltGrad,
      (m.gradient (Hel.trace V) ((Hel.trace V ^ 2 - Hel.ddot V V) / 2) (Hel.det V) z s).2)
  hess : ∀ z s, mt.hessian (trace C) (i2 C) (det C) z s =
    ((m.hessian (Hel.trace V) ((Hel.trace V ^ 2 - Hel.ddot V V) / 2) (Hel.det V) z s).1.map fltHess,
      (m.hessian (Hel.trace V) ((Hel.trace V ^ 2 - Hel.ddot V V) / 2) (Hel.det V) z s).2)
  d3 : C = .f64 V ∨ ∀ z s r s', m.gradient (Hel.trace V) ((Hel.trace V ^ 2 - Hel.ddot V V) / 2)
    (Hel.det V) z s = (.ok r, s') → r.d3 = none

/-- the attributes after a successful gradient -/
noncomputable def outOf (C : V6) (V : Vec6 ℝ) (r : InvGrad ℝ Z) : InvOut Z where
  dWdC := .f64 (Invariants.gradPure V r)
  sv := r.sv
  I1 := trace C
  I2 := i2 C
  I3 := det C
  r := fltGrad r
  dI1dC := (Invariants.loc r.d1 Hel.eye).map .f64
  dI2dC := (Invariants.loc r.d2 fun a => Hel.trace V * Hel.eye a - V a).map .f64
  dI3dC := (Invariants.loc r.d3 fun a => Hel.det V * Hel.inv V (some (Hel.det V)) a).map .f64
  invC := (Invariants.loc r.d3 (Hel.inv V (some (Hel.det V)))).map .f64

theorem invGradientFull_eq {mt : InvMatT Z μ} {m : InvMat ℝ Z μ} {C : V6} {V : Vec6 ℝ}
    (h : InvAgree mt m C V) (z : Z) (s : μ) :
    invGradientFull mt C z s =
      ((m.gradient (Hel.trace V) ((Hel.trace V ^ 2 - Hel.ddot V V) / 2) (Hel.det V) z s).1.map (outOf C V),
        (m.gradient (Hel.trace V) ((Hel.trace V ^ 2 - Hel.ddot V V) / 2) (Hel.det V) z s).2) := by
  have hg := h.grad z s
  have h3 := h.d3
  unfold invGradientFull
  simp only [bind_run]
  unfold i2 at hg
  rw [hg]
  rcases hr : m.gradient (Hel.trace V) ((Hel.trace V ^ 2 - Hel.ddot V V) / 2) (Hel.det V) z s with ⟨r, s'⟩
  cases r with
  | error e => rfl
  | ok r =>
    replace h3 := h3.imp id fun k => k z s r s' hr
    obtain ⟨d1, d2, d3, sv⟩ := r
    simp only [Except.map, fltGrad]
    cases d3 with
    | none =>
      cases d1 <;> cases d2 <;>
        simp [addI1, addI2, addI3, outOf, Invariants.loc, i2, eye_eq, flt, bc_f64, h.val, h.tr, fltGrad] <;>
        (funext a; simp [Invariants.gradPure])
    | some d3 =>
      have hc : C = .f64 V := by simpa using h3
      subst hc
      cases d1 <;> cases d2 <;>
        simp [addI1, addI2, addI3, outOf, Invariants.loc, i2, eye_eq, flt, bc_f64, inv_f64, det_f64, trace_f64,
          fltGrad, bind, Except.bind] <;>
        (funext a; simp [Invariants.gradPure])

theorem addTerm_run {σ : Type} (acc : Mat6 ℝ) (cond coef : Option ℝ) (x y : Option (Vec6 ℝ))
    (T : V6 → V6 → M6) (T' : Vec6 ℝ → Vec6 ℝ → Mat6 ℝ)
    (hT : ∀ x y, T (.f64 x) (.f64 y) = .f64 fun p => T' x y p.1 p.2) (s : σ) :
    addTerm (.f64 fun p => acc p.1 p.2) (cond.map flt) (coef.map flt) (x.map .f64) (y.map .f64) T s =
      ((Invariants.addTermRes acc cond coef x y T').map fun c => NArr.f64 fun p => c p.1 p.2, s) := by
  cases cond with
  | none => rfl
  | some c =>
    cases x with
    | none => rfl
    | some x =>
      cases y with
      | none => rfl
      | some y =>
        cases coef with
        | none => rfl
        | some d =>
          simp [addTerm, Invariants.addTermRes, Except.map, hT, flt, bc_f64]

theorem dyaSum_f64 (x y : Vec6 ℝ) :
    dyaSum (.f64 x) (.f64 y) = .f64 fun p => Invariants.dyaSum x y p.1 p.2 := by
  simp [dyaSum, dya_f64, Invariants.dyaSum]

theorem invHessian_eq {mt : InvMatT Z μ} {m : InvMat ℝ Z μ} {C : V6} {V : Vec6 ℝ}
    (h : InvAgree mt m C V) (z : Z) (s : μ) (t : InvSt ℝ μ) (ht : s = t.material) :
    (invHessian mt C z s).1 = (Invariants.hessian m V z t).1.map (fun c => NArr.f64 fun p => c p.1 p.2) ∧
    (invHessian mt C z s).2 = (Invariants.hessian m V z t).2.material := by
  subst ht
  rw [Invariants.hessian_run]
  unfold invHessian
  simp only [bind_run]
  rw [invGradientFull_eq h z]
  have h3 := h.d3
  rcases hr : m.gradient (Hel.trace V) ((Hel.trace V ^ 2 - Hel.ddot V V) / 2) (Hel.det V) z t.material with ⟨r, s'⟩
  cases r with
  | error e => exact ⟨rfl, rfl⟩
  | ok r =>
    replace h3 := h3.imp id fun k => k z _ r s' hr
    simp only [Except.map]
    have hh := h.hess r.sv s'
    have e1 : (outOf C V r).I1 = trace C := rfl
    have e2 : (outOf C V r).I2 = i2 C := rfl
    have e3 : (outOf C V r).I3 = det C := rfl
    have e4 : (outOf C V r).sv = r.sv := rfl
    rw [e1, e2, e3, e4, hh]
    rcases hr : m.hessian (Hel.trace V) ((Hel.trace V ^ 2 - Hel.ddot V V) / 2) (Hel.det V) r.sv s' with ⟨k, s''⟩
    cases k with
    | error e => exact ⟨rfl, rfl⟩
    | ok k =>
      simp only [Except.map, lift_run]
      have a2 : addH2 (.f64 fun _ => 0) (outOf C V r).r.d2 = .ok (.f64 fun p => r.d2.getD 0 *
          (Hel.dya Hel.eye Hel.eye p.1 p.2 - cdyaSelf Hel.eye p.1 p.2)) := by
        simp only [outOf, fltGrad]
        cases r.d2 with
        | none => simp [addH2]
        | some d => simp [addH2, eye_eq, cdya_true_f64, dya_f64, flt, bc_f64, bind, Except.bind]
      rw [a2]
      simp only
      have a3 : addH3 (.f64 fun p => r.d2.getD 0 *
          (Hel.dya Hel.eye Hel.eye p.1 p.2 - cdyaSelf Hel.eye p.1 p.2)) (det C) (outOf C V r).invC
          (outOf C V r).r.d3 s'' = (.ok (.f64 fun p => (fun a b => r.d2.getD 0 *
            (Hel.dya Hel.eye Hel.eye a b - cdyaSelf Hel.eye a b) +
            r.d3.getD 0 * (Hel.det V * (Hel.dya (Hel.inv V (some (Hel.det V))) (Hel.inv V (some (Hel.det V))) a b -
              cdyaSelf (Hel.inv V (some (Hel.det V))) a b))) p.1 p.2), s'') := by
        simp only [outOf, fltGrad]
        cases hd : r.d3 with
        | none => simp [addH3]
        | some d =>
          have hc : C = .f64 V := by simpa [hd] using h3
          subst hc
          simp [addH3, Invariants.loc, cdya_true_f64, dya_f64, flt, bc_f64, det_f64]
      rw [a3]
      simp only [Invariants.hessRes]
      simp only [outOf, fltHess]
      rw [addTerm_run (fun a b => r.d2.getD 0 *
            (Hel.dya Hel.eye Hel.eye a b - cdyaSelf Hel.eye a b) +
            r.d3.getD 0 * (Hel.det V * (Hel.dya (Hel.inv V (some (Hel.det V))) (Hel.inv V (some (Hel.det V))) a b -
              cdyaSelf (Hel.inv V (some (Hel.det V))) a b))) _ _ _ _ dya Hel.dya dya_f64]
      simp only [bind, Except.bind]
      generalize Invariants.addTermRes (K := ℝ) _ _ _ _ _ Hel.dya = q
      rcases q with e | c
      · exact ⟨rfl, rfl⟩
      simp only [Except.map]
      rw [addTerm_run c _ _ _ _ dya Hel.dya dya_f64]
      generalize Invariants.addTermRes (K := ℝ) _ _ _ _ _ Hel.dya = q
      rcases q with e | c
      · exact ⟨rfl, rfl⟩
      simp only [Except.map]
      rw [addTerm_run c _ _ _ _ dya Hel.dya dya_f64]
      generalize Invariants.addTermRes (K := ℝ) _ _ _ _ _ Hel.dya = q
      rcases q with e | c
      · exact ⟨rfl, rfl⟩
      simp only [Except.map]
      rw [addTerm_run c _ _ _ _ dyaSum Invariants.dyaSum dyaSum_f64]
      generalize Invariants.addTermRes (K := ℝ) _ _ _ _ _ Invariants.dyaSum = q
      rcases q with e | c
      · exact ⟨rfl, rfl⟩
      simp only [Except.map]
      rw [addTerm_run c _ _ _ _ dyaSum Invariants.dyaSum dyaSum_f64]
      generalize Invariants.addTermRes (K := ℝ) _ _ _ _ _ Invariants.dyaSum = q
      rcases q with e | c
      · exact ⟨rfl, rfl⟩
      simp only [Except.map]
      rw [addTerm_run c _ _ _ _ dyaSum Invariants.dyaSum dyaSum_f64]
      generalize Invariants.addTermRes (K := ℝ) _ _ _ _ _ Invariants.dyaSum = q
      rcases q with e | c <;> exact ⟨rfl, rfl⟩

theorem InvAgree.agree {mt : InvMatT Z μ} {m : InvMat ℝ Z μ} {C : V6} {V : Vec6 ℝ}
    (h : InvAgree mt m C V) :
    Agree (fun s t => s = t.material) (invMaterial mt) (Invariants.material m) C V where
  grad z := by
    intro s t ht
    subst ht
    simp only [invMaterial, Invariants.material, invGradient, bind_run]
    rw [invGradientFull_eq h z, Invariants.gradient_run]
    rcases m.gradient (Hel.trace V) ((Hel.trace V ^ 2 - Hel.ddot V V) / 2) (Hel.det V) z t.material with ⟨r, s'⟩
    cases r <;> exact ⟨rfl, rfl⟩
  hess z := fun s t ht => invHessian_eq h z s t ht

/-! ### `ThirdOrderDeformation` -/

theorem tod_agree (c10 c01 c11 c20 c30 : ℝ) (strain : Bool) (C : V6) (V : Vec6 ℝ) (hV : C.val = V)
    (tr : (trace C).val () = Hel.trace V)
    (h2 : (i2 C).val () = (Hel.trace V ^ 2 - Hel.ddot V V) / 2)
    (hs : ((trace C).subLit (if strain then 0 else 3)).val () = Hel.trace V - (if strain then 0 else 3))
    (hq : ((trace C).subLit (if strain then 0 else 3)).sq.val () =
      (Hel.trace V - (if strain then 0 else 3)) ^ 2) :
    InvAgree (todMat (Z := Z) (TOD.init c10 c01 c11 c20 c30 strain))
      (TOD.mat (TOD.init c10 c01 c11 c20 c30 strain)) C V where
  val := hV
  tr := tr
  grad z s := by
    have hu : (if (TOD.init c10 c01 c11 c20 c30 strain).undeformed = 0 then (0 : ℤ) else 3) =
        if strain then 0 else 3 := by cases strain <;> simp [TOD.init]
    have hi2 : i2 C = .f64 fun _ => (Hel.trace V ^ 2 - Hel.ddot V V) / 2 := by
      rw [← h2]; rfl
    have h2s : ((i2 C).subLit (if strain then 0 else 3)).val () =
        (Hel.trace V ^ 2 - Hel.ddot V V) / 2 - (if strain then 0 else 3) := by
      rw [hi2]; cases strain <;> simp
    simp only [todMat, TOD.mat, lift_run]
    congr 1
    unfold todGradient TOD.gradient
    simp only [hu]
    simp only [TOD.init, addTo, Hel.addTo, floatMul, h2s, hs, hq]
    by_cases a : c10 = 0 <;> by_cases b : c01 = 0 <;> by_cases c : c11 = 0 <;> by_cases d : c20 = 0 <;>
      by_cases e : c30 = 0 <;> simp [a, b, c, d, e, Except.map, fltGrad, flt, bind, Except.bind]
  hess z s := by
    have hu : (if (TOD.init c10 c01 c11 c20 c30 strain).undeformed = 0 then (0 : ℤ) else 3) =
        if strain then 0 else 3 := by cases strain <;> simp [TOD.init]
    simp only [todMat, TOD.mat, lift_run]
    congr 1
    unfold todHessian TOD.hessian
    simp only [hu]
    simp only [TOD.init, floatMul, hs]
    by_cases c : c11 = 0 <;> by_cases d : c20 = 0 <;>
      by_cases e : c30 = 0 <;> simp [c, d, e, Except.map, fltHess, flt]
  d3 := by
    right
    intro z s r s' h
    have h := congrArg Prod.fst h
    simp only [TOD.mat, lift_run] at h
    rw [TOD.gradient_eq] at h
    simp only [Except.ok.injEq] at h
    rw [← h]
    rfl

/-! ### floats -/

theorem tod_agree_f64 (c10 c01 c11 c20 c30 : ℝ) (strain : Bool) (V : Vec6 ℝ) :
    InvAgree (todMat (Z := Z) (TOD.init c10 c01 c11 c20 c30 strain))
      (TOD.mat (TOD.init c10 c01 c11 c20 c30 strain)) (.f64 V) V := by
  apply tod_agree _ _ _ _ _ _ _ _ rfl rfl
  · simp [i2, trace_f64, ddot_f64, NArr.divLit]
  · cases strain <;> simp [trace_f64]
  · cases strain <;> simp [trace_f64]

theorem float_agree (m : Material ℝ Z μ) (C : V6) : Agree Eq (floatMaterial m) m C C.val where
  grad z := by
    intro s t h
    subst h
    simp only [floatMaterial, bind_run]
    rcases m.gradient C.val z s with ⟨_ | r, s'⟩ <;> exact ⟨rfl, rfl⟩
  hess z := by
    intro s t h
    subst h
    simp only [floatMaterial, bind_run]
    rcases m.hessian C.val z s with ⟨_ | r, s'⟩ <;> exact ⟨rfl, rfl⟩

/-! ### integers without overflow -/

theorem wrap_of_fits {w : IntTy} {n : ℤ} (h : Fits w n) : wrap w n = n := wrap_fits h.1 h.2

theorem cgInt_eq (F : Fin 3 → Fin 3 → ℤ) : cgInt F = ![cauchyGreenInt F 0 0, cauchyGreenInt F 1 1,
    cauchyGreenInt F 2 2, cauchyGreenInt F 0 1, cauchyGreenInt F 1 2, cauchyGreenInt F 0 2] := by
  funext a
  fin_cases a <;> simp [cgInt, Hel.asvoigt, cauchyGreenInt, Fin.sum_univ_three]

theorem rcg_fits {w : IntTy} {F : Fin 3 → Fin 3 → ℤ} (h : ∀ I J, Fits w (cauchyGreenInt F I J)) :
    rightCauchyGreen (intArr w F) = .int w (cgInt F) := by
  unfold intArr
  rw [rcg_int]
  congr 1
  funext a
  rw [cgInt_eq]
  fin_cases a <;> exact wrap_of_fits (h _ _)

theorem rcg_val {w : IntTy} {F : Fin 3 → Fin 3 → ℤ} (h : ∀ I J, Fits w (cauchyGreenInt F I J)) :
    (rightCauchyGreen (intArr w F)).val = Hel.rightCauchyGreen (real F) := by
  rw [rcg_fits h]
  funext a
  exact cgInt_cast F a

theorem detInt_eq (F : Fin 3 → Fin 3 → ℤ) : Hel.det (cgInt F) = detInt F := by
  rw [cgInt_eq]
  simp [Hel.det, detInt, cauchyGreenInt]
  ring

theorem det_cast (v : Vec6 ℤ) : ((Hel.det v : ℤ) : ℝ) = Hel.det fun a => (v a : ℝ) := by
  simp [Hel.det]

theorem det_val {w : IntTy} {F : Fin 3 → Fin 3 → ℤ} (h : ∀ I J, Fits w (cauchyGreenInt F I J))
    (hd : Fits w (detInt F)) :
    (det (rightCauchyGreen (intArr w F))).val () = Hel.det (Hel.rightCauchyGreen (real F)) := by
  rw [rcg_fits h, det_int, detInt_eq, wrap_of_fits hd, ← detInt_eq]
  simp only [val_int]
  rw [det_cast]
  congr 1
  funext a
  exact cgInt_cast F a

theorem trace_fits {w : IntTy} {F : Fin 3 → Fin 3 → ℤ} (h : Fits .i64 (traceInt F)) :
    trace (.int w (cgInt F)) = .int .i64 fun _ => traceInt F := by
  simp only [trace, cgInt_eq]
  congr 1
  funext _
  exact wrap_of_fits h

theorem trace_cast (F : Fin 3 → Fin 3 → ℤ) : ((traceInt F : ℤ) : ℝ) = Hel.trace (Hel.rightCauchyGreen (real F)) := by
  simp only [Hel.trace]
  have := cgInt_cast F
  unfold real
  rw [← this, ← this, ← this, cgInt_eq]
  simp [traceInt]

theorem twoI2_eq (F : Fin 3 → Fin 3 → ℤ) : twoI2Int F =
    traceInt F ^ 2 - ∑ k : Fin 6, cgInt F k * cgInt F k * (![1, 1, 1, 2, 2, 2] : Fin 6 → ℤ) k := by
  rw [cgInt_eq]
  simp [twoI2Int, Fin.sum_univ_succ, cauchyGreenInt]
  ring

theorem i2_fits {w : IntTy} {F : Fin 3 → Fin 3 → ℤ} (h : Fits .i64 (traceInt F))
    (h2 : Fits .i64 (twoI2Int F)) :
    (i2 (.int w (cgInt F))).val () =
      (Hel.trace (Hel.rightCauchyGreen (real F)) ^ 2 -
        Hel.ddot (Hel.rightCauchyGreen (real F)) (Hel.rightCauchyGreen (real F))) / 2 := by
  have e : (trace (.int w (cgInt F))).sq - ddot (.int w (cgInt F)) (.int w (cgInt F)) =
      .int .i64 fun _ => twoI2Int F := by
    rw [trace_fits h]
    simp only [ddot, weights, reindex_int, einsum, common, NArr.sq, Option.map_some, join_i32, join_i64,
      int_sub, join_self, List.map_cons, List.map_nil, List.prod_cons, List.prod_nil, ints_int]
    congr 1
    funext _
    rw [← wrap_of_fits h2, twoI2_eq]
    apply wrap_of_cast
    push_cast [wrap_cast]
    simp [mul_assoc]
  unfold i2
  rw [e]
  simp only [NArr.divLit, val_int]
  rw [twoI2_eq, ← trace_cast]
  have := cgInt_cast F
  unfold real
  simp only [Hel.ddot, ← this]
  push_cast
  simp only [val_f64]
  congr 2
  apply Finset.sum_congr rfl
  intro k _
  congr 1
  fin_cases k <;> simp [Hel.weights]

theorem tod_agree_int (c10 c01 c11 c20 c30 : ℝ) (strain : Bool) {w : IntTy} {F : Fin 3 → Fin 3 → ℤ}
    (h : ∀ I J, Fits w (cauchyGreenInt F I J)) (hi : InvariantsFit strain F) :
    InvAgree (todMat (Z := Z) (TOD.init c10 c01 c11 c20 c30 strain))
      (TOD.mat (TOD.init c10 c01 c11 c20 c30 strain)) (rightCauchyGreen (intArr w F))
      (Hel.rightCauchyGreen (real F)) := by
  have e : ((traceInt F - (if strain then 0 else 3) : ℤ) : ℝ) =
      Hel.trace (Hel.rightCauchyGreen (real F)) - (if strain then 0 else 3) := by
    rw [← trace_cast]; cases strain <;> simp
  apply tod_agree
  · exact rcg_val h
  · rw [rcg_fits h, trace_fits hi.I1]
    exact trace_cast F
  · rw [rcg_fits h]; exact i2_fits hi.I1 hi.I2
  · rw [rcg_fits h, trace_fits hi.I1]
    simp only [NArr.subLit, wrap_of_fits hi.sub, val_int]
    exact e
  · rw [rcg_fits h, trace_fits hi.I1]
    simp only [NArr.subLit, NArr.sq, wrap_of_fits hi.sub, wrap_of_fits hi.sq, val_int]
    rw [Int.cast_pow, e]

theorem mul_bound {a b A B : ℤ} (ha : |a| ≤ A) (hb : |b| ≤ B) : |a * b| ≤ A * B := by
  rw [abs_mul]
  exact mul_le_mul ha hb (abs_nonneg _) ((abs_nonneg _).trans ha)

theorem cg_bound {F : Fin 3 → Fin 3 → ℤ} (h : ∀ i j, |F i j| ≤ 19) (I J : Fin 3) :
    |cauchyGreenInt F I J| ≤ 1083 := by
  have h0 := mul_bound (h 0 I) (h 0 J)
  have h1 := mul_bound (h 1 I) (h 1 J)
  have h2 := mul_bound (h 2 I) (h 2 J)
  rw [abs_le] at *
  unfold cauchyGreenInt
  constructor <;> omega

theorem det_bound {F : Fin 3 → Fin 3 → ℤ} (h : ∀ i j, |F i j| ≤ 19) : |detInt F| ≤ 1693651716 := by
  have key : |F 0 0 * (F 1 1 * F 2 2 - F 1 2 * F 2 1) - F 0 1 * (F 1 0 * F 2 2 - F 1 2 * F 2 0)
    + F 0 2 * (F 1 0 * F 2 1 - F 1 1 * F 2 0)| ≤ 41154 := by
    have m : ∀ i j k l m n, |F i j * (F k l * F m n)| ≤ 6859 := fun i j k l m n =>
      (mul_bound (h i j) (mul_bound (h k l) (h m n))).trans (by norm_num)
    have m1 := m 0 0 1 1 2 2
    have m2 := m 0 0 1 2 2 1
    have m3 := m 0 1 1 0 2 2
    have m4 := m 0 1 1 2 2 0
    have m5 := m 0 2 1 0 2 1
    have m6 := m 0 2 1 1 2 0
    simp only [mul_sub]
    rw [abs_le] at *
    constructor <;> omega
  unfold detInt
  rw [pow_two]
  exact (mul_bound key key).trans (by norm_num)

/-- Entries up to 19 fit all the bounds. -/
theorem small_fits {F : Fin 3 → Fin 3 → ℤ} (h : ∀ i j, |F i j| ≤ 19) (w : IntTy) (cfg : SpaceCfg)
    (strain : Bool) : KinematicsFit w cfg F ∧ InvariantsFit strain F := by
  have c := cg_bound h
  have d := det_bound h
  have fit : ∀ (w : IntTy) (n : ℤ), |n| ≤ 2 * 10 ^ 9 → Fits w n := by
    intro w n hn
    rw [abs_le] at hn
    cases w <;> constructor <;> simp [IntTy.bits] <;> omega
  have t : |traceInt F| ≤ 3249 := by
    have c0 := c 0 0
    have c1 := c 1 1
    have c2 := c 2 2
    rw [abs_le] at *
    unfold traceInt
    constructor <;> omega
  have t3 : |traceInt F - if strain then 0 else 3| ≤ 3252 := by
    rw [abs_le] at *
    cases strain <;> simp <;> omega
  refine ⟨⟨fun I J => fit _ _ ((c I J).trans (by norm_num)), fun _ _ => fit _ _ (d.trans (by norm_num))⟩,
    ⟨fit _ _ (t.trans (by norm_num)), fit _ _ ?_, fit _ _ (t3.trans (by norm_num)), fit _ _ ?_⟩⟩
  · have q := mul_bound t t
    have cc : ∀ I J, |cauchyGreenInt F I J * cauchyGreenInt F I J| ≤ 1083 * 1083 :=
      fun I J => mul_bound (c I J) (c I J)
    have c00 := cc 0 0
    have c01 := cc 0 1
    have c02 := cc 0 2
    have c10 := cc 1 0
    have c11 := cc 1 1
    have c12 := cc 1 2
    have c20 := cc 2 0
    have c21 := cc 2 1
    have c22 := cc 2 2
    simp only [twoI2Int, Fin.sum_univ_three, pow_two]
    simp only [abs_le] at *
    constructor <;> omega
  · rw [pow_two]
    exact (mul_bound t3 t3).trans (by norm_num)

end Hel.Dt
