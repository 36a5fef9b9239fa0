import Verif.Props.NonFinite

/-!
# C90: an overflow of the determinant, and examples
-/

namespace Props
open Hel Rnd Spec Matrix Proofs.NonFin

/-- Numbers up to `Ω` are not rounded, larger ones overflow. -/
noncomputable def overflow (Ω x : ℝ) : Num := if |x| ≤ Ω then .fin x else if 0 < x then .inf else .ninf

/-- The real number, if it is finite. -/
def toReal : Num → ℝ
  | .fin x => x
  | _ => 0

open Classical in
/-- A format without rounding errors and with the largest number `Ω`. -/
noncomputable def bounded (Ω : ℝ) : Format :=
  { formatOf (overflow Ω) with
    einsum := fun ts => if ∀ t ∈ ts, ∀ x ∈ t, Num.IsFinite x then
      overflow Ω (ts.map fun t => (t.map toReal).prod).sum else .nan
    einsum_nonfinite := fun ts t ht x hx h => by
      rw [if_neg fun h' => h (h' t ht x hx)]; simp [Num.IsFinite] }

theorem overflow_le {Ω x : ℝ} (h : |x| ≤ Ω) : overflow Ω x = .fin x := if_pos h

theorem overflow_gt {Ω x : ℝ} (h0 : 0 < x) (h : Ω < x) : overflow Ω x = .inf := by
  unfold overflow
  rw [if_neg (by rw [abs_of_pos h0]; exact not_le.2 h), if_pos h0]

/-- A finite number of the format. -/
def num (Ω x : ℝ) : Flt (bounded Ω) := ⟨.fin x⟩

section
variable {Ω x y z : ℝ}

theorem num_mul (h : |x * y| ≤ Ω) : num Ω x * num Ω y = num Ω (x * y) := by
  show (⟨overflow Ω (x * y)⟩ : Flt (bounded Ω)) = _
  rw [overflow_le h]; rfl

theorem num_add (h : |x + y| ≤ Ω) : num Ω x + num Ω y = num Ω (x + y) := by
  show (⟨overflow Ω (x + y)⟩ : Flt (bounded Ω)) = _
  rw [overflow_le h]; rfl

theorem num_sub (h : |x - y| ≤ Ω) : num Ω x - num Ω y = num Ω (x - y) := by
  show (⟨overflow Ω (x + -y)⟩ : Flt (bounded Ω)) = _
  rw [overflow_le (by rwa [← sub_eq_add_neg]), ← sub_eq_add_neg]; rfl

theorem num_einsum (ts : List (List ℝ)) (h : |(ts.map List.prod).sum| ≤ Ω) :
    Rnd.einsum (ts.map fun t => t.map (num Ω)) = num Ω (ts.map List.prod).sum := by
  have e : (bounded Ω).einsum ((ts.map fun t => t.map (num Ω)).map fun t => t.map Flt.num) =
      overflow Ω (ts.map List.prod).sum := by
    have h1 : ∀ t ∈ (ts.map fun t => t.map (num Ω)).map fun t => t.map Flt.num, ∀ x ∈ t, Num.IsFinite x := by
      intro t ht x hx
      simp only [List.map_map, List.mem_map, Function.comp] at ht
      obtain ⟨t', _, rfl⟩ := ht
      simp only [List.mem_map] at hx
      obtain ⟨r, ⟨_, rfl⟩⟩ := hx
      trivial
    refine (if_pos h1).trans ?_
    congr 2
    simp only [List.map_map]
    refine List.map_congr_left fun t _ => ?_
    simp only [Function.comp, List.map_map]
    congr 1
    conv_rhs => rw [← List.map_id t]
    rfl
  show (⟨_⟩ : Flt (bounded Ω)) = _
  rw [e, overflow_le h]; rfl

end

/-- A diagonal deformation gradient of numbers of the format. -/
def diagF (Ω : ℝ) (d : Fin 3 → ℝ) : Full2 (Flt (bounded Ω)) := fun i j => num Ω (if i = j then d i else 0)

/-- A diagonal deformation gradient of real numbers. -/
def realF (d : Fin 3 → ℝ) : Full2 ℝ := fun i j => if i = j then d i else 0

/-- `NeoHooke`: `dW/dC = 1` (the hessian is zero). -/
noncomputable def neo (f : Format) : FMaterial (Flt f) where
  gradient _ := Rnd.eye
  hessian _ _ _ := lit 0

theorem cg_diag {Ω : ℝ} {d : Fin 3 → ℝ} (h : ∀ i, d i ^ 2 ≤ Ω) :
    Rnd.cauchyGreen (diagF Ω d) = fun a => num Ω (![d 0 ^ 2, d 1 ^ 2, d 2 ^ 2, 0, 0, 0] a) := by
  have h0 : 0 ≤ Ω := le_trans (sq_nonneg _) (h 0)
  have e : ∀ I J, (sum3 fun k => [diagF Ω d k I, diagF Ω d k J]) =
      num Ω (∑ k, (if k = I then d k else 0) * (if k = J then d k else 0)) := by
    intro I J
    have := num_einsum (Ω := Ω) [[if 0 = I then d 0 else 0, if 0 = J then d 0 else 0],
      [if 1 = I then d 1 else 0, if 1 = J then d 1 else 0], [if 2 = I then d 2 else 0, if 2 = J then d 2 else 0]] (by
        have := h 0
        have := h 1
        have := h 2
        fin_cases I <;> fin_cases J <;> simp [abs_of_nonneg, mul_self_nonneg, ← pow_two, *])
    simp only [List.map_cons, List.map_nil] at this
    refine this.trans ?_
    congr 1
    simp only [List.prod_cons, List.prod_nil, List.sum_cons, List.sum_nil, Fin.sum_univ_three]
    ring
  funext a
  simp only [Rnd.cauchyGreen, asvoigt, e]
  congr 1
  fin_cases a <;> simp [Fin.sum_univ_three, pow_two]

/-- If the determinant overflows, the stress of the distortional space is zero: a finite and wrong result.  `Ω` may be the
largest number of any format: for `float16` one has `a = 10`, for `float64` `a = 10 ^ 60`. -/
theorem C90_overflow_false (a Ω : ℝ) (ha : 1 < a) (h1 : 4 * a ^ 4 ≤ Ω) (h2 : Ω < 4 * a ^ 6) :
    (∃ P, DistortionalF.gradient {} (neo (bounded Ω)) (diagF Ω ![2 * a, a, a]) = .full P ∧ ∀ i j, P i j = num Ω 0) ∧
    (∃ P, DistortionalF.gradient {} (⟨fun _ => Rnd.eye, fun _ _ _ => 0⟩ : FMaterial ℝ) (realF ![2 * a, a, a]) = .full P ∧
      P 0 0 ≠ 0) := by
  have a2 : a ^ 2 ≤ a ^ 4 := pow_le_pow_right₀ ha.le (by norm_num)
  have a4 : 1 < a ^ 4 := one_lt_pow₀ ha (by norm_num)
  have hΩ : 4 ≤ Ω := by linarith
  have ap : 0 < a := by linarith
  have a2p : 0 < a ^ 2 := by positivity
  have a4p : 0 < a ^ 4 := by positivity
  constructor
  · have eC : Rnd.cauchyGreen (diagF Ω ![2 * a, a, a]) = fun b => num Ω (![4 * a ^ 2, a ^ 2, a ^ 2, 0, 0, 0] b) := by
      rw [cg_diag]
      · funext b; congr 1; fin_cases b <;> simp <;> ring
      · intro i; fin_cases i <;> simp <;> nlinarith
    have hlit : ∀ x, (lit x : Flt (bounded Ω)) = num Ω x := fun _ => rfl
    have eI : DistortionalF.I3 (diagF Ω ![2 * a, a, a]) = ⟨.inf⟩ := by
      simp only [DistortionalF.I3, eC, Rnd.det]
      have e1 : num Ω (4 * a ^ 2) * num Ω (a ^ 2) = num Ω (4 * a ^ 4) := by
        rw [num_mul]; · congr 1; ring
        rw [abs_of_nonneg (by positivity)]; nlinarith
      have e2 : num Ω (4 * a ^ 4) * num Ω (a ^ 2) = ⟨.inf⟩ := by
        show (⟨overflow Ω (4 * a ^ 4 * a ^ 2)⟩ : Flt (bounded Ω)) = _
        rw [overflow_gt (by positivity) (by nlinarith)]
      have e3 : ∀ x : ℝ, (⟨.inf⟩ : Flt (bounded Ω)) + num Ω x = ⟨.inf⟩ := fun _ => rfl
      have e4 : ∀ x : ℝ, (⟨.inf⟩ : Flt (bounded Ω)) - num Ω x = ⟨.inf⟩ := fun _ => rfl
      have e5 : ∀ x : ℝ, num Ω x * num Ω 0 = num Ω 0 := fun x => by
        rw [num_mul] <;> simp; linarith
      have e6 : ∀ x : ℝ, num Ω 0 * num Ω x = num Ω 0 := fun x => by
        rw [num_mul] <;> simp; linarith
      have e7 : sq (num Ω 0) = num Ω 0 := e5 0
      show num Ω (4 * a ^ 2) * num Ω (a ^ 2) * num Ω (a ^ 2) + lit 2 * num Ω 0 * num Ω 0 * num Ω 0 -
        sq (num Ω 0) * num Ω (4 * a ^ 2) - sq (num Ω 0) * num Ω (a ^ 2) - sq (num Ω 0) * num Ω (a ^ 2) = _
      simp only [e1, e2, hlit, e7, e5, e6, e3, e4]
    have h0 : (0 : ℝ) ≤ Ω := by linarith
    have m0 : ∀ x : ℝ, num Ω x * num Ω 0 = num Ω 0 := fun x => by
      rw [num_mul] <;> simp; linarith
    have z0 : ∀ x : ℝ, num Ω 0 * num Ω x = num Ω 0 := fun x => by
      rw [num_mul] <;> simp; linarith
    have ht : powThird (-1) (⟨.inf⟩ : Flt (bounded Ω)) = num Ω 0 := by
      show (⟨powThirdOf (overflow Ω) (-1) .inf⟩ : Flt (bounded Ω)) = _
      simp [powThirdOf, num]
    have heye : ∀ b, (Rnd.eye b : Flt (bounded Ω)) = num Ω (![1, 1, 1, 0, 0, 0] b) := by
      intro b; fin_cases b <;> rfl
    have hSb : DistortionalF.Sb (neo (bounded Ω)) (diagF Ω ![2 * a, a, a]) = fun _ => num Ω 0 := by
      funext b
      simp only [DistortionalF.Sb, eI, ht, hlit, m0, neo, heye, z0]
    have hSbC : DistortionalF.SbC (neo (bounded Ω)) (diagF Ω ![2 * a, a, a]) = num Ω 0 := by
      have := num_einsum (Ω := Ω) [[0, 4 * a ^ 2, 1], [0, a ^ 2, 1], [0, a ^ 2, 1], [0, 0, 2], [0, 0, 2], [0, 0, 2]] (by simpa using h0)
      simp only [DistortionalF.SbC, hSb, eC]
      refine Eq.trans (this : _ = _) ?_
      simp
    have hinv : DistortionalF.invC (diagF Ω ![2 * a, a, a]) = fun _ => num Ω 0 := by
      have hd : ∀ x : ℝ, FloatOps.div (num Ω x) ⟨.inf⟩ = num Ω 0 := fun _ => rfl
      have hs : ∀ x y : ℝ, 0 ≤ x * y → x * y ≤ 4 * a ^ 4 → num Ω x * num Ω y - num Ω 0 = num Ω (x * y) := by
        intro x y h3 h4
        have h5 : |x * y| ≤ Ω := by rw [abs_of_nonneg h3]; linarith
        rw [num_mul h5, num_sub (by simpa using h5), sub_zero]
      funext b
      simp only [DistortionalF.invC, eI, eC, Rnd.inv]
      fin_cases b
      · show FloatOps.div (num Ω (a ^ 2) * num Ω (a ^ 2) - num Ω 0 * num Ω 0) _ = _
        rw [z0, hs _ _ (by positivity) (by nlinarith), hd]
      · show FloatOps.div (num Ω (4 * a ^ 2) * num Ω (a ^ 2) - num Ω 0 * num Ω 0) _ = _
        rw [z0, hs _ _ (by positivity) (by nlinarith), hd]
      · show FloatOps.div (num Ω (4 * a ^ 2) * num Ω (a ^ 2) - num Ω 0 * num Ω 0) _ = _
        rw [z0, hs _ _ (by positivity) (by nlinarith), hd]
      · show FloatOps.div (num Ω 0 * num Ω 0 - num Ω 0 * num Ω (a ^ 2)) _ = _
        rw [z0 (a ^ 2), hs _ _ (by simp) (by simp; positivity), hd]
      · show FloatOps.div (num Ω 0 * num Ω 0 - num Ω (4 * a ^ 2) * num Ω 0) _ = _
        rw [m0 (4 * a ^ 2), hs _ _ (by simp) (by simp; positivity), hd]
      · show FloatOps.div (num Ω 0 * num Ω 0 - num Ω (a ^ 2) * num Ω 0) _ = _
        rw [m0 (a ^ 2), hs _ _ (by simp) (by simp; positivity), hd]
    have hS : DistortionalF.S (neo (bounded Ω)) (diagF Ω ![2 * a, a, a]) = fun _ => num Ω 0 := by
      funext b
      simp only [DistortionalF.S, hSb, hSbC, hinv]
      have e3 : divNat (num Ω 0) 3 = num Ω 0 := by
        show (⟨Num.div (overflow Ω) (.fin 0) (.fin _)⟩ : Flt (bounded Ω)) = _
        simp [Num.div, num, overflow, h0]
      rw [e3, z0, num_sub (by simpa using h0), sub_zero]
    refine ⟨_, rfl, fun i j => ?_⟩
    rw [hS]
    have := num_einsum (Ω := Ω) [[if i = 0 then (![2 * a, a, a] : Fin 3 → ℝ) i else 0, 0], [if i = 1 then (![2 * a, a, a] : Fin 3 → ℝ) i else 0, 0],
      [if i = 2 then (![2 * a, a, a] : Fin 3 → ℝ) i else 0, 0]] (by simpa using h0)
    refine Eq.trans (this : _ = _) ?_
    simp
  · refine ⟨_, rfl, ?_⟩
    have hS : DistortionalF.S (⟨fun _ => Rnd.eye, fun _ _ _ => 0⟩ : FMaterial ℝ) (realF ![2 * a, a, a]) 0 =
        (4 * a ^ 6) ^ (-1 / 3 : ℝ) := by
      have eC : rightCauchyGreen (realF ![2 * a, a, a]) = ![4 * a ^ 2, a ^ 2, a ^ 2, 0, 0, 0] := by
        funext b
        fin_cases b <;> simp [rightCauchyGreen, asvoigt, Fin.sum_univ_three, realF] <;> ring
      have ed : Hel.det (![4 * a ^ 2, a ^ 2, a ^ 2, 0, 0, 0] : Vec6 ℝ) = 4 * a ^ 6 := by
        simp [Hel.det]; ring
      rw [dist_st_real]
      have eS : Distortional.sb (realF ![2 * a, a, a]) Hel.eye = fun b => 2 * (4 * a ^ 6) ^ (-1 / 3 : ℝ) * Hel.eye b := by
        funext b; simp only [Distortional.sb, eC, ed]
      simp only [Distortional.st, Distortional.ic, eye_exact, eS, eC, ed, ← inv_exact]
      generalize (4 * a ^ 6) ^ (-1 / 3 : ℝ) = t
      simp [Hel.ddot, Rnd.inv, Hel.eye, Hel.weights, Fin.sum_univ_six]
      field_simp
      ring
    show sum3 (fun I => [realF ![2 * a, a, a] 0 I, astensor _ I 0]) ≠ 0
    rw [sum3_exact]
    have : astensor (DistortionalF.S (⟨fun _ => Rnd.eye, fun _ _ _ => 0⟩ : FMaterial ℝ) (realF ![2 * a, a, a])) 0 0 =
        (4 * a ^ 6) ^ (-1 / 3 : ℝ) := hS
    simp [Fin.sum_univ_three, this, realF]
    exact ⟨ap.ne', (Real.rpow_pos_of_pos (by positivity) _).ne'⟩

/-! ## exact arithmetic -/

open Classical in
/-- The format without rounding errors and without overflow. -/
noncomputable def unbounded : Format :=
  { formatOf Num.fin with
    einsum := fun ts => if ∀ t ∈ ts, ∀ x ∈ t, Num.IsFinite x then
      .fin (ts.map fun t => (t.map toReal).prod).sum else .nan
    einsum_nonfinite := fun ts t ht x hx h => by
      rw [if_neg fun h' => h (h' t ht x hx)]; simp [Num.IsFinite] }

/-- A finite number. -/
def real (x : ℝ) : Flt unbounded := ⟨.fin x⟩

theorem real_mul (x y : ℝ) : real x * real y = real (x * y) := rfl
theorem real_add (x y : ℝ) : real x + real y = real (x + y) := rfl
theorem real_sub (x y : ℝ) : real x - real y = real (x - y) := by
  rw [sub_eq_add_neg]; rfl
theorem real_sq (x : ℝ) : Rnd.sq (real x) = real (Rnd.sq x) := by
  show real (x * x) = real (x ^ 2)
  rw [pow_two]
theorem real_lit (x : ℝ) : (lit x : Flt unbounded) = real (lit x) := rfl
theorem real_div {x y : ℝ} (h : y ≠ 0) : FloatOps.div (real x) (real y) = real (FloatOps.div x y) := by
  show (⟨Num.div _ (.fin x) (.fin y)⟩ : Flt unbounded) = _
  simp only [Num.div, if_neg h]; rfl
theorem real_divNat (x : ℝ) (n : ℕ+) : divNat (real x) n = real (divNat x n) := by
  have : ((n : ℕ) : ℝ) ≠ 0 := by exact_mod_cast n.ne_zero
  exact real_div this
theorem real_sqrt {x : ℝ} (h : 0 < x) : FloatOps.sqrt (real x) = real (FloatOps.sqrt x) := by
  show (⟨Num.sqrt _ (.fin x)⟩ : Flt unbounded) = _
  simp only [Num.sqrt, if_neg (not_lt.2 h.le), if_neg h.ne']; rfl
theorem real_pow {x : ℝ} (h : 0 < x) (n : ℤ) : powThird n (real x) = real (powThird n x) := by
  show (⟨powThirdOf _ n (.fin x)⟩ : Flt unbounded) = _
  simp only [powThirdOf, if_neg (not_lt.2 h.le), if_neg h.ne']; rfl

theorem real_einsum (ts : List (List ℝ)) : Rnd.einsum (ts.map fun t => t.map real) = real (Rnd.einsum ts) := by
  have e : unbounded.einsum ((ts.map fun t => t.map real).map fun t => t.map Flt.num) =
      .fin (ts.map List.prod).sum := by
    have h1 : ∀ t ∈ (ts.map fun t => t.map real).map fun t => t.map Flt.num, ∀ x ∈ t, Num.IsFinite x := by
      intro t ht x hx
      simp only [List.map_map, List.mem_map, Function.comp] at ht
      obtain ⟨t', _, rfl⟩ := ht
      simp only [List.mem_map] at hx
      obtain ⟨r, ⟨_, rfl⟩⟩ := hx
      trivial
    refine (if_pos h1).trans ?_
    congr 2
    simp only [List.map_map]
    refine List.map_congr_left fun t _ => ?_
    simp only [Function.comp, List.map_map]
    congr 1
    conv_rhs => rw [← List.map_id t]
    rfl
  show (⟨_⟩ : Flt unbounded) = _
  rw [e]; rfl

theorem real_sum3 (t : Fin 3 → List ℝ) : (sum3 fun k => (t k).map real) = real (sum3 t) := real_einsum [t 0, t 1, t 2]
theorem real_sum6 (t : Fin 6 → List ℝ) : (sum6 fun k => (t k).map real) = real (sum6 t) :=
  real_einsum [t 0, t 1, t 2, t 3, t 4, t 5]
theorem real_sum33 (t : Fin 3 → Fin 3 → List ℝ) : (sum33 fun k l => (t k l).map real) = real (sum33 t) :=
  real_einsum [t 0 0, t 0 1, t 0 2, t 1 0, t 1 1, t 1 2, t 2 0, t 2 1, t 2 2]

/-- The array of finite numbers. -/
def real6 (A : Vec6 ℝ) : Vec6 (Flt unbounded) := fun a => real (A a)
/-- The array of finite numbers. -/
def real66 (A : Mat6 ℝ) : Mat6 (Flt unbounded) := fun a b => real (A a b)
/-- The array of finite numbers. -/
def real33 (A : Full2 ℝ) : Full2 (Flt unbounded) := fun a b => real (A a b)
/-- The array of finite numbers. -/
def real3333 (A : Full4 ℝ) : Full4 (Flt unbounded) := fun a b c d => real (A a b c d)

theorem real_cg (F : Full2 ℝ) : Rnd.cauchyGreen (real33 F) = real6 (Rnd.cauchyGreen F) := by
  funext a; exact real_sum3 fun k => [F k _, F k _]

theorem real_det (C : Vec6 ℝ) : Rnd.det (real6 C) = real (Rnd.det C) := by
  simp only [Rnd.det, real6, real_mul, real_add, real_sub, real_sq, real_lit]

theorem real_trace (C : Vec6 ℝ) : Rnd.trace (real6 C) = real (Rnd.trace C) := real_einsum [[C 0], [C 1], [C 2]]

theorem real_eye : (Rnd.eye : Vec6 (Flt unbounded)) = real6 Rnd.eye := by
  funext a; fin_cases a <;> rfl

theorem real_weights : (Rnd.weights : Vec6 (Flt unbounded)) = real6 Rnd.weights := by
  funext a; fin_cases a <;> rfl

theorem real_ddot (A B : Vec6 ℝ) : Rnd.ddot (real6 A) (real6 B) = real (Rnd.ddot A B) := by
  unfold Rnd.ddot; rw [real_weights]; exact real_sum6 fun i => [A i, B i, Rnd.weights i]

theorem real_ddot44 (A B : Mat6 ℝ) : Rnd.ddot44 (real66 A) (real66 B) = real66 (Rnd.ddot44 A B) := by
  funext i j; unfold Rnd.ddot44; rw [real_weights]; exact real_sum6 fun k => [A i k, B k j, Rnd.weights k]

theorem real_ddot24 (A : Vec6 ℝ) (B : Mat6 ℝ) : Rnd.ddot24 (real6 A) (real66 B) = real6 (Rnd.ddot24 A B) := by
  funext j; unfold Rnd.ddot24; rw [real_weights]; exact real_sum6 fun i => [A i, B i j, Rnd.weights i]

theorem real_inv {d : ℝ} (h : d ≠ 0) (C : Vec6 ℝ) : Rnd.inv (fun x => FloatOps.div x (real d)) (real6 C) =
    real6 (Rnd.inv (fun x => FloatOps.div x d) C) := by
  funext a; simp only [Rnd.inv, real6, real_mul, real_sub, real_div h]

theorem real_cdyaSelf (A : Vec6 ℝ) : Rnd.cdyaSelf (real6 A) = real66 (Rnd.cdyaSelf A) := by
  funext a b; simp only [Rnd.cdyaSelf, Rnd.cdyaSelfEntry, real6, real66, real_mul, real_add, real_divNat]

theorem real_dya (A B : Vec6 ℝ) : Rnd.dya (real6 A) (real6 B) = real66 (Rnd.dya A B) := rfl

/-- The result as an array of finite numbers. -/
def realStress : FStress ℝ → FStress (Flt unbounded)
  | .voigt s => .voigt (real6 s)
  | .full p => .full (real33 p)

/-- The result as an array of finite numbers. -/
def realElasticity : FElasticity ℝ → FElasticity (Flt unbounded)
  | .voigt s => .voigt (real66 s)
  | .full p => .full (real3333 p)

theorem real_stress (cfg : SpaceCfg) (F : Full2 ℝ) (S : Vec6 ℝ) {d : ℝ} (hd : d ≠ 0) :
    spaceStress cfg (real33 F) (real6 S) (some (real d)) = realStress (spaceStress cfg F S (some d)) := by
  rcases cfg with ⟨fin, force, area⟩
  have h1 : (fun i J => sum3 fun I => [real33 F i I, astensor (real6 S) I J]) =
      real33 fun i J => sum3 fun I => [F i I, astensor S I J] := by
    funext i J; exact real_sum3 fun I => [F i I, astensor S I J]
  have h2 : ∀ X : Full2 ℝ, (fun i j => FloatOps.div (sum3 fun J => [real33 F j J, real33 X i J]) (real d)) =
      real33 fun i j => FloatOps.div (sum3 fun J => [F j J, X i J]) d := by
    intro X; funext i j
    have := real_sum3 fun J => [F j J, X i J]
    exact (congrArg (fun y => FloatOps.div y (real d)) this).trans (real_div hd)
  cases fin
  · rfl
  · cases force <;> cases area <;> simp only [spaceStress, realStress, if_true]
    · have h3 : ∀ i J, _ = _ := fun i J => congrFun (congrFun h1 i) J
      simp only [h3]
      exact congrArg FStress.full (h2 _)
    · rw [h1]
    · exact congrArg FStress.full (h2 (astensor S))
    · rfl

theorem real_elasticity (cfg : SpaceCfg) (F : Full2 ℝ) (S : Vec6 ℝ) {d : ℝ} (hd : d ≠ 0) (C4 : Mat6 ℝ) (v : Vec6 ℝ) :
    spaceElasticity cfg (real33 F) (real6 S) (some (real d)) (real66 C4) (some (real6 v)) =
      realElasticity (spaceElasticity cfg F S (some d) C4 (some v)) := by
  rcases cfg with ⟨fin, force, area⟩
  have h1 : (fun i J k L => (sum33 fun I K => [real33 F i I, real33 F k K, astensor4 (real66 C4) I J K L]) +
        Rnd.cdya_ik Rnd.eye (real6 S) i J k L) =
      real3333 fun i J k L => (sum33 fun I K => [F i I, F k K, astensor4 C4 I J K L]) + Rnd.cdya_ik Rnd.eye S i J k L := by
    funext i J k L
    have := real_sum33 fun I K => [F i I, F k K, astensor4 C4 I J K L]
    rw [real_eye]
    exact congrArg (· + real (Rnd.cdya_ik Rnd.eye S i J k L)) this
  have h2 : ∀ X : Full4 ℝ, (fun i j k l => FloatOps.div (sum33 fun J L => [real33 F j J, real33 F l L, real3333 X i J k L]) (real d)) =
      real3333 fun i j k l => FloatOps.div (sum33 fun J L => [F j J, F l L, X i J k L]) d := by
    intro X; funext i j k l
    have := real_sum33 fun J L => [F j J, F l L, X i J k L]
    exact (congrArg (fun y => FloatOps.div y (real d)) this).trans (real_div hd)
  cases fin
  · rfl
  · cases force <;> cases area <;> simp only [spaceElasticity, realElasticity, if_true]
    · have h3 : ∀ i J k L, _ = _ := fun i J k L => congrFun (congrFun (congrFun (congrFun h1 i) J) k) L
      simp only [h3]
      exact congrArg FElasticity.full (h2 _)
    · rw [h1]
    · exact congrArg FElasticity.full (h2 fun i J k L => astensor4 C4 i J k L + Rnd.cdya_ik v S i J k L)
    · rfl

theorem real_I3 (F : Full2 ℝ) : Rnd.det (Rnd.cauchyGreen (real33 F)) = real (Rnd.det (Rnd.cauchyGreen F)) := by
  rw [real_cg, real_det]

theorem det_sq (F : Full2 ℝ) : Rnd.det (Rnd.cauchyGreen F) = Matrix.det (Matrix.of F) ^ 2 := by
  have h : Hel.det (rightCauchyGreen F) = Matrix.det (Spec.cauchyGreen (Matrix.of F)) := by
    rw [← T2_rcg]; exact T2_det _
  rw [rcg_real, det_exact, h, Spec.cauchyGreen, det_mul, det_transpose, pow_two]

/-- The material acts on finite numbers like the material `m` of the real numbers. -/
structure Extends (mat : FMaterial (Flt unbounded)) (m : FMaterial ℝ) : Prop where
  gradient : ∀ C, mat.gradient (real6 C) = real6 (m.gradient C)
  hessian : ∀ C, mat.hessian (real6 C) = real66 (m.hessian C)

/-- Without rounding and overflow the distortional and the dilatational space return the exact, finite, results for every
finite deformation gradient with a determinant other than zero (the statements about `inf` and `nan` are sharp). -/
theorem C90_exact (cfg : SpaceCfg) (mat : FMaterial (Flt unbounded)) (m : FMaterial ℝ) (hm : Extends mat m)
    (keep : Mat6 (Flt unbounded) → Bool) (F : Full2 ℝ) (hF : Matrix.det (Matrix.of F) ≠ 0) :
    DistortionalF.gradient cfg mat (real33 F) = realStress (DistortionalF.gradient cfg m F) ∧
    DistortionalF.hessian cfg mat (real33 F) keep = realElasticity (DistortionalF.hessian cfg m F fun X => keep (real66 X)) ∧
    DilatationalF.gradient cfg mat (real33 F) = realStress (DilatationalF.gradient cfg m F) ∧
    DilatationalF.hessian cfg mat (real33 F) = realElasticity (DilatationalF.hessian cfg m F) := by
  have hI := det_sq F
  have hp : 0 < Rnd.det (Rnd.cauchyGreen F) := by rw [hI]; positivity
  have hs : FloatOps.sqrt (Rnd.det (Rnd.cauchyGreen F)) ≠ 0 := (Real.sqrt_pos.2 hp).ne'
  -- the distortional space
  have e1 : DistortionalF.Cu (real33 F) = real6 (DistortionalF.Cu F) := by
    funext a
    simp only [DistortionalF.Cu, DistortionalF.I3, real_cg, real_det, real_pow hp, real6, real_mul]
  have e2 : DistortionalF.Sb mat (real33 F) = real6 (DistortionalF.Sb m F) := by
    funext a
    simp only [DistortionalF.Sb, DistortionalF.I3, real_I3, e1, hm.gradient, real_pow hp, real6, real_mul, real_lit]
  have e3 : DistortionalF.SbC mat (real33 F) = real (DistortionalF.SbC m F) := by
    simp only [DistortionalF.SbC, e2, real_cg, real_ddot]
  have e4 : DistortionalF.invC (real33 F) = real6 (DistortionalF.invC F) := by
    simp only [DistortionalF.invC, DistortionalF.I3, real_cg, real_det, real_inv hp.ne']
  have e5 : DistortionalF.S mat (real33 F) = real6 (DistortionalF.S m F) := by
    funext a
    simp only [DistortionalF.S, e2, e3, e4, real6, real_divNat, real_mul, real_sub]
  have e6 : DistortionalF.C4b mat (real33 F) = real66 (DistortionalF.C4b m F) := by
    funext a b
    simp only [DistortionalF.C4b, DistortionalF.I3, real_I3, e1, hm.hessian, real_pow hp, real66, real_mul, real_lit]
  have e7 : DistortionalF.P4 (real33 F) = real66 (DistortionalF.P4 F) := by
    funext a b
    simp only [DistortionalF.P4, e4, real_cg, real_eye, real_cdyaSelf, real_dya, real66, real_divNat, real_sub]
  have e8 : DistortionalF.geo mat (real33 F) = real66 (DistortionalF.geo m F) := by
    funext a b
    simp only [DistortionalF.geo, e2, e3, e4, real_cdyaSelf, real_dya, real66, real_lit, real_divNat, real_mul, real_sub, real_add]
  have e9 : DistortionalF.C4 mat (real33 F) keep = real66 (DistortionalF.C4 m F fun X => keep (real66 X)) := by
    have e7' : (fun c d => DistortionalF.P4 (real33 F) d c) = real66 fun c d => DistortionalF.P4 F d c := by
      funext c d; rw [e7]; rfl
    funext a b
    simp only [DistortionalF.C4, real66]
    rw [e6, e7', e7, e8, real_ddot44, real_ddot44]
    show (if keep (real66 (DistortionalF.C4b m F)) = true then _ else _) = real (if keep (real66 (DistortionalF.C4b m F)) = true then _ else _)
    split_ifs <;> rfl
  -- the dilatational space
  have f1 : DilatationalF.Co (real33 F) = real6 (DilatationalF.Co F) := by
    funext a
    simp only [DilatationalF.Co, DilatationalF.I3, real_cg, real_det, real_pow hp, real6, real_mul]
  have f2 : DilatationalF.Sb mat (real33 F) = real6 (DilatationalF.Sb m F) := by
    funext a
    simp only [DilatationalF.Sb, DilatationalF.I3, real_I3, f1, hm.gradient, real_pow hp, real6, real_mul, real_lit]
  have f3 : DilatationalF.trSb mat (real33 F) = real (DilatationalF.trSb m F) := by
    simp only [DilatationalF.trSb, f2, real_trace]
  have f4 : DilatationalF.invC (real33 F) = real6 (DilatationalF.invC F) := by
    simp only [DilatationalF.invC, DilatationalF.I3, real_cg, real_det, real_inv hp.ne']
  have f5 : DilatationalF.S mat (real33 F) = real6 (DilatationalF.S m F) := by
    funext a
    simp only [DilatationalF.S, f3, f4, real6, real_divNat, real_mul]
  have f6 : DilatationalF.C4b mat (real33 F) = real66 (DilatationalF.C4b m F) := by
    funext a b
    simp only [DilatationalF.C4b, DilatationalF.I3, real_I3, f1, hm.hessian, real_pow hp, real66, real_mul, real_lit]
  have f7 : DilatationalF.C4 mat (real33 F) = real66 (DilatationalF.C4 m F) := by
    funext a b
    simp only [DilatationalF.C4, f3, f4, f6, real_eye, real_ddot24, real_ddot, real_cdyaSelf, real_dya, real66, real_lit,
      real_divNat, real_mul, real_sub, real_add]
  have hd : FloatOps.sqrt (Rnd.det (Rnd.cauchyGreen (real33 F))) = real (FloatOps.sqrt (Rnd.det (Rnd.cauchyGreen F))) := by
    rw [real_I3, real_sqrt hp]
  refine ⟨?_, ?_, ?_, ?_⟩
  · simp only [DistortionalF.gradient, DistortionalF.I3, e5, hd, real_stress cfg F _ hs]
  · simp only [DistortionalF.hessian, DistortionalF.I3, e5, e9, e4, hd, real_elasticity cfg F _ hs]
  · simp only [DilatationalF.gradient, DilatationalF.I3, f5, hd, real_stress cfg F _ hs]
  · simp only [DilatationalF.hessian, DilatationalF.I3, f5, f7, f4, hd, real_elasticity cfg F _ hs]

/-- In exact arithmetic the stress of the distortional space is finite if and only if the deformation gradient is finite
and invertible. -/
theorem C90_finite_iff (cfg : SpaceCfg) (mat : FMaterial (Flt unbounded)) (m : FMaterial ℝ) (hm : Extends mat m)
    (F : Full2 ℝ) : NowhereFinite (DistortionalF.gradient cfg mat (real33 F)) ↔ Matrix.det (Matrix.of F) = 0 := by
  constructor
  · intro h
    by_contra hF
    rw [(C90_exact cfg mat m hm (fun _ => true) F hF).1] at h
    revert h
    rcases DistortionalF.gradient cfg m F with s | p
    · intro h; rcases h 0 with h | h | h <;> cases h
    · intro h; rcases h 0 0 with h | h | h <;> cases h
  · intro hF
    refine C90_distortional_stress cfg mat _ (Or.inr (Or.inr ⟨0, ?_, le_rfl⟩))
    have hI : Rnd.det (Rnd.cauchyGreen F) = 0 := by rw [det_sq F, hF]; simp
    rw [real_I3, hI]; rfl

/-- such a material: neo-Hooke -/
example : Extends (neo unbounded) ⟨fun _ => Rnd.eye, fun _ _ _ => lit 0⟩ :=
  ⟨fun _ => real_eye, fun _ => rfl⟩

/-- the hypotheses of the statements about the deformation gradient: a `nan`, a compressed layer -/
example : (∃ i j, NotFinite ((fun _ _ => ⟨.nan⟩ : Full2 (Flt unbounded)) i j)) ∧
    NotPositive (Rnd.det (Rnd.cauchyGreen (real33 (realF ![1, 0, 1])))) := by
  refine ⟨⟨0, 0, Or.inr (Or.inr rfl)⟩, Or.inr ⟨0, ?_, le_rfl⟩⟩
  rw [real_I3]
  have : Rnd.det (Rnd.cauchyGreen (realF ![1, 0, 1])) = 0 := by
    rw [rcg_real, det_exact]
    simp [Hel.det, rightCauchyGreen, asvoigt, Fin.sum_univ_three, realF]
  rw [this]; rfl

/-- the range of `float16` and of `float64` -/
example : ((4 : ℝ) * 10 ^ 4 ≤ 65504 ∧ (65504 : ℝ) < 4 * 10 ^ 6) ∧
    (4 : ℝ) * (10 ^ 60) ^ 4 ≤ 10 ^ 308 ∧ (10 : ℝ) ^ 309 < 4 * (10 ^ 60) ^ 6 := by
  refine ⟨by norm_num, ?_, ?_⟩
  · rw [show (308 : ℕ) = 68 + 60 * 4 from rfl, pow_add, ← pow_mul]
    exact mul_le_mul_of_nonneg_right (by norm_num) (by positivity)
  · rw [← pow_mul, show (60 * 6 : ℕ) = 51 + 309 from rfl, pow_add (10 : ℝ) 51, ← mul_assoc]
    exact lt_mul_of_one_lt_left (by positivity) (by norm_num)

end Props
