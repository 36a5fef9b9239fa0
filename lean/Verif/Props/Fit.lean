import Verif.Spec.Fit
import Verif.Props.Optimize
import Mathlib.Analysis.InnerProductSpace.Projection.Minimal
import Mathlib.Analysis.InnerProductSpace.PiL2
import Mathlib.Analysis.Normed.Module.FiniteDimension
import Mathlib.Algebra.Polynomial.Roots

/-! # Property C76: fits of third-order-deformation materials have one best fit -/

namespace Props
open Spec Hel

variable {Z : Type}

/-! ### the curves are linear in the parameters -/

theorem zip_ofFn {n : ℕ} (labels : List String) (p : Fin n → ℝ) :
    labels.zip (List.ofFn p) = (labels.zip (List.finRange n)).map fun e => (e.1, p e.2) := by
  rw [List.ofFn_eq_map, List.zip_map_right]
  rfl

/-- The parameter which goes to the name. -/
theorem assigned_ofFn {n : ℕ} (labels : List String) (name : String) :
    (∀ p : Fin n → ℝ, assigned (labels.zip (List.ofFn p)) name = none) ∨
    ∃ i, ∀ p : Fin n → ℝ, assigned (labels.zip (List.ofFn p)) name = some (p i) := by
  have key : ∀ p : Fin n → ℝ, assigned (labels.zip (List.ofFn p)) name =
      ((labels.zip (List.finRange n)).reverse.find? fun e => decide (e.1 = name)).map fun e => p e.2 := by
    intro p
    unfold assigned
    rw [zip_ofFn, ← List.map_reverse, List.find?_map, Option.map_map]
    rfl
  rcases h : (labels.zip (List.finRange n)).reverse.find? (fun e => decide (e.1 = name)) with _ | e
  · exact Or.inl fun p => by rw [key, h]; rfl
  · exact Or.inr ⟨e.2, fun p => by rw [key, h]; rfl⟩

theorem coef_linear (n : ℕ) (labels : List String) (name : String) :
    ∃ φ : (Fin n → ℝ) →ₗ[ℝ] ℝ, ∀ p, coef labels (List.ofFn p) name = φ p := by
  rcases assigned_ofFn (n := n) labels name with h | ⟨i, h⟩
  · exact ⟨0, fun p => by simp [coef, h]⟩
  · exact ⟨LinearMap.proj i, fun p => by simp [coef, h]⟩

/-- The stress at one stretch. -/
noncomputable def stressAt (labels : List String) (k : LoadKind) (l : ℝ) (p : List ℝ) : ℝ :=
  textbook k (W1 labels p k l) (W2 labels p k l) l

theorem stressAt_linear (n : ℕ) (labels : List String) (k : LoadKind) (l : ℝ) :
    ∃ φ : (Fin n → ℝ) →ₗ[ℝ] ℝ, ∀ p, stressAt labels k l (List.ofFn p) = φ p := by
  obtain ⟨c10, h10⟩ := coef_linear n labels "C10"
  obtain ⟨c01, h01⟩ := coef_linear n labels "C01"
  obtain ⟨c11, h11⟩ := coef_linear n labels "C11"
  obtain ⟨c20, h20⟩ := coef_linear n labels "C20"
  obtain ⟨c30, h30⟩ := coef_linear n labels "C30"
  set x := invariants (cauchyGreen (k.F l)) with hx
  let w1 : (Fin n → ℝ) →ₗ[ℝ] ℝ := c10 + (x 1 - 3) • c11 + (2 * (x 0 - 3)) • c20 + (3 * (x 0 - 3) ^ 2) • c30
  let w2 : (Fin n → ℝ) →ₗ[ℝ] ℝ := c01 + (x 0 - 3) • c11
  have e1 : ∀ p, W1 labels (List.ofFn p) k l = w1 p := by
    intro p
    rw [W1_eq _ _ _ _ _ hx, h10, h11, h20, h30]
    simp only [w1, LinearMap.add_apply, LinearMap.smul_apply, smul_eq_mul]
    ring
  have e2 : ∀ p, W2 labels (List.ofFn p) k l = w2 p := by
    intro p
    rw [W2_eq _ _ _ _ _ hx, h01, h11]
    simp only [w2, LinearMap.add_apply, LinearMap.smul_apply, smul_eq_mul]
    ring
  unfold stressAt
  simp only [e1, e2]
  cases k
  · refine ⟨(2 * (l - 1 / l ^ 2)) • (w1 + (1 / l) • w2), fun p => ?_⟩
    simp only [textbook, LinearMap.add_apply, LinearMap.smul_apply, smul_eq_mul]
    ring
  · refine ⟨(2 * (l - 1 / l ^ 3)) • (w1 + w2), fun p => ?_⟩
    simp only [textbook, LinearMap.add_apply, LinearMap.smul_apply, smul_eq_mul]
  · refine ⟨(2 * (l - 1 / l ^ 5)) • (w1 + (l ^ 2) • w2), fun p => ?_⟩
    simp only [textbook, LinearMap.add_apply, LinearMap.smul_apply, smul_eq_mul]

theorem tod_curve {sim : Simulation Z} {k : LoadKind} (ht : TodTest sim k) (p x : List ℝ) (hx : ∀ l ∈ x, 0 < l) :
    sim.stressCurveFit x p = .ok (x.map fun l => stressAt sim.labels k l p) := by
  obtain ⟨⟨lab, hk⟩, hm, hn⟩ := ht
  refine C42_curve sim k lab hk hm p (fun name h => hn name ?_) x hx
  obtain ⟨e, he, rfl⟩ := List.mem_map.1 h
  exact (List.of_mem_zip (a := e.1) (b := e.2) he).1

theorem combine_ofFn {n : ℕ} (a b : ℝ) (p q : Fin n → ℝ) :
    combine a b (List.ofFn p) (List.ofFn q) = List.ofFn (a • p + b • q) := by
  refine List.ext_getElem (by simp [combine]) fun i h1 h2 => ?_
  simp [combine]

theorem combine_getD (a b : ℝ) {u v : List ℝ} (h : u.length = v.length) (i : ℕ) :
    (combine a b u v).getD i 0 = a * u.getD i 0 + b * v.getD i 0 := by
  by_cases hi : i < u.length
  · have hi' : i < v.length := h ▸ hi
    simp [combine, List.getD_eq_getElem?_getD, List.getElem?_zipWith, List.getElem?_eq_getElem hi,
      List.getElem?_eq_getElem hi']
  · have hi' : ¬ i < v.length := h ▸ hi
    simp [combine, List.getD_eq_getElem?_getD, List.getElem?_zipWith, List.getElem?_eq_none (not_lt.1 hi),
      List.getElem?_eq_none (not_lt.1 hi')]

/-- A linear curve is a list of functionals. -/
theorem linearCurve_functionals (n : ℕ) {sim : Simulation Z} {x : List ℝ} (h : LinearCurve sim x) :
    ∃ L : List ((Fin n → ℝ) →ₗ[ℝ] ℝ), ∀ p, sim.stressCurveFit x (List.ofFn p) = .ok (L.map fun φ => φ p) := by
  have hlen : ∀ p q : Fin n → ℝ, (List.ofFn p).length = (List.ofFn q).length := fun p q => by simp
  choose c hc using fun p : Fin n → ℝ => (h (List.ofFn p) (List.ofFn p) rfl).imp fun u hu => hu.choose_spec.1
  have hl : ∀ p, (c p).length = x.length := fun p => stressCurveFit_length (hc p)
  have hcomb : ∀ a b p q, c (a • p + b • q) = combine a b (c p) (c q) := by
    intro a b p q
    obtain ⟨u, v, hu, hv, huv⟩ := h (List.ofFn p) (List.ofFn q) (hlen p q)
    have := huv a b
    rw [combine_ofFn] at this
    cases hu.symm.trans (hc p)
    cases hv.symm.trans (hc q)
    exact Except.ok.inj ((hc _).symm.trans this)
  let φ : ℕ → (Fin n → ℝ) →ₗ[ℝ] ℝ := fun i =>
    { toFun := fun p => (c p).getD i 0
      map_add' := fun p q => by
        have := hcomb 1 1 p q
        rw [one_smul, one_smul] at this
        rw [this, combine_getD _ _ ((hl p).trans (hl q).symm)]
        ring
      map_smul' := fun a p => by
        have := hcomb a 0 p p
        rw [zero_smul, add_zero] at this
        rw [this, combine_getD _ _ rfl, RingHom.id_apply, smul_eq_mul]
        ring }
  refine ⟨(List.range x.length).map φ, fun p => ?_⟩
  rw [hc p]
  congr 1
  refine List.ext_getElem (by simp [hl]) fun i h1 h2 => ?_
  simp only [List.getElem_map, List.getElem_range]
  change _ = (c p).getD i 0
  rw [List.getD_eq_getElem?_getD, List.getElem?_eq_getElem h1, Option.getD_some]

theorem tod_linear {w : World Z} {op : Optimizer} (ht : TodTests w op) {xs : List (List ℝ)} (hx : PositiveData xs) :
    LinearTests w op xs := by
  intro e he p q hpq
  obtain ⟨k, hk⟩ := ht _ (List.of_mem_zip (a := e.1) (b := e.2) he).1
  have hp := hx _ (List.of_mem_zip (a := e.1) (b := e.2) he).2
  obtain ⟨n, hn⟩ : ∃ n, p.length = n := ⟨_, rfl⟩
  obtain ⟨p, rfl⟩ : ∃ v : Fin n → ℝ, p = List.ofFn v := by subst hn; exact ⟨p.get, (List.ofFn_get p).symm⟩
  obtain ⟨q, rfl⟩ : ∃ v : Fin n → ℝ, q = List.ofFn v := by
    rw [hn] at hpq; subst hpq; exact ⟨q.get, (List.ofFn_get q).symm⟩
  refine ⟨_, _, tod_curve hk _ _ hp, tod_curve hk _ _ hp, fun a b => ?_⟩
  rw [combine_ofFn, tod_curve hk _ _ hp]
  choose φ hφ using fun l => stressAt_linear n (w.sims e.1).sim.labels k l
  simp only [hφ, combine, List.zipWith_map_left, List.zipWith_map_right, List.zipWith_self, map_add, map_smul, smul_eq_mul]

/-- Evaluate a list of lists of functionals. -/
def evalAll {V : Type} [AddCommGroup V] [Module ℝ V] (L : List (List (V →ₗ[ℝ] ℝ))) (p : V) : List (List ℝ) :=
  L.map fun l => l.map fun φ => φ p

theorem curves_linear (n : ℕ) (w : World Z) (op : Optimizer) (xs : List (List ℝ)) (ht : LinearTests w op xs) :
    ∃ L : List (List ((Fin n → ℝ) →ₗ[ℝ] ℝ)), ∀ p vs, Curves w op xs (List.ofFn p) vs ↔ vs = evalAll L p := by
  unfold Curves
  unfold LinearTests at ht
  generalize op.simulations.zip xs = l at ht
  induction l with
  | nil => exact ⟨[], fun p vs => by simp [evalAll]⟩
  | cons e l ih =>
    obtain ⟨L, hL⟩ := ih fun e he => ht e (List.mem_cons_of_mem _ he)
    obtain ⟨L0, hL0⟩ := linearCurve_functionals n (ht e List.mem_cons_self)
    refine ⟨L0 :: L, fun p vs => ?_⟩
    rw [List.forall₂_cons_left_iff]
    simp only [hL, hL0, Except.ok.injEq, evalAll, List.map_cons]
    constructor
    · rintro ⟨b, u, rfl, rfl, rfl⟩; rfl
    · rintro rfl; exact ⟨_, _, rfl, rfl, rfl⟩

/-! ### quadratic errors -/

section quad

variable {V : Type} [AddCommGroup V] [Module ℝ V]

/-- The squared error as a function of the vector of parameters. -/
noncomputable def quadErr (L : List (V →ₗ[ℝ] ℝ)) (y : List ℝ) (p : V) : ℝ := sqErr (L.map fun φ => φ p) y

theorem quadErr_line (L : List (V →ₗ[ℝ] ℝ)) (y : List ℝ) (p h : V) : ∃ B Q : ℝ, 0 ≤ Q ∧
    (Q = 0 → ∀ e ∈ L.zip y, e.1 h = 0) ∧
    ∀ t : ℝ, quadErr L y (p + t • h) = quadErr L y p + t * B + t ^ 2 * Q := by
  induction L generalizing y with
  | nil => exact ⟨0, 0, le_rfl, by simp, by simp [quadErr, sqErr]⟩
  | cons φ L ih =>
    cases y with
    | nil => exact ⟨0, 0, le_rfl, by simp, by simp [quadErr, sqErr]⟩
    | cons a y =>
      obtain ⟨B, Q, hQ, h0, hB⟩ := ih y
      refine ⟨B + 2 * (φ p - a) * φ h, Q + φ h ^ 2, by positivity, fun hz => ?_, fun t => ?_⟩
      · have h1 : φ h ^ 2 = 0 := by nlinarith [sq_nonneg (φ h)]
        have h2 : Q = 0 := by nlinarith [sq_nonneg (φ h)]
        rw [List.zip_cons_cons]
        rintro e (_ | ⟨_, he⟩)
        · exact pow_eq_zero_iff two_ne_zero |>.1 h1
        · exact h0 h2 e he
      · have := hB t
        simp only [quadErr, sqErr, List.map_cons, List.zipWith_cons_cons, List.sum_cons, map_add, map_smul,
          smul_eq_mul] at this ⊢
        rw [this]
        ring

/-- A function `t B + t² Q` which is nonnegative for all small `t` has `B = 0`. -/
theorem slope_zero {B Q ε : ℝ} (hε : 0 < ε) (h : ∀ t : ℝ, |t| < ε → 0 ≤ t * B + t ^ 2 * Q) : B = 0 := by
  by_contra hB
  have hB' : 0 < |B| := abs_pos.2 hB
  set δ := min (ε / 2) (|B| / (2 * (|Q| + 1))) with hδ
  have hδ0 : 0 < δ := lt_min (by positivity) (by positivity)
  have hδ1 : δ < ε := lt_of_le_of_lt (min_le_left _ _) (by linarith)
  have hδ2 : δ * (|Q| + 1) ≤ |B| / 2 := by
    have := mul_le_mul_of_nonneg_right (min_le_right (ε / 2) (|B| / (2 * (|Q| + 1)))) (by positivity : 0 ≤ |Q| + 1)
    rw [← hδ] at this
    refine this.trans (le_of_eq ?_)
    field_simp
  have hQ : δ * Q ≤ |B| / 2 := by
    have := mul_le_mul_of_nonneg_left (le_abs_self Q) hδ0.le
    nlinarith
  rcases lt_or_gt_of_ne hB with hn | hp
  · have := h δ (by rwa [abs_of_pos hδ0])
    rw [abs_of_neg hn] at hQ
    nlinarith
  · have := h (-δ) (by rwa [abs_neg, abs_of_pos hδ0])
    rw [abs_of_pos hp] at hQ
    nlinarith

theorem quadErr_min {L : List (V →ₗ[ℝ] ℝ)} {y : List ℝ} {p h : V}
    (hp : ∃ ε > 0, ∀ t : ℝ, |t| < ε → quadErr L y p ≤ quadErr L y (p + t • h)) :
    quadErr L y p ≤ quadErr L y (p + h) ∧ (quadErr L y (p + h) = quadErr L y p → ∀ e ∈ L.zip y, e.1 h = 0) := by
  obtain ⟨ε, hε, hp⟩ := hp
  obtain ⟨B, Q, hQ, h0, hB⟩ := quadErr_line L y p h
  have hB0 : B = 0 := slope_zero (Q := Q) hε fun t ht => by
    have := hp t ht
    rw [hB] at this
    linarith
  have := hB 1
  rw [one_smul, hB0] at this
  refine ⟨by linarith, fun he => h0 (by linarith)⟩

theorem quadErr_convex (L : List (V →ₗ[ℝ] ℝ)) (y : List ℝ) (p q : V) {a b : ℝ} (ha : 0 ≤ a) (hb : 0 ≤ b)
    (hab : a + b = 1) : quadErr L y (a • p + b • q) ≤ a * quadErr L y p + b * quadErr L y q := by
  obtain ⟨B, Q, hQ, -, hB⟩ := quadErr_line L y p (q - p)
  have e1 : a • p + b • q = p + b • (q - p) := by
    rw [show a = 1 - b by linarith]
    module
  have e2 := hB 1
  rw [one_smul, add_sub_cancel] at e2
  rw [e1, hB, e2, show a = 1 - b by linarith]
  have : 0 ≤ b * (1 - b) * Q := by
    have : 0 ≤ 1 - b := by linarith
    positivity
  nlinarith

theorem quadErr_exists (L : List (V →ₗ[ℝ] ℝ)) (y : List ℝ) [FiniteDimensional ℝ V] :
    ∃ p, ∀ q, quadErr L y p ≤ quadErr L y q := by
  have key : ∀ (L : List (V →ₗ[ℝ] ℝ)) (y : List ℝ), ∃ (m : ℕ) (A : V →ₗ[ℝ] EuclideanSpace ℝ (Fin m))
      (b : EuclideanSpace ℝ (Fin m)), ∀ q, quadErr L y q = ‖b - A q‖ ^ 2 := by
    intro L y
    let M := L.zip y
    let A : V →ₗ[ℝ] EuclideanSpace ℝ (Fin M.length) :=
      (WithLp.linearEquiv 2 ℝ (Fin M.length → ℝ)).symm.toLinearMap ∘ₗ LinearMap.pi fun i => (M.get i).1
    refine ⟨M.length, A, WithLp.toLp 2 fun i => (M.get i).2, fun q => ?_⟩
    rw [EuclideanSpace.norm_sq_eq]
    have : quadErr L y q = (M.map fun e => (e.1 q - e.2) ^ 2).sum := by
      unfold quadErr sqErr
      simp only [M, List.map_zipWith, List.zip, List.zipWith_map_left]
    rw [this]
    rw [show M.map (fun e => (e.1 q - e.2) ^ 2) = List.ofFn fun i : Fin M.length => (M[i].1 q - M[i].2) ^ 2 from
      (List.map_eq_iff.2 fun i => by
        by_cases h : i < M.length <;> simp [h]), List.sum_ofFn]
    refine Finset.sum_congr rfl fun i _ => ?_
    simp only [PiLp.sub_apply, Real.norm_eq_abs, sq_abs]
    change _ = (M[i].2 - M[i].1 q) ^ 2
    ring
  obtain ⟨m, A, b, hA⟩ := key L y
  obtain ⟨v, hv, hmin⟩ := Submodule.exists_norm_eq_iInf_of_complete_subspace (LinearMap.range A)
    (Submodule.complete_of_finiteDimensional _) b
  obtain ⟨p, rfl⟩ := hv
  refine ⟨p, fun q => ?_⟩
  rw [hA, hA]
  refine pow_le_pow_left₀ (norm_nonneg _) ?_ 2
  rw [hmin]
  exact ciInf_le ⟨0, by rintro _ ⟨_, rfl⟩; exact norm_nonneg _⟩ (⟨A q, q, rfl⟩ : LinearMap.range A)

end quad

/-! ### from vectors to lists -/

theorem ofFn_of_length {n : ℕ} {p : List ℝ} (h : p.length = n) : ∃ v : Fin n → ℝ, p = List.ofFn v := by
  subst h
  exact ⟨p.get, (List.ofFn_get p).symm⟩

theorem hasError_iff {n : ℕ} {w : World Z} {op : Optimizer} {xs : List (List ℝ)}
    {L : List (List ((Fin n → ℝ) →ₗ[ℝ] ℝ))} (hL : ∀ p vs, Curves w op xs (List.ofFn p) vs ↔ vs = evalAll L p)
    (ys : List (List ℝ)) (p : Fin n → ℝ) (E : ℝ) :
    HasError w op xs ys (List.ofFn p) E ↔ E = quadErr L.flatten ys.flatten p := by
  have : (evalAll L p).flatten = L.flatten.map fun φ => φ p := by
    simp [evalAll, List.map_flatten]
  unfold HasError
  simp only [hL, exists_eq_left, quadErr, this]

theorem bestFit_iff {n : ℕ} {w : World Z} {op : Optimizer} {xs : List (List ℝ)}
    {L : List (List ((Fin n → ℝ) →ₗ[ℝ] ℝ))} (hL : ∀ p vs, Curves w op xs (List.ofFn p) vs ↔ vs = evalAll L p)
    (ys : List (List ℝ)) (p : Fin n → ℝ) :
    BestFit w op xs ys (List.ofFn p) ↔ ∀ q, quadErr L.flatten ys.flatten p ≤ quadErr L.flatten ys.flatten q := by
  unfold BestFit
  simp only [hasError_iff hL, exists_eq_left, List.length_ofFn]
  constructor
  · intro h q
    exact h (List.ofFn q) _ (by simp) ((hasError_iff hL ys q _).2 rfl)
  · intro h p' E' hp hE
    obtain ⟨q, rfl⟩ := ofFn_of_length hp
    rw [hasError_iff hL] at hE
    rw [hE]
    exact h q

theorem closeTo_ofFn {n : ℕ} {ε : ℝ} {p q : Fin n → ℝ} (h : ∀ i, |p i - q i| < ε) :
    CloseTo ε (List.ofFn p) (List.ofFn q) := by
  refine List.forall₂_iff_get.2 ⟨by simp, fun i h1 h2 => ?_⟩
  simp only [List.get_eq_getElem, List.getElem_ofFn]
  exact h _

theorem localFit_line {n : ℕ} {w : World Z} {op : Optimizer} {xs : List (List ℝ)}
    {L : List (List ((Fin n → ℝ) →ₗ[ℝ] ℝ))} (hL : ∀ p vs, Curves w op xs (List.ofFn p) vs ↔ vs = evalAll L p)
    {ys : List (List ℝ)} {p : Fin n → ℝ} (h : LocalFit w op xs ys (List.ofFn p)) (d : Fin n → ℝ) :
    ∃ ε > 0, ∀ t : ℝ, |t| < ε → quadErr L.flatten ys.flatten p ≤ quadErr L.flatten ys.flatten (p + t • d) := by
  obtain ⟨E, hE, ε, hε, h⟩ := h
  rw [hasError_iff hL] at hE
  subst hE
  refine ⟨ε / (‖d‖ + 1), by positivity, fun t ht => ?_⟩
  refine h (List.ofFn (p + t • d)) _ (closeTo_ofFn fun i => ?_) ((hasError_iff hL ys _ _).2 rfl)
  have h1 : |d i| ≤ ‖d‖ := norm_le_pi_norm d i
  have h2 : |p i - (p + t • d) i| = |t| * |d i| := by
    rw [← abs_mul, ← abs_neg]
    congr 1
    simp only [Pi.add_apply, Pi.smul_apply, smul_eq_mul]
    ring
  rw [h2]
  rw [lt_div_iff₀ (by positivity)] at ht
  nlinarith [abs_nonneg t, abs_nonneg (d i), norm_nonneg d]

/-! ### the theorems -/

/-- The curves of third-order-deformation materials are linear in the parameters. -/
theorem C76_linear (w : World Z) (op : Optimizer) (ht : TodTests w op) (xs : List (List ℝ)) (hx : PositiveData xs) :
    LinearTests w op xs := tod_linear ht hx

/-- Every local minimum of the total error is a global one. -/
theorem C76_local (w : World Z) (op : Optimizer) (xs ys : List (List ℝ)) (ht : LinearTests w op xs)
    (p : List ℝ) (h : LocalFit w op xs ys p) : BestFit w op xs ys p := by
  obtain ⟨n, hn⟩ : ∃ n, p.length = n := ⟨_, rfl⟩
  obtain ⟨L, hL⟩ := curves_linear n w op xs ht
  obtain ⟨v, rfl⟩ := ofFn_of_length hn
  rw [bestFit_iff hL]
  intro q
  have := (quadErr_min (localFit_line hL h (q - v))).1
  rwa [add_sub_cancel] at this

/-- The total error is convex. -/
theorem C76_convex (w : World Z) (op : Optimizer) (xs ys : List (List ℝ)) (ht : LinearTests w op xs)
    (p q : List ℝ) (hpq : p.length = q.length) (a b : ℝ) (ha : 0 ≤ a) (hb : 0 ≤ b) (hab : a + b = 1) :
    ∃ Ep Eq E, HasError w op xs ys p Ep ∧ HasError w op xs ys q Eq ∧ HasError w op xs ys (combine a b p q) E ∧
      E ≤ a * Ep + b * Eq := by
  obtain ⟨n, hn⟩ : ∃ n, p.length = n := ⟨_, rfl⟩
  obtain ⟨L, hL⟩ := curves_linear n w op xs ht
  obtain ⟨p', rfl⟩ := ofFn_of_length hn
  obtain ⟨q', rfl⟩ := ofFn_of_length (hpq.symm.trans hn)
  refine ⟨quadErr L.flatten ys.flatten p', quadErr L.flatten ys.flatten q',
    quadErr L.flatten ys.flatten (a • p' + b • q'), ?_, ?_, ?_, quadErr_convex _ _ _ _ ha hb hab⟩
  · exact (hasError_iff hL ..).2 rfl
  · exact (hasError_iff hL ..).2 rfl
  · rw [combine_ofFn]
    exact (hasError_iff hL ..).2 rfl

/-- There is a best fit, with any number of parameters. -/
theorem C76_exists (w : World Z) (op : Optimizer) (xs ys : List (List ℝ)) (ht : LinearTests w op xs)
    (n : ℕ) : ∃ p, p.length = n ∧ BestFit w op xs ys p := by
  obtain ⟨L, hL⟩ := curves_linear n w op xs ht
  obtain ⟨p, hp⟩ := quadErr_exists L.flatten ys.flatten
  exact ⟨List.ofFn p, by simp, (bestFit_iff hL ys p).2 hp⟩

theorem curves_length {w : World Z} {op : Optimizer} (hm : Matched op) {xs ys : List (List ℝ)} (hd : FitData op xs ys)
    {p : List ℝ} {vs : List (List ℝ)} (hc : Curves w op xs p vs) : vs.flatten.length = ys.flatten.length := by
  by_cases hne : vs = []
  · obtain ⟨h3, h4⟩ := fitData_lengths hm hd
    rw [hne] at hc ⊢
    unfold Curves at hc
    have := hc.length_eq
    rw [List.length_zip, h4, min_self, List.length_nil] at this
    rw [this] at h4
    have h5 := h3.length_eq
    rw [h4] at h5
    rw [List.length_eq_zero_iff.1 h5.symm]
  · obtain ⟨us, h1, h3, h4, h5, h6⟩ := C48_total_error w op hm xs ys hd
      (fun x p => w.evaluate op.simulations xs p) (fun _ p v => World.evaluate_iff w _ xs p v) p
      vs.flatten ((World.evaluate_iff w _ xs _ _).2 ⟨_, hne, hc, rfl⟩)
    exact h4

/-- All best fits give the same curves. -/
theorem C76_same_curves (w : World Z) (op : Optimizer) (hm : Matched op) (xs ys : List (List ℝ)) (ht : LinearTests w op xs)
    (hd : FitData op xs ys) (p q : List ℝ) (hpq : p.length = q.length)
    (hp : BestFit w op xs ys p) (hq : BestFit w op xs ys q) (vs : List (List ℝ)) :
    Curves w op xs p vs ↔ Curves w op xs q vs := by
  obtain ⟨n, hn⟩ : ∃ n, p.length = n := ⟨_, rfl⟩
  obtain ⟨L, hL⟩ := curves_linear n w op xs ht
  obtain ⟨p', rfl⟩ := ofFn_of_length hn
  obtain ⟨q', rfl⟩ := ofFn_of_length (hpq.symm.trans hn)
  have e1 := (hL p' _).2 rfl
  have h2 := curves_length hm hd e1
  rw [bestFit_iff hL] at hp hq
  have key := (quadErr_min (L := L.flatten) (y := ys.flatten) (p := p') (h := q' - p')
    ⟨1, one_pos, fun t _ => hp _⟩).2 (by rw [add_sub_cancel]; exact le_antisymm (hq _) (hp _))
  rw [hL, hL]
  suffices evalAll L p' = evalAll L q' by rw [this]
  have h3 : L.flatten.length = ys.flatten.length := by
    rw [← h2]
    simp [evalAll, List.length_flatten, List.map_map, Function.comp_def]
  refine List.map_congr_left fun l hl => List.map_congr_left fun φ hφ => ?_
  have hmem : φ ∈ L.flatten := List.mem_flatten.2 ⟨l, hl, hφ⟩
  obtain ⟨i, hi, rfl⟩ := List.getElem_of_mem hmem
  have := key ((L.flatten.zip ys.flatten)[i]'(by rw [List.length_zip]; omega)) (List.getElem_mem _)
  rw [List.getElem_zip] at this
  simp only [map_sub] at this
  linarith

/-! ### which data determine the parameters -/

/-- The factor of the normal force which vanishes at stretch one only. -/
noncomputable def factor : LoadKind → ℝ → ℝ
  | .uniaxial, l => 2 * (l - 1 / l ^ 2)
  | .planar, l => 2 * (l - 1 / l ^ 3)
  | .biaxial, l => 2 * (l - 1 / l ^ 5)

theorem factor_ne {k : LoadKind} {l : ℝ} (hl : 0 < l) (h1 : l ≠ 1) : factor k l ≠ 0 := by
  have key : ∀ m : ℕ, l - 1 / l ^ m ≠ 0 := by
    intro m h
    have : l ^ (m + 1) = 1 := by
      rw [pow_succ]
      have hp : l ^ m ≠ 0 := (pow_pos hl m).ne'
      field_simp at h
      linarith
    exact h1 ((pow_eq_one_iff_of_nonneg hl.le (Nat.succ_ne_zero m)).1 this)
  cases k <;> exact mul_ne_zero two_ne_zero (key _)

theorem factor_one (k : LoadKind) : factor k 1 = 0 := by cases k <;> simp [factor]

theorem stressAt_eq (labels : List String) (k : LoadKind) (l : ℝ) (p : List ℝ) :
    stressAt labels k l p = factor k l * (W1 labels p k l + k.weight l * W2 labels p k l) := by
  cases k <;> simp only [stressAt, textbook, factor, LoadKind.weight] <;> ring

theorem curves_point {w : World Z} {op : Optimizer} {xs : List (List ℝ)} (hx : PositiveData xs)
    {p q : List ℝ} {vs : List (List ℝ)} (hp : Curves w op xs p vs) (hq : Curves w op xs q vs) {s : ℕ} {x : List ℝ}
    (hs : (s, x) ∈ op.simulations.zip xs) {k : LoadKind} (ht : TodTest (w.sims s).sim k) {l : ℝ} (hl : l ∈ x) :
    stressAt (w.sims s).sim.labels k l p = stressAt (w.sims s).sim.labels k l q := by
  unfold Curves at hp hq
  have hpos := hx x (List.of_mem_zip (a := s) (b := x) hs).2
  obtain ⟨i, hi, he⟩ := List.getElem_of_mem hs
  have h1 := (List.forall₂_iff_get.1 hp).2 i hi (hp.length_eq ▸ hi)
  have h2 := (List.forall₂_iff_get.1 hq).2 i hi (hp.length_eq ▸ hi)
  simp only [List.get_eq_getElem, he] at h1 h2
  rw [tod_curve ht _ _ hpos] at h1 h2
  have := Except.ok.inj (h1.trans h2.symm)
  exact List.map_inj_left.1 this l hl

theorem curves_of_points {w : World Z} {op : Optimizer} (ht : TodTests w op) {xs : List (List ℝ)}
    (hx : PositiveData xs) {p q : List ℝ}
    (h : ∀ s x k l, (s, x) ∈ op.simulations.zip xs → TodTest (w.sims s).sim k → l ∈ x →
      stressAt (w.sims s).sim.labels k l p = stressAt (w.sims s).sim.labels k l q) (vs : List (List ℝ)) :
    Curves w op xs p vs ↔ Curves w op xs q vs := by
  have key : ∀ (l : List (ℕ × List ℝ)) (vs : List (List ℝ)), (∀ e ∈ l, (w.sims e.1).sim.stressCurveFit e.2 p =
      (w.sims e.1).sim.stressCurveFit e.2 q) →
      List.Forall₂ (fun e v => (w.sims e.1).sim.stressCurveFit e.2 p = .ok v) l vs →
      List.Forall₂ (fun e v => (w.sims e.1).sim.stressCurveFit e.2 q = .ok v) l vs := by
    intro l vs h h2
    induction h2 with
    | nil => exact .nil
    | cons h3 _ ih =>
      exact .cons (by rw [← h _ List.mem_cons_self, h3]) (ih fun e he => h e (List.mem_cons_of_mem _ he))
  have heq : ∀ e ∈ op.simulations.zip xs, (w.sims e.1).sim.stressCurveFit e.2 p =
      (w.sims e.1).sim.stressCurveFit e.2 q := by
    rintro ⟨s, x⟩ he
    obtain ⟨k, hk⟩ := ht s (List.of_mem_zip (a := s) (b := x) he).1
    have hpos := hx x (List.of_mem_zip (a := s) (b := x) he).2
    simp only
    rw [tod_curve hk _ _ hpos, tod_curve hk _ _ hpos]
    congr 1
    exact List.map_congr_left fun l hl => h s x k l he hk hl
  refine ⟨key _ _ heq, fun h2 => ?_⟩
  have key' : ∀ (l : List (ℕ × List ℝ)) (vs : List (List ℝ)), (∀ e ∈ l, (w.sims e.1).sim.stressCurveFit e.2 p =
      (w.sims e.1).sim.stressCurveFit e.2 q) →
      List.Forall₂ (fun e v => (w.sims e.1).sim.stressCurveFit e.2 q = .ok v) l vs →
      List.Forall₂ (fun e v => (w.sims e.1).sim.stressCurveFit e.2 p = .ok v) l vs := by
    intro l vs h h2
    induction h2 with
    | nil => exact .nil
    | cons h3 _ ih =>
      exact .cons (by rw [h _ List.mem_cons_self, h3]) (ih fun e he => h e (List.mem_cons_of_mem _ he))
  exact key' _ _ heq h2

theorem bestFit_congr {w : World Z} {op : Optimizer} {xs ys : List (List ℝ)} {p q : List ℝ}
    (hpq : p.length = q.length) (h : ∀ vs, Curves w op xs p vs ↔ Curves w op xs q vs) :
    BestFit w op xs ys p ↔ BestFit w op xs ys q := by
  unfold BestFit HasError
  simp only [h, hpq]

theorem unique_of_points {w : World Z} {op : Optimizer} (hm : Matched op) (ht : TodTests w op)
    {xs ys : List (List ℝ)} (hd : FitData op xs ys) (hx : PositiveData xs) {n : ℕ}
    (h : ∀ p q : List ℝ, p.length = n → q.length = n →
      (∀ s x k l, (s, x) ∈ op.simulations.zip xs → TodTest (w.sims s).sim k → l ∈ x →
        stressAt (w.sims s).sim.labels k l p = stressAt (w.sims s).sim.labels k l q) → p = q) :
    UniqueFit w op xs ys n := by
  obtain ⟨p, hp, hb⟩ := C76_exists w op xs ys (tod_linear ht hx) n
  refine ⟨p, ⟨hp, hb⟩, fun q ⟨hq, hb'⟩ => h q p hq hp fun s x k l hs hk hl => ?_⟩
  have hsame := C76_same_curves w op hm xs ys (tod_linear ht hx) hd q p (hq.trans hp.symm) hb' hb
  obtain ⟨E, ⟨vs, hc, -⟩, -⟩ := hb
  exact curves_point hx ((hsame vs).2 hc) hc hs hk hl

theorem dataPoint_pos {w : World Z} {op : Optimizer} {xs : List (List ℝ)} (hx : PositiveData xs) {k : LoadKind} {l : ℝ}
    (h : DataPoint w op xs k l) : 0 < l := by
  obtain ⟨s, x, hs, -, hl⟩ := h
  exact hx x (List.of_mem_zip (a := s) (b := x) hs).2 l hl

theorem mooney_stress (k : LoadKind) (l a b : ℝ) :
    stressAt ["C10", "C01"] k l [a, b] = factor k l * (a + k.weight l * b) := by
  rw [stressAt_eq, W1_eq _ _ _ _ _ rfl, W2_eq _ _ _ _ _ rfl]
  simp [coef, assigned]

/-- Mooney-Rivlin: there is exactly one best fit if and only if there are two data points, away
from stretch one, which weigh the two parameters differently. -/
theorem C76_mooney_rivlin (w : World Z) (op : Optimizer) (hm : Matched op) (ht : TodTests w op)
    (hl : ∀ s ∈ op.simulations, (w.sims s).sim.labels = ["C10", "C01"]) (xs ys : List (List ℝ))
    (hd : FitData op xs ys) (hx : PositiveData xs) : UniqueFit w op xs ys 2 ↔
    ∃ k l k' l', DataPoint w op xs k l ∧ DataPoint w op xs k' l' ∧ l ≠ 1 ∧ l' ≠ 1 ∧ k.weight l ≠ k'.weight l' := by
  constructor
  · intro hu
    by_contra hno
    push Not at hno
    obtain ⟨m, hm'⟩ : ∃ m, ∀ k l, DataPoint w op xs k l → l ≠ 1 → k.weight l = m := by
      by_cases h : ∃ k l, DataPoint w op xs k l ∧ l ≠ 1
      · obtain ⟨k, l, h1, h2⟩ := h
        exact ⟨k.weight l, fun k' l' h3 h4 => hno k' l' k l h3 h1 h4 h2⟩
      · push Not at h
        exact ⟨0, fun k l h1 h2 => absurd (h k l h1) h2⟩
    obtain ⟨p, ⟨hp, hb⟩, huniq⟩ := hu
    obtain ⟨a, b, rfl⟩ := List.length_eq_two.1 hp
    have := huniq [a + m, b - 1] ⟨rfl, (bestFit_congr (p := [a, b]) (q := [a + m, b - 1]) rfl fun vs => ?_).1 hb⟩
    · simp at this
    · refine curves_of_points ht hx (fun s x k l hs hk hlx => ?_) vs
      rw [hl s (List.of_mem_zip (a := s) (b := x) hs).1, mooney_stress, mooney_stress]
      by_cases h1 : l = 1
      · rw [h1, factor_one]; ring
      · rw [hm' k l ⟨s, x, hs, hk, hlx⟩ h1]; ring
  · rintro ⟨k, l, k', l', hp1, hp2, h1, h2, hne⟩
    refine unique_of_points hm ht hd hx fun p q hp hq h => ?_
    obtain ⟨a, b, rfl⟩ := List.length_eq_two.1 hp
    obtain ⟨a', b', rfl⟩ := List.length_eq_two.1 hq
    have key : ∀ {k l}, DataPoint w op xs k l → l ≠ 1 → (a - a') + k.weight l * (b - b') = 0 := by
      intro k l hp h1
      have hpos := dataPoint_pos hx hp
      obtain ⟨s, x, hs, hk, hlx⟩ := hp
      have := h s x k l hs hk hlx
      rw [hl s (List.of_mem_zip (a := s) (b := x) hs).1, mooney_stress, mooney_stress] at this
      have := mul_left_cancel₀ (factor_ne hpos h1) this
      linarith
    have e1 := key hp1 h1
    have e2 := key hp2 h2
    have e3 : (k.weight l - k'.weight l') * (b - b') = 0 := by linarith
    have e4 : b - b' = 0 := (mul_eq_zero.1 e3).resolve_left (sub_ne_zero.2 hne)
    rw [e4] at e1
    rw [show a = a' by linarith, show b = b' by linarith]

theorem yeoh_stress (k : LoadKind) (l a b c : ℝ) :
    stressAt ["C10", "C20", "C30"] k l [a, b, c] = factor k l * (a + 2 * b * (invariants (cauchyGreen (k.F l)) 0 - 3) +
      3 * c * (invariants (cauchyGreen (k.F l)) 0 - 3) ^ 2) := by
  rw [stressAt_eq, W1_eq _ _ _ _ _ rfl, W2_eq _ _ _ _ _ rfl]
  simp [coef, assigned]
  left
  ring

/-- Yeoh: three data points away from stretch one with different first invariants determine the
three parameters, whatever the load cases. -/
theorem C76_yeoh (w : World Z) (op : Optimizer) (hm : Matched op) (ht : TodTests w op)
    (hl : ∀ s ∈ op.simulations, (w.sims s).sim.labels = ["C10", "C20", "C30"]) (xs ys : List (List ℝ))
    (hd : FitData op xs ys) (hx : PositiveData xs) (k : Fin 3 → LoadKind) (l : Fin 3 → ℝ)
    (hp : ∀ i, DataPoint w op xs (k i) (l i)) (h1 : ∀ i, l i ≠ 1)
    (hi : Function.Injective fun i => invariants (cauchyGreen ((k i).F (l i))) 0) : UniqueFit w op xs ys 3 := by
  refine unique_of_points hm ht hd hx fun p q hpl hql h => ?_
  obtain ⟨a, b, c, rfl⟩ := List.length_eq_three.1 hpl
  obtain ⟨a', b', c', rfl⟩ := List.length_eq_three.1 hql
  set u : Fin 3 → ℝ := fun i => invariants (cauchyGreen ((k i).F (l i))) 0 with hu
  have key : ∀ i, (a - a') + 2 * (b - b') * (u i - 3) + 3 * (c - c') * (u i - 3) ^ 2 = 0 := by
    intro i
    have hpos := dataPoint_pos hx (hp i)
    obtain ⟨s, x, hs, hk, hlx⟩ := hp i
    have := h s x _ _ hs hk hlx
    rw [hl s (List.of_mem_zip (a := s) (b := x) hs).1, yeoh_stress, yeoh_stress] at this
    have := mul_left_cancel₀ (factor_ne hpos (h1 i)) this
    linarith
  have h01 : u 0 - u 1 ≠ 0 := sub_ne_zero.2 (hi.ne (by decide))
  have h02 : u 0 - u 2 ≠ 0 := sub_ne_zero.2 (hi.ne (by decide))
  have h12 : u 1 - u 2 ≠ 0 := sub_ne_zero.2 (hi.ne (by decide))
  have e0 := key 0
  have e1 := key 1
  have e2 := key 2
  have d1 : 2 * (b - b') + 3 * (c - c') * (u 0 + u 1 - 6) = 0 := by
    refine (mul_eq_zero.1 (?_ : (u 0 - u 1) * _ = 0)).resolve_left h01
    linear_combination e0 - e1
  have d2 : 2 * (b - b') + 3 * (c - c') * (u 0 + u 2 - 6) = 0 := by
    refine (mul_eq_zero.1 (?_ : (u 0 - u 2) * _ = 0)).resolve_left h02
    linear_combination e0 - e2
  have d3 : c - c' = 0 := by
    refine (mul_eq_zero.1 (?_ : (u 1 - u 2) * _ = 0)).resolve_left h12
    linear_combination (d1 - d2) / 3
  rw [d3] at d1 e0
  have d4 : b - b' = 0 := by linarith
  rw [d4] at e0
  rw [show a = a' by linarith, show b = b' by linarith, show c = c' by linarith]

theorem params_of_coef {labels : List String} (hn : labels.Nodup)
    (hmem : ∀ name ∈ labels, name ∈ ["C10", "C01", "C11", "C20", "C30"]) {p q : List ℝ}
    (hp : p.length = labels.length) (hq : q.length = labels.length)
    (h : ∀ name ∈ ["C10", "C01", "C11", "C20", "C30"], coef labels p name = coef labels q name) : p = q := by
  refine List.ext_getElem (hp.trans hq.symm) fun i h1 h2 => ?_
  have hi : i < labels.length := by omega
  have := h labels[i] (hmem _ (List.getElem_mem hi))
  unfold coef at this
  rw [(assigned_zip hn).1 i hi h1, (assigned_zip hn).1 i hi h2] at this
  exact this

open Polynomial in
/-- A polynomial of degree at most 6 with seven zeros. -/
theorem poly_zero {S : Finset ℝ} (hS : S.card = 7) {P : ℝ[X]} (hd : P.natDegree ≤ 6) (h : ∀ l ∈ S, P.eval l = 0) :
    ∀ l, P.eval l = 0 := by
  have : P = 0 := Polynomial.eq_zero_of_natDegree_lt_card_of_eval_eq_zero' P S h (by omega)
  intro l; rw [this, eval_zero]

open Polynomial in
theorem uniaxial_zero {S : Finset ℝ} (hS : S.card = 7) {a b c d e : ℝ}
    (h : ∀ l ∈ S, a * l ^ 2 + b * l + c * (3 * l ^ 3 - 3 * l ^ 2 - 3 * l + 3) + d * (l ^ 4 - 3 * l ^ 2 + 2 * l) +
      e * (l ^ 3 - 3 * l + 2) ^ 2 = 0) : a = 0 ∧ b = 0 ∧ c = 0 ∧ d = 0 ∧ e = 0 := by
  have := poly_zero hS (P := C a * X ^ 2 + C b * X + C c * (C 3 * X ^ 3 - C 3 * X ^ 2 - C 3 * X + C 3) +
    C d * (X ^ 4 - C 3 * X ^ 2 + C 2 * X) + C e * (X ^ 3 - C 3 * X + C 2) ^ 2) (by compute_degree) (fun l hl => by
      simpa using h l hl)
  simp only [eval_add, eval_mul, eval_C, eval_pow, eval_X, eval_sub] at this
  have e0 := this 0
  have e1 := this 1
  have e2 := this (-1)
  have e3 := this 2
  have e4 := this 3
  have e5 := this (-2)
  norm_num at e0 e1 e2 e3 e4 e5
  refine ⟨?_, ?_, ?_, ?_, ?_⟩ <;> linarith

open Polynomial in
theorem biaxial_zero {S : Finset ℝ} (hS : S.card = 7) {a b c d e : ℝ}
    (h : ∀ s ∈ S, a * s ^ 4 + b * s ^ 5 + c * (3 * s ^ 6 + 3 * s ^ 3 - 3 * s ^ 4 - 3 * s ^ 5) +
      d * (2 * s ^ 5 + s ^ 2 - 3 * s ^ 4) + e * (2 * s ^ 3 + 1 - 3 * s ^ 2) ^ 2 = 0) :
    a = 0 ∧ b = 0 ∧ c = 0 ∧ d = 0 ∧ e = 0 := by
  have := poly_zero hS (P := C a * X ^ 4 + C b * X ^ 5 + C c * (C 3 * X ^ 6 + C 3 * X ^ 3 - C 3 * X ^ 4 - C 3 * X ^ 5) +
    C d * (C 2 * X ^ 5 + X ^ 2 - C 3 * X ^ 4) + C e * (C 2 * X ^ 3 + C 1 - C 3 * X ^ 2) ^ 2) (by compute_degree)
    (fun l hl => by simpa using h l hl)
  simp only [eval_add, eval_mul, eval_C, eval_pow, eval_X, eval_sub] at this
  have e0 := this 0
  have e1 := this 1
  have e2 := this (-1)
  have e3 := this 2
  have e4 := this 3
  have e5 := this (-2)
  norm_num at e0 e1 e2 e3 e4 e5
  refine ⟨?_, ?_, ?_, ?_, ?_⟩ <;> linarith

theorem coef_of_points {k : LoadKind} (hk : k = .uniaxial ∨ k = .biaxial) {labels : List String} {p q x : List ℝ}
    (hx : ∀ l ∈ x, 0 < l) (hS : DistinctStretches 7 x)
    (h : ∀ l ∈ x, stressAt labels k l p = stressAt labels k l q) :
    ∀ name ∈ ["C10", "C01", "C11", "C20", "C30"], coef labels p name = coef labels q name := by
  obtain ⟨S, hS, hmem⟩ := hS
  suffices hz : coef labels p "C10" - coef labels q "C10" = 0 ∧ coef labels p "C01" - coef labels q "C01" = 0 ∧
      coef labels p "C11" - coef labels q "C11" = 0 ∧ 2 * (coef labels p "C20" - coef labels q "C20") = 0 ∧
      3 * (coef labels p "C30" - coef labels q "C30") = 0 by
    obtain ⟨h1, h2, h3, h4, h5⟩ := hz
    intro name hname
    simp only [List.mem_cons, List.not_mem_nil, or_false] at hname
    rcases hname with rfl | rfl | rfl | rfl | rfl <;> linarith
  have key : ∀ l ∈ S, 0 < l ∧ W1 labels p k l + k.weight l * W2 labels p k l =
      W1 labels q k l + k.weight l * W2 labels q k l := by
    intro l hl
    have hpos := hx l (hmem l hl).1
    refine ⟨hpos, ?_⟩
    have := h l (hmem l hl).1
    rw [stressAt_eq, stressAt_eq] at this
    exact mul_left_cancel₀ (factor_ne hpos (hmem l hl).2) this
  rcases hk with rfl | rfl
  · refine uniaxial_zero hS fun l hl => ?_
    obtain ⟨hpos, e⟩ := key l hl
    simp only [W1_eq _ _ _ _ _ (C42_invariants hpos).1.symm, W2_eq _ _ _ _ _ (C42_invariants hpos).1.symm,
      LoadKind.weight, Matrix.cons_val_zero, Matrix.cons_val_one] at e
    field_simp at e
    linear_combination e
  · have hinj : Set.InjOn (fun l : ℝ => l ^ 2) S := by
      intro a ha b hb hab
      have h1 := (key a ha).1
      have h2 := (key b hb).1
      simp only at hab
      exact (pow_left_inj₀ h1.le h2.le two_ne_zero).1 hab
    refine biaxial_zero (S := S.image fun l => l ^ 2) (by rw [Finset.card_image_of_injOn hinj, hS]) fun s hs => ?_
    obtain ⟨l, hl, rfl⟩ := Finset.mem_image.1 hs
    obtain ⟨hpos, e⟩ := key l hl
    simp only [W1_eq _ _ _ _ _ (C42_invariants hpos).2.2.symm, W2_eq _ _ _ _ _ (C42_invariants hpos).2.2.symm,
      LoadKind.weight, Matrix.cons_val_zero, Matrix.cons_val_one] at e
    field_simp at e
    linear_combination e

/-- Seven different stretches in one uniaxial or biaxial test determine all parameters: there is
exactly one best fit. -/
theorem C76_unique (w : World Z) (op : Optimizer) (hm : Matched op) (ht : TodTests w op) (xs ys : List (List ℝ))
    (hd : FitData op xs ys) (hx : PositiveData xs) (s : ℕ) (x : List ℝ) (hs : (s, x) ∈ op.simulations.zip xs)
    (k : LoadKind) (hk : k = .uniaxial ∨ k = .biaxial) (hsim : TodTest (w.sims s).sim k)
    (hn : (w.sims s).sim.labels.Nodup) (hS : DistinctStretches 7 x) :
    UniqueFit w op xs ys (w.sims s).sim.labels.length :=
  unique_of_points hm ht hd hx fun _ _ hp hq h => params_of_coef hn hsim.2.2 hp hq
    (coef_of_points hk (hx x (List.of_mem_zip (a := s) (b := x) hs).2) hS fun l hl => h s x k l hs hsim hl)

/-- Planar tests alone do not distinguish the first two parameters: only their sum has an effect. -/
theorem C76_planar (w : World Z) (op : Optimizer) (rest : List String)
    (hn : ("C10" :: "C01" :: rest).Nodup)
    (ht : ∀ s ∈ op.simulations, TodTest (w.sims s).sim .planar ∧ (w.sims s).sim.labels = "C10" :: "C01" :: rest)
    (xs : List (List ℝ)) (hx : PositiveData xs) (a b t : ℝ) (r : List ℝ) (vs : List (List ℝ)) :
    Curves w op xs (a :: b :: r) vs ↔ Curves w op xs ((a + t) :: (b - t) :: r) vs := by
  have hcoef : ∀ (a b : ℝ) (name : String), coef ("C10" :: "C01" :: rest) (a :: b :: r) name =
      if name = "C10" then a else if name = "C01" then b else coef rest r name := by
    intro a b name
    have h1 := (assigned_zip hn (p := a :: b :: r)).1 0 (by simp) (by simp)
    have h2 := (assigned_zip hn (p := a :: b :: r)).1 1 (by simp) (by simp)
    simp only [List.getElem_cons_zero, List.getElem_cons_succ] at h1 h2
    split_ifs with g1 g2
    · rw [g1, coef, h1]; rfl
    · rw [g2, coef, h2]; rfl
    · unfold coef assigned
      simp only [List.zip_cons_cons, List.reverse_cons, List.append_assoc, List.find?_append]
      have : ([(("C01", b) : String × ℝ)] ++ [("C10", a)]).find? (fun e => decide (e.1 = name)) = none := by
        simp [Ne.symm g1, Ne.symm g2]
      rw [← List.find?_append, this, Option.or_none]
  have hTT : TodTests w op := fun s hs => ⟨_, (ht s hs).1⟩
  have key : ∀ p vs, Curves w op xs p vs ↔ List.Forall₂ (fun (e : ℕ × List ℝ) v => v = e.2.map fun l =>
      stressAt ("C10" :: "C01" :: rest) .planar l p) (op.simulations.zip xs) vs := by
    intro p vs
    have : ∀ (l : List (ℕ × List ℝ)), (∀ e ∈ l, e.1 ∈ op.simulations ∧ ∀ u ∈ e.2, 0 < u) → ∀ vs,
        (List.Forall₂ (fun e v => (w.sims e.1).sim.stressCurveFit e.2 p = .ok v) l vs ↔
        List.Forall₂ (fun (e : ℕ × List ℝ) v => v = e.2.map fun l =>
          stressAt ("C10" :: "C01" :: rest) .planar l p) l vs) := by
      intro l
      induction l with
      | nil => intro _ vs; simp
      | cons e l ih =>
        intro h vs
        obtain ⟨h1, h2⟩ := h e List.mem_cons_self
        rw [List.forall₂_cons_left_iff, List.forall₂_cons_left_iff]
        simp only [ih fun e he => h e (List.mem_cons_of_mem _ he), tod_curve (ht _ h1).1 _ _ h2, (ht _ h1).2,
          Except.ok.injEq, eq_comm (b := List.map _ e.2)]
    exact this _ (fun e he => ⟨(List.of_mem_zip (a := e.1) (b := e.2) he).1, hx _ (List.of_mem_zip (a := e.1) (b := e.2) he).2⟩) vs
  rw [key, key]
  have hst : ∀ l, stressAt ("C10" :: "C01" :: rest) .planar l (a :: b :: r) =
      stressAt ("C10" :: "C01" :: rest) .planar l ((a + t) :: (b - t) :: r) := by
    intro l
    simp only [stressAt_eq, W1_eq _ _ _ _ _ rfl, W2_eq _ _ _ _ _ rfl, hcoef, LoadKind.weight]
    simp
    left
    ring
  simp only [hst]

/-- Planar tests alone never have exactly one best fit of the first two parameters. -/
theorem C76_planar_not_unique (w : World Z) (op : Optimizer) (rest : List String)
    (hn : ("C10" :: "C01" :: rest).Nodup)
    (ht : ∀ s ∈ op.simulations, TodTest (w.sims s).sim .planar ∧ (w.sims s).sim.labels = "C10" :: "C01" :: rest)
    (xs ys : List (List ℝ)) (hx : PositiveData xs) : ¬ UniqueFit w op xs ys (rest.length + 2) := by
  rintro ⟨p, ⟨hp, hb⟩, hu⟩
  match p, hp with
  | a :: b :: r, hp =>
    have := hu ((a + 1) :: (b - 1) :: r) ⟨hp, (bestFit_congr (p := a :: b :: r) (q := (a + 1) :: (b - 1) :: r) rfl
      fun vs => C76_planar w op rest hn ht xs hx a b 1 r vs).1 hb⟩
    simp at this

/-! ### end to end -/

/-- Every solver which stops at a local minimum finds a best fit: after a fit has returned, the
parameters of the optimizer and of all its simulations are a best fit to the selected data. -/
theorem C76_curve_fit (w w' : World Z) (o : ℕ)
    (hlin : ∀ xs ys, FitData (w.opts o) xs ys → LinearTests w (w.opts o) xs) (solver : Solver) (hs : Solver.WellFormed solver)
    (hmin : Solver.StopsAtMinimum solver) (hk : Writable (w.params (w.opts o).parameters).kind) (r : ℕ)
    (pcov : List (List Num)) (h : curveFit o solver w = (.ok (r, pcov), w')) :
    ∃ xs ys, FitData (w.opts o) xs ys ∧ BestFit w (w.opts o) xs ys (w'.params r).vals ∧
      (w'.params r).vals.length = (w.params r).vals.length ∧
      ∀ s ∈ (w.opts o).simulations, (w'.params (w'.sims s).parameters).vals = (w'.params r).vals := by
  obtain ⟨popt, xs, ys, F, hd, hF, hsol, hr, -, hv, hsims, -, -⟩ := C47_coherent_partial w w' o solver hs hk r pcov h
  refine ⟨xs, ys, hd, ?_, ?_, fun s hs => by rw [hsims s hs]⟩
  · rw [hv]
    refine C76_local w _ xs ys (hlin xs ys hd) popt ?_
    obtain ⟨v, hv, ε, hε, hle⟩ := hmin _ _ _ _ _ _ hsol
    obtain ⟨vs, hne, hc, rfl⟩ := (hF _ _ _).1 hv
    refine ⟨_, ⟨vs, hc, rfl⟩, ε, hε, ?_⟩
    rintro p' E' hcl ⟨vs', hc', rfl⟩
    refine hle p' _ hcl ((hF _ _ _).2 ⟨vs', ?_, hc', rfl⟩)
    rintro rfl
    exact hne (List.length_eq_zero_iff.1 (hc.length_eq.symm.trans hc'.length_eq))
  · rw [hv, (hs _ _ _ _ _ _ hsol).1, hr]

theorem sqErr_self (v : List ℝ) : sqErr v v = 0 := by
  unfold sqErr
  rw [List.zipWith_self]
  simp

theorem sqErr_nonneg (v y : List ℝ) : 0 ≤ sqErr v y := by
  unfold sqErr
  refine List.sum_nonneg fun d hd => ?_
  obtain ⟨e, -, rfl⟩ := List.mem_map.1 hd
  positivity

/-- Exact measurements: parameters whose curves are the measured stresses are a best fit. -/
theorem C76_exact (w : World Z) (op : Optimizer) (xs ys : List (List ℝ)) (p : List ℝ) (h : Curves w op xs p ys) :
    BestFit w op xs ys p := by
  refine ⟨_, ⟨ys, h, rfl⟩, ?_⟩
  rintro p' E' - ⟨vs, -, rfl⟩
  rw [sqErr_self]
  exact sqErr_nonneg _ _

/-- The parameters of a material are recovered from exact measurements of one uniaxial or biaxial
test at seven different stretches (and any other tests), from any initial guess. -/
theorem C76_recover (w w' : World Z) (o : ℕ) (hm : Matched (w.opts o)) (ht : TodTests w (w.opts o))
    (hpos : ∀ xs ys, FitData (w.opts o) xs ys → PositiveData xs) (solver : Solver) (hs : Solver.WellFormed solver)
    (hmin : Solver.StopsAtMinimum solver) (hk : Writable (w.params (w.opts o).parameters).kind) (r : ℕ)
    (pcov : List (List Num)) (h : curveFit o solver w = (.ok (r, pcov), w')) (p : List ℝ)
    (hp : ∀ xs ys, FitData (w.opts o) xs ys → Curves w (w.opts o) xs p ys ∧
      ∃ s x k, (s, x) ∈ (w.opts o).simulations.zip xs ∧ (k = .uniaxial ∨ k = .biaxial) ∧ TodTest (w.sims s).sim k ∧
        (w.sims s).sim.labels.Nodup ∧ DistinctStretches 7 x ∧ (w.sims s).sim.labels.length = p.length)
    (hlen : (w.params (w.opts o).parameters).vals.length = p.length) : (w'.params r).vals = p := by
  obtain ⟨xs, ys, hd, hb, hl, -⟩ := C76_curve_fit w w' o (fun xs ys h => tod_linear ht (hpos xs ys h)) solver hs hmin hk r pcov h
  obtain ⟨hc, s, x, k, h1, h2, h3, h4, h5, h6⟩ := hp xs ys hd
  have hu := C76_unique w _ hm ht xs ys hd (hpos xs ys hd) s x h1 k h2 h3 h4 h5
  rw [h6] at hu
  have hr : r = (w.opts o).parameters := by
    obtain ⟨_, _, _, _, _, _, _, hr, -⟩ := C47_coherent_partial w w' o solver hs hk r pcov h
    exact hr
  exact hu.unique ⟨by rw [hl, hr, hlen], hb⟩ ⟨rfl, C76_exact w _ xs ys p hc⟩

/-! ### such solvers exist, and with them fits return -/

open Classical in
/-- An ideal solver: it returns optimal parameters, if there are any. -/
noncomputable def bestSolver : Solver := fun F x y p0 =>
  if h : ∃ popt v, popt.length = p0.length ∧ F x popt = .ok v ∧
      ∀ p' v', p'.length = p0.length → F x p' = .ok v' → sqErr v y ≤ sqErr v' y then
    .ok (h.choose, List.replicate p0.length (List.replicate p0.length (some 0)))
  else .error .valueError

theorem bestSolver_wellFormed : Solver.WellFormed bestSolver := by
  intro F x y p0 popt pcov h
  unfold bestSolver at h
  split_ifs at h with hex
  cases h
  obtain ⟨v, h1, -⟩ := hex.choose_spec
  exact ⟨h1, by simp, by simp⟩

theorem bestSolver_stops : Solver.StopsAtMinimum bestSolver := by
  intro F x y p0 popt pcov h
  unfold bestSolver at h
  split_ifs at h with hex
  cases h
  obtain ⟨v, h1, h2, h3⟩ := hex.choose_spec
  exact ⟨v, h2, 1, one_pos, fun p' v' hc hv => h3 p' v' (hc.length_eq.symm.trans h1) hv⟩

/-- There is a solver with the assumed properties with which every fit of linear curves returns. -/
theorem C76_returns : ∃ solver : Solver, Solver.WellFormed solver ∧ Solver.StopsAtMinimum solver ∧
    ∀ (w : World Z) (o : ℕ) (xs ys : List (List ℝ)), Matched (w.opts o) → (w.opts o).experiments ≠ [] →
      LinearTests w (w.opts o) xs → FitData (w.opts o) xs ys →
      Writable (w.params (w.opts o).parameters).kind →
      ∃ pcov w', curveFit o solver w = (.ok ((w.opts o).parameters, pcov), w') := by
  refine ⟨bestSolver, bestSolver_wellFormed, bestSolver_stops, fun w o xs ys hm hne ht hd hk => ?_⟩
  obtain ⟨hsx, hsy⟩ := (fitData_iff _ _ _).2 hd
  obtain ⟨h1, h2⟩ := fitData_lengths hm hd
  have hys : ys ≠ [] := by
    rintro rfl
    have h3 := h1.length_eq
    rw [h2, hm.2.1, List.length_nil] at h3
    exact hne (List.length_eq_zero_iff.1 h3)
  have hev : ∀ p : List ℝ, ∃ vs, vs ≠ [] ∧ Curves w (w.opts o) xs p vs ∧
      w.evaluate (w.opts o).simulations xs p = .ok vs.flatten := by
    intro p
    obtain ⟨L, hL⟩ := curves_linear p.length w _ xs ht
    have hc := (hL p.get _).2 rfl
    rw [List.ofFn_get] at hc
    have hn : evalAll L p.get ≠ [] := by
      intro h
      rw [h] at hc
      have := hc.length_eq
      rw [List.length_zip, h2, min_self, List.length_nil, ← h2] at this
      rw [h1.length_eq] at this
      exact hys (List.length_eq_zero_iff.1 this)
    exact ⟨_, hn, hc, (World.evaluate_iff w _ xs _ _).2 ⟨_, hn, hc, rfl⟩⟩
  obtain ⟨vs, hvn, hvc, hve⟩ := hev (w.params (w.opts o).parameters).vals
  have hlen := curves_length hm hd hvc
  have hprep : Prep w o xs ys vs.flatten (List.zipWith (· - ·) vs.flatten ys.flatten) :=
    { hx := hsx, hy := hsy, hf := hve, hc := by rw [npConcatenate, if_neg hys],
      hd := by rw [npSub, if_pos hlen] }
  obtain ⟨d, hi⟩ : ∃ d, Prep w o xs ys vs.flatten d ∧
      initCurveFit o w = (.ok (w.opts o).parameters, prepared w o xs ys d) := by
    rcases init_cases w o with ⟨e, f, x, y, errs, -, h⟩ | ⟨x, y, f0, d, h, hi⟩
    · exact absurd ⟨_, _, _, _, hprep⟩ h
    · cases h.hx.symm.trans hsx
      cases h.hy.symm.trans hsy
      cases h.hf.symm.trans hve
      exact ⟨d, h, hi⟩
  obtain ⟨popt, hpl, E, ⟨us, huc, rfl⟩, hbest⟩ := C76_exists w _ xs ys ht (w.params (w.opts o).parameters).vals.length
  have hex : ∃ popt v, popt.length = (w.params (w.opts o).parameters).vals.length ∧
      objective w o xs xs.flatten popt = .ok v ∧
      ∀ p' v', p'.length = (w.params (w.opts o).parameters).vals.length → objective w o xs xs.flatten p' = .ok v' →
        sqErr v ys.flatten ≤ sqErr v' ys.flatten := by
    obtain ⟨us', hun, huc', hue⟩ := hev popt
    have huu : us' = us := by
      refine List.ext_getElem (huc'.length_eq.symm.trans huc.length_eq) fun i h3 h4 => ?_
      have hi : i < ((w.opts o).simulations.zip xs).length := huc'.length_eq ▸ h3
      have e1 := (List.forall₂_iff_get.1 huc').2 i hi h3
      have e2 := (List.forall₂_iff_get.1 huc).2 i hi h4
      exact Except.ok.inj (e1.symm.trans e2)
    subst huu
    refine ⟨popt, us'.flatten, hpl, hue, fun p' v' hp' hv' => ?_⟩
    obtain ⟨ws, -, hwc, rfl⟩ := (World.evaluate_iff w _ xs _ _).1 hv'
    exact hbest p' _ (hp'.trans hpl.symm) ⟨ws, hwc, rfl⟩
  obtain ⟨pc, hsol⟩ : ∃ pc, bestSolver (objective w o xs) xs.flatten ys.flatten
      (w.params (w.opts o).parameters).vals = .ok (hex.choose, pc) := by
    unfold bestSolver
    rw [dif_pos hex]
    exact ⟨_, rfl⟩
  rcases fit_cases hi.1 hi.2 bestSolver bestSolver_wellFormed with ⟨e, -, h⟩ | ⟨popt', pcov, fopt, obj, d', h3, h4, h5, h6, h7⟩
  · exfalso
    rcases h with h | ⟨popt', pcov, h3, h4⟩
    · cases hsol.symm.trans h
    · rcases h4 with h4 | ⟨-, h4⟩
      · obtain ⟨us, -, -, hue⟩ := hev popt'
        cases hue.symm.trans h4
      · have hl := (bestSolver_wellFormed _ _ _ _ _ _ h3).1
        obtain ⟨⟨kind, vals⟩, hpv⟩ : ∃ v, w.params (w.opts o).parameters = v := ⟨_, rfl⟩
        rw [hpv] at hk h4 hl
        rcases hk with hk | hk <;> simp only at hk hl <;> subst hk
        · cases h4
        · simp only [ParamObj.setAll, npFill, hl, if_true] at h4
          cases h4
  · exact ⟨_, _, h7⟩

/-! ### a concrete fit -/

/-- Seven measurements of a uniaxial test, two of a planar test, five parameters. -/
noncomputable def fiveSession : World Unit where
  params _ := { kind := .floatArray, vals := [1, 1, 1, 1, 1] }
  sims s := ⟨⟨if s = 0 then uniaxial none else planar none, [], ["C10", "C01", "C11", "C20", "C30"], todDeformation⟩, 0⟩
  opts _ := Optimizer.init [Experiment.init "" [1, 2, 3, 4, 5, 6, 7] [1, 2, 4, 8, 16, 32, 64],
    Experiment.init "" [1, 2] [1, 2]] [0, 1] 7

example : Matched (fiveSession.opts 0) ∧ TodTests fiveSession (fiveSession.opts 0) ∧
    Writable (fiveSession.params (fiveSession.opts 0).parameters).kind ∧
    ∃ xs ys, FitData (fiveSession.opts 0) xs ys ∧ PositiveData xs ∧ UniqueFit fiveSession (fiveSession.opts 0) xs ys 5 := by
  have hm : Matched (fiveSession.opts 0) := by
    refine ⟨rfl, rfl, fun e he => ?_⟩
    simp only [fiveSession, Optimizer.init, List.mem_cons, List.not_mem_nil, or_false] at he
    rcases he with rfl | rfl <;> rfl
  have ht : TodTests fiveSession (fiveSession.opts 0) := by
    intro s hs
    simp only [fiveSession, Optimizer.init, List.mem_cons, List.not_mem_nil, or_false] at hs
    rcases hs with rfl | rfl
    · exact ⟨.uniaxial, ⟨none, rfl⟩, Or.inl rfl, fun n h => h⟩
    · exact ⟨.planar, ⟨none, rfl⟩, Or.inl rfl, fun n h => h⟩
  have hd : FitData (fiveSession.opts 0) [[2, 3, 4, 5, 6, 7, 8], [2, 3]] [[1, 2, 4, 8, 16, 32, 64], [1, 2]] := by
    refine ⟨.cons ((selected_all _ _).2 ?_) (.cons ((selected_all _ _).2 ?_) .nil),
      .cons ((selected_all _ _).2 ?_) (.cons ((selected_all _ _).2 ?_) .nil)⟩ <;>
    · simp [Experiment.init]
      try norm_num
  have hx : PositiveData [[2, 3, 4, 5, 6, 7, 8], [2, 3]] := by
    intro x hx l hl
    simp only [List.mem_cons, List.not_mem_nil, or_false] at hx
    rcases hx with rfl | rfl <;> simp only [List.mem_cons, List.not_mem_nil, or_false] at hl
    · rcases hl with rfl | rfl | rfl | rfl | rfl | rfl | rfl <;> norm_num
    · rcases hl with rfl | rfl <;> norm_num
  refine ⟨hm, ht, Or.inr rfl, _, _, hd, hx, ?_⟩
  refine C76_unique fiveSession _ hm ht _ _ hd hx 0 [2, 3, 4, 5, 6, 7, 8] (List.mem_cons_self ..) .uniaxial (Or.inl rfl)
    ⟨⟨none, rfl⟩, Or.inl rfl, fun n h => h⟩ (by simp [fiveSession]) ⟨{2, 3, 4, 5, 6, 7, 8}, ?_, ?_⟩
  · norm_num
  · intro l hl
    simp only [Finset.mem_insert, Finset.mem_singleton] at hl
    rcases hl with rfl | rfl | rfl | rfl | rfl | rfl | rfl <;> norm_num

end Props
