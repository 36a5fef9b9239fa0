import Verif.Proofs.Ieee
import Verif.Props.RoundingLab

/-!
# Exact results in floating-point arithmetic (C81)

Rounding errors do not disturb the symmetry of the simplest deformations: with a diagonal deformation gradient the
computed stress is diagonal, equal stretches carry equal stresses bit by bit, and the simulated curves pass exactly
through zero at the undeformed state.
-/

namespace Props
open Spec Hel Rnd

section
variable {R : RoundingSqrt}

theorem fl_ext {S : Rounding} {x y : Fl S} (h : x.val = y.val) : x = y := by cases x; cases y; cases h; rfl

theorem mul_zero_fl {S : Rounding} {x y : Fl S} (h : y.val = 0) : (x * y).val = 0 := by
  have := S.mul_error x.val y.val
  rw [h, mul_zero, sub_zero, abs_zero, mul_zero] at this
  change S.mul x.val y.val = 0
  rw [h]
  exact abs_eq_zero.1 (le_antisymm this (abs_nonneg _))

theorem zero_mul_fl {S : Rounding} {x y : Fl S} (h : x.val = 0) : (x * y).val = 0 := by
  have := S.mul_error x.val y.val
  rw [h, zero_mul, sub_zero, abs_zero, mul_zero] at this
  change S.mul x.val y.val = 0
  rw [h]
  exact abs_eq_zero.1 (le_antisymm this (abs_nonneg _))

theorem add_zero_fl {S : Rounding} {x y : Fl S} (hx : x.val = 0) (hy : y.val = 0) : (x + y).val = 0 := by
  have := S.add_error x.val y.val
  rw [hx, hy, add_zero, sub_zero, abs_zero, mul_zero] at this
  change S.add x.val y.val = 0
  rw [hx, hy]
  exact abs_eq_zero.1 (le_antisymm this (abs_nonneg _))

theorem sub_self_fl {S : Rounding} {x y : Fl S} (h : x.val = y.val) : (x - y).val = 0 := by
  have := S.sub_error x.val y.val
  rw [h, sub_self, sub_zero, abs_zero, mul_zero] at this
  change S.sub x.val y.val = 0
  rw [h]
  exact abs_eq_zero.1 (le_antisymm this (abs_nonneg _))

theorem einsum_zero (S : Rounding) {ts : List (List ℝ)} (h : ∀ t ∈ ts, (0 : ℝ) ∈ t) : S.einsum ts = 0 := by
  have h1 := S.einsum_error ts (ts.map List.length).sum fun t ht =>
    List.single_le_sum (by simp) _ (List.mem_map.2 ⟨t, ht, rfl⟩)
  have e1 : (ts.map List.prod).sum = 0 := List.sum_eq_zero fun x hx => by
    obtain ⟨t, ht, rfl⟩ := List.mem_map.1 hx
    exact List.prod_eq_zero (h t ht)
  have e2 : (ts.map fun t => |t.prod|).sum = 0 := List.sum_eq_zero fun x hx => by
    obtain ⟨t, ht, rfl⟩ := List.mem_map.1 hx
    rw [List.prod_eq_zero (h t ht), abs_zero]
  rw [e1, e2, mul_zero, sub_zero] at h1
  exact abs_eq_zero.1 (le_antisymm h1 (abs_nonneg _))

/-- The stored tensor is diagonal. -/
def VDiag {S : Rounding} (X : Vec6 (Fl S)) : Prop := (X 3).val = 0 ∧ (X 4).val = 0 ∧ (X 5).val = 0

/-- The entry of the Voigt vector for a diagonal component. -/
def dg : Fin 3 → Fin 6 := ![0, 1, 2]

/-- A function of a diagonal tensor which returns a diagonal tensor and treats equal components equally. -/
structure Fair {S : Rounding} (C X : Vec6 (Fl S)) : Prop where
  diag : VDiag X
  same : ∀ i j, C (dg i) = C (dg j) → X (dg i) = X (dg j)

variable {S : Rounding} {C X Y : Vec6 (Fl S)}

theorem Fair.map (h : Fair C X) (f : Fl S → Fl S) (hf : ∀ x, x.val = 0 → (f x).val = 0) : Fair C fun a => f (X a) :=
  ⟨⟨hf _ h.diag.1, hf _ h.diag.2.1, hf _ h.diag.2.2⟩, fun i j e => congrArg f (h.same i j e)⟩

theorem Fair.map₂ (h : Fair C X) (h' : Fair C Y) (f : Fl S → Fl S → Fl S)
    (hf : ∀ x y, x.val = 0 → y.val = 0 → (f x y).val = 0) : Fair C fun a => f (X a) (Y a) :=
  ⟨⟨hf _ _ h.diag.1 h'.diag.1, hf _ _ h.diag.2.1 h'.diag.2.1, hf _ _ h.diag.2.2 h'.diag.2.2⟩,
    fun i j e => by change f _ _ = f _ _; rw [h.same i j e, h'.same i j e]⟩

theorem Fair.self (h : VDiag C) : Fair C C := ⟨h, fun _ _ e => e⟩

theorem Fair.eye : Fair C (Rnd.eye : Vec6 (Fl S)) := by
  refine ⟨⟨rfl, rfl, rfl⟩, fun i j _ => ?_⟩
  fin_cases i <;> fin_cases j <;> rfl

theorem sub_zero_fl {x y : Fl S} (hx : x.val = 0) (hy : y.val = 0) : (x - y).val = 0 := sub_self_fl (hx.trans hy.symm)

theorem Fair.addTerm (h : Fair C X) (h' : Fair C Y) (w : Option (Fl S)) : Fair C fun a => Rnd.addTerm (X a) w (Y a) := by
  cases w with
  | none => exact h
  | some w => exact h.map₂ h' (fun x y => x + w * y) fun x y hx hy => add_zero_fl hx (mul_zero_fl hy)

theorem Fair.trans (h : Fair C X) (h' : Fair X Y) : Fair C Y := ⟨h'.diag, fun i j e => h'.same i j (h.same i j e)⟩

theorem Fair.invGrad (h : VDiag C) (p : TOD ℝ) : Fair C (Rnd.invGrad p C) := by
  have h0 : Fair C fun _ => (lit 0 : Fl S) := ⟨⟨rfl, rfl, rfl⟩, fun _ _ _ => rfl⟩
  have h1 : Fair C (Rnd.dI2dC C) :=
    (Fair.eye (C := C)).map₂ (Fair.self h) (fun x y => Rnd.trace C * x - y) fun x y hx hy => sub_zero_fl (mul_zero_fl hx) hy
  exact (h0.addTerm Fair.eye _).addTerm h1 _

theorem Fair.inv (hc : ∀ x y, S.mul x y = S.mul y x) (h : VDiag C) {D : Fl S → Fl S} (hD : ∀ x, x.val = 0 → (D x).val = 0) :
    Fair C (Rnd.inv D C) := by
  obtain ⟨h3, h4, h5⟩ := h
  have e34 : C 3 = C 4 := fl_ext (h3.trans h4.symm)
  have e45 : C 4 = C 5 := fl_ext (h4.trans h5.symm)
  have hcom : ∀ x y : Fl S, x * y = y * x := fun x y => fl_ext (hc _ _)
  refine ⟨⟨hD _ (sub_zero_fl ?_ ?_), hD _ (sub_zero_fl ?_ ?_), hD _ (sub_zero_fl ?_ ?_)⟩, fun i j e => ?_⟩
  · exact zero_mul_fl h4
  · exact zero_mul_fl h3
  · exact zero_mul_fl h3
  · exact mul_zero_fl h4
  · exact zero_mul_fl h3
  · exact mul_zero_fl h5
  · have h01 : C 0 = C 1 → Rnd.inv D C 0 = Rnd.inv D C 1 := fun e => by
      change D (C 1 * C 2 - C 4 * C 4) = D (C 0 * C 2 - C 5 * C 5)
      rw [e, e45]
    have h12 : C 1 = C 2 → Rnd.inv D C 1 = Rnd.inv D C 2 := fun e => by
      change D (C 0 * C 2 - C 5 * C 5) = D (C 0 * C 1 - C 3 * C 3)
      rw [e, e34, e45]
    have h02 : C 0 = C 2 → Rnd.inv D C 0 = Rnd.inv D C 2 := fun e => by
      change D (C 1 * C 2 - C 4 * C 4) = D (C 0 * C 1 - C 3 * C 3)
      rw [e, e34, hcom (C 1)]
    fin_cases i <;> fin_cases j
    · rfl
    · exact h01 e
    · exact h02 e
    · exact (h01 e.symm).symm
    · rfl
    · exact h12 e
    · exact (h02 e.symm).symm
    · exact (h12 e.symm).symm
    · rfl

theorem Fair.scale (h : VDiag C) (t : Fl S) : Fair C fun a => t * C a := (Fair.self h).map (fun x => t * x) fun _ hx => mul_zero_fl hx

theorem Fair.defS (h : VDiag C) (p : TOD ℝ) : Fair C fun a => lit 2 * Rnd.invGrad p C a :=
  (Fair.invGrad h p).map (fun x => lit 2 * x) fun _ hx => mul_zero_fl hx

theorem Fair.Sb (h : VDiag C) (t : Fl S) (p : TOD ℝ) : Fair C fun a => lit 2 * t * Rnd.invGrad p (fun a => t * C a) a :=
  ((Fair.scale h t).trans (Fair.invGrad (Fair.scale h t).diag p)).map (fun x => lit 2 * t * x) fun _ hx => mul_zero_fl hx

theorem Fair.distS (hc : ∀ x y, S.mul x y = S.mul y x) (h : VDiag C) (t : Fl S) {D : Fl S → Fl S} (hD : ∀ x, x.val = 0 → (D x).val = 0)
    (p : TOD ℝ) : Fair C (Rnd.distS t D p C) :=
  (Fair.Sb h t p).map₂ (Fair.inv hc h hD) (fun x y => x - divNat (Rnd.ddot (fun a => lit 2 * t * Rnd.invGrad p (fun a => t * C a) a) C) 3 * y)
    fun _ _ hx hy => sub_zero_fl hx (mul_zero_fl hy)

theorem Fair.dilS (hc : ∀ x y, S.mul x y = S.mul y x) (h : VDiag C) (t : Fl S) {D : Fl S → Fl S} (hD : ∀ x, x.val = 0 → (D x).val = 0)
    (p : TOD ℝ) : Fair C (Rnd.dilS t D p C) :=
  (Fair.inv hc h hD).map (fun y => divNat (Rnd.trace (fun a => lit 2 * t * Rnd.invGrad p (fun a => t * C a) a)) 3 * y)
    fun _ hy => mul_zero_fl hy

end

section
variable {R : RoundingSqrt} (hR : Ieee R) {F : Full2 ℝ} (hF : IsDiagonal F)
include hR hF

theorem cauchyGreen_diag (i : Fin 3) : (Rnd.cauchyGreen (R.arr33 F) (dg i)).val = R.mul (F i i) (F i i) := by
  fin_cases i
  · change R.einsum ([] ++ [F 0 0, F 0 0] :: [[F 1 0, F 1 0], [F 2 0, F 2 0]]) = _
    exact hR.einsum_pair _ _ _ _ (by simp [hF 1 0 (by decide), hF 2 0 (by decide)])
  · change R.einsum ([[F 0 1, F 0 1]] ++ [F 1 1, F 1 1] :: [[F 2 1, F 2 1]]) = _
    exact hR.einsum_pair _ _ _ _ (by simp [hF 0 1 (by decide), hF 2 1 (by decide)])
  · change R.einsum ([[F 0 2, F 0 2], [F 1 2, F 1 2]] ++ [F 2 2, F 2 2] :: []) = _
    exact hR.einsum_pair _ _ _ _ (by simp [hF 0 2 (by decide), hF 1 2 (by decide)])

omit hR in
theorem cauchyGreen_off : VDiag (Rnd.cauchyGreen (R.arr33 F)) := by
  refine ⟨?_, ?_, ?_⟩
  · change R.einsum [[F 0 0, F 0 1], [F 1 0, F 1 1], [F 2 0, F 2 1]] = 0
    exact einsum_zero _ (by simp [hF 0 1 (by decide), hF 1 0 (by decide), hF 2 0 (by decide)])
  · change R.einsum [[F 0 1, F 0 2], [F 1 1, F 1 2], [F 2 1, F 2 2]] = 0
    exact einsum_zero _ (by simp [hF 0 1 (by decide), hF 1 2 (by decide), hF 2 1 (by decide)])
  · change R.einsum [[F 0 0, F 0 2], [F 1 0, F 1 2], [F 2 0, F 2 2]] = 0
    exact einsum_zero _ (by simp [hF 0 2 (by decide), hF 1 0 (by decide), hF 2 0 (by decide)])

theorem piola_diag {S : Vec6 (Fl R.toRounding)} (hS : VDiag S) (i : Fin 3) :
    (piolaStress (R.arr33 F) S i i).val = R.mul (F i i) (S (dg i)).val := by
  fin_cases i
  · change R.einsum ([] ++ [F 0 0, (S 0).val] :: [[F 0 1, (S 3).val], [F 0 2, (S 5).val]]) = _
    exact hR.einsum_pair _ _ _ _ (by simp [hF 0 1 (by decide), hF 0 2 (by decide)])
  · change R.einsum ([[F 1 0, (S 3).val]] ++ [F 1 1, (S 1).val] :: [[F 1 2, (S 4).val]]) = _
    exact hR.einsum_pair _ _ _ _ (by simp [hF 1 0 (by decide), hF 1 2 (by decide)])
  · change R.einsum ([[F 2 0, (S 5).val], [F 2 1, (S 4).val]] ++ [F 2 2, (S 2).val] :: []) = _
    exact hR.einsum_pair _ _ _ _ (by simp [hF 2 0 (by decide), hF 2 1 (by decide)])

omit hR in
theorem piola_off {S : Vec6 (Fl R.toRounding)} (hS : VDiag S) : IsDiagonal fun i j => (piolaStress (R.arr33 F) S i j).val := by
  intro i j hij
  have h : ∀ I, F i I = 0 ∨ (S (tab I j)).val = 0 := fun I => by
    by_cases hI : i = I
    · subst hI
      right
      obtain ⟨h3, h4, h5⟩ := hS
      fin_cases i <;> fin_cases j <;> first | exact absurd rfl hij | exact h3 | exact h4 | exact h5
    · exact Or.inl (hF i I hI)
  change R.einsum [[F i 0, (S (tab 0 j)).val], [F i 1, (S (tab 1 j)).val], [F i 2, (S (tab 2 j)).val]] = 0
  refine einsum_zero _ fun t ht => ?_
  simp only [List.mem_cons, List.not_mem_nil, or_false] at ht
  rcases ht with rfl | rfl | rfl
  · rcases h 0 with h | h <;> simp [h]
  · rcases h 1 with h | h <;> simp [h]
  · rcases h 2 with h | h <;> simp [h]

/-- The stress which is computed from a fair second Piola-Kirchhoff stress. -/
theorem piola_fair {S : Vec6 (Fl R.toRounding)} (hS : Fair (Rnd.cauchyGreen (R.arr33 F)) S) :
    (IsDiagonal fun i j => (piolaStress (R.arr33 F) S i j).val) ∧
    (∀ i j, F i i = F j j → (piolaStress (R.arr33 F) S i i).val = (piolaStress (R.arr33 F) S j j).val) ∧
    ∀ i, ∃ x y, (piolaStress (R.arr33 F) S i i).val = R.mul x y := by
  refine ⟨piola_off hF hS.diag, fun i j e => ?_, fun i => ⟨_, _, piola_diag hR hF hS.diag i⟩⟩
  rw [piola_diag hR hF hS.diag, piola_diag hR hF hS.diag, e]
  rw [hS.same i j (fl_ext (by rw [cauchyGreen_diag hR hF, cauchyGreen_diag hR hF, e]))]

end

theorem nonzero_of_error {u x y : ℝ} (hu : u < 1) (hx : x ≠ 0) (h : |y - x| ≤ u * |x|) : y ≠ 0 := by
  rintro rfl
  rw [zero_sub, abs_neg] at h
  have := abs_pos.2 hx
  nlinarith

/-- The computed determinant of a diagonal deformation gradient does not vanish. -/
theorem det_nonzero {R : RoundingSqrt} (hR : Ieee R) (hu : R.u < 1) {F : Full2 ℝ} (hF : IsDiagonal F) (h0 : ∀ i, F i i ≠ 0) :
    (Rnd.det (Rnd.cauchyGreen (R.arr33 F))).val ≠ 0 := by
  obtain ⟨h3, h4, h5⟩ := cauchyGreen_off (R := R) hF
  have hd : ∀ i, (Rnd.cauchyGreen (R.arr33 F) (dg i)).val ≠ 0 := fun i => by
    rw [cauchyGreen_diag hR hF]
    exact nonzero_of_error hu (mul_ne_zero (h0 i) (h0 i)) (R.mul_error _ _)
  set C := Rnd.cauchyGreen (R.arr33 F)
  have hsq : ∀ x : Fl R.toRounding, x.val = 0 → (sq x).val = 0 := fun x hx => by
    have := R.sq_error x.val
    rw [hx] at this
    change R.sq x.val = 0
    rw [hx]
    simpa using this
  have m0 : ∀ {x y : Fl R.toRounding}, x.val ≠ 0 → y.val ≠ 0 → (x * y).val ≠ 0 := fun hx hy =>
    nonzero_of_error hu (mul_ne_zero hx hy) (R.mul_error _ _)
  have a0 : ∀ {x y : Fl R.toRounding}, x.val ≠ 0 → y.val = 0 → (x + y).val ≠ 0 := fun {x y} hx hy =>
    nonzero_of_error hu (x := x.val + y.val) (by rwa [hy, add_zero]) (R.add_error _ _)
  have s0 : ∀ {x y : Fl R.toRounding}, x.val ≠ 0 → y.val = 0 → (x - y).val ≠ 0 := fun {x y} hx hy =>
    nonzero_of_error hu (x := x.val - y.val) (by rwa [hy, sub_zero]) (R.sub_error _ _)
  unfold Rnd.det
  exact s0 (s0 (s0 (a0 (m0 (m0 (hd 0) (hd 1)) (hd 2)) (mul_zero_fl h5)) (zero_mul_fl (hsq _ h4))) (zero_mul_fl (hsq _ h5)))
    (zero_mul_fl (hsq _ h3))

/-! ### C81 -/

section
variable {R : RoundingSqrt} (hR : Ieee R) (p : TOD ℝ) {F : Full2 ℝ} (hF : IsDiagonal F)
include hR hF

theorem deformation_fair : IsDiagonal (R.deformationGradient p F) ∧
    (∀ i j, F i i = F j j → R.deformationGradient p F i i = R.deformationGradient p F j j) ∧
    ∀ i, ∃ x y, R.deformationGradient p F i i = R.mul x y :=
  piola_fair hR hF (Fair.defS (cauchyGreen_off hF) p)

theorem divBy_zero (hu : R.u < 1) (h0 : ∀ i, F i i ≠ 0) (x : Fl R.toRounding) (hx : x.val = 0) :
    (R.divBy (Rnd.det (Rnd.cauchyGreen (R.arr33 F))) x).val = 0 := by
  have := R.div_error x.val _ (det_nonzero hR hu hF h0)
  change R.div x.val _ = 0
  rw [hx] at this ⊢
  simpa using this

theorem distortional_fair (hu : R.u < 1) (h0 : ∀ i, F i i ≠ 0) : IsDiagonal (R.distortionalGradient p F) ∧
    (∀ i j, F i i = F j j → R.distortionalGradient p F i i = R.distortionalGradient p F j j) ∧
    ∀ i, ∃ x y, R.distortionalGradient p F i i = R.mul x y :=
  piola_fair hR hF (Fair.distS hR.mul_comm (cauchyGreen_off hF) _ (divBy_zero hR hF hu h0) p)

/-- The deformation space: no shear stresses, equal stresses for equal stretches. -/
theorem C81_deformation : IsDiagonal (R.deformationGradient p F) ∧
    ∀ i j, F i i = F j j → R.deformationGradient p F i i = R.deformationGradient p F j j :=
  ⟨(deformation_fair hR p hF).1, (deformation_fair hR p hF).2.1⟩

/-- The distortional space. -/
theorem C81_distortional (hu : R.u < 1) (h0 : ∀ i, F i i ≠ 0) : IsDiagonal (R.distortionalGradient p F) ∧
    ∀ i j, F i i = F j j → R.distortionalGradient p F i i = R.distortionalGradient p F j j :=
  ⟨(distortional_fair hR p hF hu h0).1, (distortional_fair hR p hF hu h0).2.1⟩

/-- The dilatational space. -/
theorem C81_dilatational (hu : R.u < 1) (h0 : ∀ i, F i i ≠ 0) : IsDiagonal (R.dilatationalGradient p F) ∧
    ∀ i j, F i i = F j j → R.dilatationalGradient p F i i = R.dilatationalGradient p F j j :=
  have h := piola_fair hR hF (Fair.dilS hR.mul_comm (cauchyGreen_off hF) _ (divBy_zero hR hF hu h0) p)
  ⟨h.1, h.2.1⟩

end

theorem computedF_diagonal (R : RoundingSqrt) (k : LoadKind) (l : ℝ) : IsDiagonal (k.computedF R l) := by
  intro i j hij
  cases k <;> fin_cases i <;> fin_cases j <;> first | exact absurd rfl hij | rfl

theorem computedF_one {R : RoundingSqrt} (hR : Ieee R) (k : LoadKind) (i : Fin 3) : k.computedF R 1 i i = 1 := by
  cases k
  · have h : R.div 1 (R.sqrt 1) = 1 := by rw [hR.sqrt_one, hR.one_div_one]
    fin_cases i <;> first | rfl | exact h
  · have h := hR.one_div_one
    fin_cases i <;> first | rfl | exact h
  · have h : R.div 1 (R.sq 1) = 1 := by rw [hR.sq_one, hR.one_div_one]
    fin_cases i <;> first | rfl | exact h

theorem stress_zero {R : RoundingSqrt} (hR : Ieee R) {F P : Full2 ℝ} (h0 : F 0 0 = 1) (h2 : F 2 2 = 1) (e : P 0 0 = P 2 2)
    (hm : ∃ x y, P 2 2 = R.mul x y) : R.stress F P = 0 := by
  obtain ⟨x, y, hxy⟩ := hm
  refine sub_self_fl (S := R.toRounding) ?_
  change P 0 0 = R.div (R.mul (P 2 2) (F 2 2)) (F 0 0)
  rw [h0, h2, e, hxy, hR.mul_one, hR.div_one]

/-- The curves of all load cases, as computed in floating-point arithmetic, pass exactly through zero. -/
theorem C81_zero {R : RoundingSqrt} (hR : Ieee R) (hu : R.u < 1) (k : LoadKind) (p : TOD ℝ) :
    R.deformationCurve (k.computedF R) p 1 = 0 ∧ R.distortionalCurve (k.computedF R) p 1 = 0 := by
  have hF := computedF_diagonal R k 1
  have h1 := computedF_one hR k
  have e := (h1 0).trans (h1 2).symm
  have h0 : ∀ i, k.computedF R 1 i i ≠ 0 := fun i => by rw [h1]; exact one_ne_zero
  obtain ⟨-, a1, a2⟩ := deformation_fair hR p hF
  obtain ⟨-, b1, b2⟩ := distortional_fair hR p hF hu h0
  exact ⟨stress_zero hR (h1 0) (h1 2) (a1 0 2 e) (a2 2), stress_zero hR (h1 0) (h1 2) (b1 0 2 e) (b2 2)⟩

/-- Uniaxial tension: the two transverse stresses are the same number; equi-biaxial tension: so are the two stresses in the
plane; at every stretch. -/
theorem C81_transverse {R : RoundingSqrt} (hR : Ieee R) (p : TOD ℝ) (l : ℝ) :
    R.deformationGradient p (R.uniaxialDefgrad l) 1 1 = R.deformationGradient p (R.uniaxialDefgrad l) 2 2 ∧
    R.deformationGradient p (R.biaxialDefgrad l) 0 0 = R.deformationGradient p (R.biaxialDefgrad l) 1 1 :=
  ⟨(C81_deformation hR p (computedF_diagonal R .uniaxial l)).2 1 2 rfl,
    (C81_deformation hR p (computedF_diagonal R .biaxial l)).2 0 1 rfl⟩

/-- An experiment without displacement has the stretch one, and one without force the stress zero. -/
theorem C81_experiment {R : RoundingSqrt} (hR : Ieee R) {length area : ℝ} (hl : length ≠ 0) (ha : area ≠ 0) :
    R.experimentStretch length 0 = 1 ∧ R.experimentStress area 0 = 0 := by
  have h : ∀ {d : ℝ}, d ≠ 0 → R.div 0 d = 0 := fun {d} hd => by simpa using R.div_error 0 d hd
  constructor
  · rw [RoundingSqrt.experimentStretch, h hl, hR.one_add_zero]
  · exact h ha

/-- The laws hold for every order of the sums, with or without fused multiply-adds. -/
theorem C81_any_order (O : Operations) (hO : IeeeOps O) (pow : ℝ → ℝ → ℝ)
    (hpow : ∀ x y, 0 < x → |pow x y - x ^ y| ≤ ((1 + O.u) ^ 2 - 1) * x ^ y) (einsum : List (List ℝ) → ℝ)
    (h : ∀ ts, SumOf O.add O.mul O.fma ts (einsum ts)) (sqrt : ℝ → ℝ) (hs : ∀ x, 0 < x → |sqrt x - √x| ≤ O.u * √x)
    (h1 : sqrt 1 = 1) : Ieee ⟨.ofOperations O pow hpow einsum h, sqrt, hs⟩ where
  mul_comm := hO.mul_comm
  mul_one := hO.mul_one
  div_one := hO.div_one
  one_div_one := hO.one_div_one
  sq_one := hO.one_mul_one
  sqrt_one := h1
  one_add_zero := O.add_zero 1
  einsum_pair l r x y h0 := (h _).single hO x y (l ++ r) List.perm_middle h0

/-- Double precision. -/
theorem C81_double : Ieee binary64Sqrt :=
  C81_any_order Binary64.operations Binary64.ieeeOps _ _ _ _ _ _
    (by change Binary64.rn (√1) = 1; rw [Real.sqrt_one, Binary64.rn_num Binary64.isNum_one])

/-! The undeformed state in the distortional space: equal stresses, but not always zero. -/

open Binary64 in
theorem rn_of {x : ℝ} (e n : ℤ) (h1 : (2 : ℝ) ^ (e + 52) ≤ x) (h2 : x < 2 ^ (e + 53)) (hn : nearestEven (x / 2 ^ e) = n) :
    rn x = n * 2 ^ e := by
  have hx : 0 < x := lt_of_lt_of_le (by positivity) h1
  have hlog : Int.log 2 |x| = e + 52 := by
    rw [abs_of_pos hx]
    refine le_antisymm ?_ ?_
    · have := (Int.lt_zpow_iff_log_lt (b := 2) (by norm_num) hx (x := e + 53)).1 (by exact_mod_cast h2)
      omega
    · exact (Int.zpow_le_iff_le_log (b := 2) (by norm_num) hx).1 (by exact_mod_cast h1)
  have : ulp x = 2 ^ e := by rw [ulp, hlog, add_sub_cancel_right]
  rw [rn, this, hn]

open Binary64 in
theorem nearestEven_half (n : ℤ) : nearestEven (2 * n + 1 / 2) = 2 * n := by
  have hf : ⌊(2 * n + 1 / 2 : ℝ)⌋ = 2 * n := by
    rw [Int.floor_eq_iff]
    push_cast
    constructor <;> linarith
  have hfr : Int.fract (2 * n + 1 / 2 : ℝ) = 1 / 2 := by
    rw [Int.fract, hf]
    push_cast
    ring
  rw [nearestEven, if_pos hfr, hf]
  omega

open Binary64 in
theorem nearestEven_near {y : ℝ} {n : ℤ} (h : |y - n| < 1 / 2) : nearestEven y = n := by
  have h1 := nearestEven_error y
  have h2 : |((nearestEven y - n : ℤ) : ℝ)| < 1 := by
    push_cast
    have := abs_sub_le ((nearestEven y : ℤ) : ℝ) y n
    linarith
  have h3 : |nearestEven y - n| < 1 := by exact_mod_cast h2
  have := Int.abs_lt_one_iff.1 h3
  omega

open Binary64 in
theorem thirds : rn (rn (3 * (2 - 2 ^ (-51 : ℤ))) / 3) = 2 - 3 * 2 ^ (-52 : ℤ) := by
  have e1 : rn (3 * (2 - 2 ^ (-51 : ℤ))) = 6 - 2 ^ (-49 : ℤ) := by
    rw [rn_of (-50) (2 * (3 * 2 ^ 50 - 1)) (by norm_num) (by norm_num)]
    · norm_num
    · rw [← nearestEven_half]
      congr 1
      norm_num
  have e2 : rn ((6 - 2 ^ (-49 : ℤ)) / 3) = 2 - 3 * 2 ^ (-52 : ℤ) := by
    rw [rn_of (-52) (2 ^ 53 - 3) (by norm_num) (by norm_num)]
    · norm_num
    · refine nearestEven_near ?_
      norm_num [abs_lt]
  rw [e1, e2]

section
open Binary64

theorem fl_add_zero (x : ℝ) : add x 0 = x := by unfold Binary64.add; split <;> simp_all
theorem fl_zero_add (x : ℝ) : add 0 x = x := by unfold Binary64.add; simp

theorem binary_one : binary64Sqrt.mul 1 1 = 1 := Binary64.ieeeOps.one_mul_one

theorem isNum_two : IsNum 2 := ⟨2, 0, by norm_num, by norm_num⟩

/-- The computed distortional stress of the undeformed state is hydrostatic, but it is not always exactly zero: an example
in double precision, where the third of three times a number differs from the number. -/
theorem C81_undeformed : binary64Sqrt.distortionalGradient (TOD.init (1 - 2 ^ (-52 : ℤ)) 0 0 0 0 false) (1 : Ten2 ℝ) =
    (2 ^ (-52 : ℤ) : ℝ) • (1 : Ten2 ℝ) := by
  set c : ℝ := 1 - 2 ^ (-52 : ℤ) with hc
  have hc0 : c ≠ 0 := by rw [hc]; norm_num
  have hcn : IsNum c := ⟨2 ^ 52 - 1, -52, by norm_num, by rw [hc]; norm_num⟩
  have hbn : IsNum (2 * c) := ⟨2 ^ 52 - 1, -51, by norm_num, by rw [hc]; norm_num⟩
  have hbn2 : IsNum (2 * c + 2 * c) := ⟨2 ^ 52 - 1, -50, by norm_num, by rw [hc]; norm_num⟩
  have hlast : rn (2 * c - (2 - 3 * 2 ^ (-52 : ℤ))) = 2 ^ (-52 : ℤ) := by
    rw [show 2 * c - (2 - 3 * 2 ^ (-52 : ℤ)) = 2 ^ (-52 : ℤ) by rw [hc]; norm_num]
    exact rn_num ⟨1, -52, by norm_num, by norm_num⟩
  have hF : IsDiagonal (1 : Ten2 ℝ) := fun i j h => Matrix.one_apply_ne h
  have h0 : ∀ i, (1 : Ten2 ℝ) i i ≠ 0 := fun i => by rw [Matrix.one_apply_eq]; exact one_ne_zero
  have hu : binary64Sqrt.u < 1 := by
    change (2 : ℝ) ^ (-53 : ℤ) < 1
    norm_num
  obtain ⟨h1, h2⟩ := C81_distortional C81_double (TOD.init c 0 0 0 0 false) hF hu h0
  have key : binary64Sqrt.distortionalGradient (TOD.init c 0 0 0 0 false) (1 : Ten2 ℝ) 0 0 = 2 ^ (-52 : ℤ) := by
    have r0 : rn 0 = 0 := rn_zero
    have r1 : rn 1 = 1 := rn_num isNum_one
    have r2 : rn 2 = 2 := rn_num isNum_two
    have rc : rn c = c := rn_num hcn
    have rb : rn (2 * c) = 2 * c := rn_num hbn
    have rbb : rn (2 * c + 2 * c) = 2 * c + 2 * c := rn_num hbn2
    let R := binary64Sqrt.toRounding
    have fmul : ∀ a b : ℝ, (⟨a⟩ : Fl R) * ⟨b⟩ = ⟨rn (a * b)⟩ := fun _ _ => rfl
    have fadd : ∀ a b : ℝ, (⟨a⟩ : Fl R) + ⟨b⟩ = ⟨add a b⟩ := fun _ _ => rfl
    have fsub : ∀ a b : ℝ, (⟨a⟩ : Fl R) - ⟨b⟩ = ⟨rn (a - b)⟩ := fun _ _ => rfl
    have flit : ∀ a : ℝ, (lit a : Fl R) = ⟨a⟩ := fun _ => rfl
    have fsq : ∀ a : ℝ, (sq ⟨a⟩ : Fl R) = ⟨rn (a * a)⟩ := fun _ => rfl
    have fdiv : ∀ (a : ℝ) (n : ℕ+), (divNat ⟨a⟩ n : Fl R) = ⟨rn (a / (n : ℕ))⟩ := fun _ _ => rfl
    have fsum : ∀ ts : List (List (Fl R)), (einsum ts : Fl R) = ⟨inOrder add (fun x y => rn (x * y)) (ts.map fun t => t.map Fl.val)⟩ :=
      fun _ => rfl
    have hC : Rnd.cauchyGreen (R.arr33 (1 : Ten2 ℝ)) = (eye : Vec6 (Fl R)) := by
      obtain ⟨k3, k4, k5⟩ := cauchyGreen_off (R := binary64Sqrt) hF
      have kd := cauchyGreen_diag C81_double hF
      have kd' : ∀ i, (Rnd.cauchyGreen (binary64Sqrt.arr33 (1 : Ten2 ℝ)) (dg i)).val = 1 := fun i => by
        rw [kd, Matrix.one_apply_eq]
        exact binary_one
      funext a
      fin_cases a
      · exact fl_ext (kd' 0)
      · exact fl_ext (kd' 1)
      · exact fl_ext (kd' 2)
      · exact fl_ext k3
      · exact fl_ext k4
      · exact fl_ext k5
    have hdet : Rnd.det (eye : Vec6 (Fl R)) = ⟨1⟩ := by
      simp [Rnd.det, Rnd.eye, fmul, fadd, fsub, flit, fsq, r0, r1, fl_add_zero]
    have ht : (⟨R.pow 1 (R.div (-1) 3)⟩ : Fl R) = ⟨1⟩ := by
      refine fl_ext ?_
      change rn (1 ^ _) = 1
      rw [Real.one_rpow, r1]
    have hCu : (fun a => (⟨1⟩ : Fl R) * Rnd.eye a) = (Rnd.eye : Vec6 (Fl R)) := by
      funext a
      fin_cases a <;> simp [Rnd.eye, fmul, flit, r0, r1]
    have hd1 : ∀ I1 I2 : Fl R, todD1 (TOD.init c 0 0 0 0 false) I1 I2 = some ⟨c⟩ := fun I1 I2 => by
      simp [todD1, TOD.init, hc0, addIf, flit, fadd, fl_zero_add]
    have hd2 : ∀ I1 : Fl R, todD2 (TOD.init c 0 0 0 0 false) I1 = none := fun I1 => by
      simp [todD2, TOD.init]
    have hdW : Rnd.invGrad (TOD.init c 0 0 0 0 false) (Rnd.eye : Vec6 (Fl R)) = ![⟨c⟩, ⟨c⟩, ⟨c⟩, ⟨0⟩, ⟨0⟩, ⟨0⟩] := by
      funext a
      unfold Rnd.invGrad
      rw [hd1, hd2]
      fin_cases a <;> simp [Rnd.addTerm, Rnd.eye, fmul, fadd, flit, r0, rc, fl_zero_add]
    have hSb : (fun a => (lit 2 : Fl R) * ⟨1⟩ * Rnd.invGrad (TOD.init c 0 0 0 0 false) (fun a => (⟨1⟩ : Fl R) * Rnd.eye a) a) =
        ![⟨2 * c⟩, ⟨2 * c⟩, ⟨2 * c⟩, ⟨0⟩, ⟨0⟩, ⟨0⟩] := by
      rw [hCu, hdW]
      funext a
      fin_cases a <;> simp [fmul, flit, r0, r2, rb]
    have h3 : rn (2 * c + 2 * c + 2 * c) = rn (3 * (2 - 2 ^ (-51 : ℤ))) := by
      congr 1
      rw [hc]; norm_num
    have hSbC : Rnd.ddot ![⟨2 * c⟩, ⟨2 * c⟩, ⟨2 * c⟩, ⟨0⟩, ⟨0⟩, ⟨0⟩] (Rnd.eye : Vec6 (Fl R)) = ⟨rn (3 * (2 - 2 ^ (-51 : ℤ)))⟩ := by
      have e1 : add (2 * c) (2 * c) = 2 * c + 2 * c := by rw [add_num hbn hbn, rbb]
      have e2 : add (2 * c + 2 * c) (2 * c) = rn (3 * (2 - 2 ^ (-51 : ℤ))) := by rw [add_num hbn2 hbn, h3]
      generalize rn (3 * (2 - 2 ^ (-51 : ℤ))) = X at e2 ⊢
      simp [Rnd.ddot, sum6, fsum, inOrder, productInOrder, Rnd.eye, Rnd.weights, flit, r0, rb, fl_zero_add, fl_add_zero, e1, e2]
    have hinv : Rnd.inv (R.divBy ⟨1⟩) (Rnd.eye : Vec6 (Fl R)) 0 = ⟨1⟩ := by
      have hdv : ∀ a : ℝ, R.divBy ⟨1⟩ ⟨a⟩ = ⟨rn (a / 1)⟩ := fun _ => rfl
      simp [Rnd.inv, Rnd.eye, flit, fmul, fsub, r0, r1, hdv]
    have hS : Rnd.distS (⟨1⟩ : Fl R) (R.divBy ⟨1⟩) (TOD.init c 0 0 0 0 false) (Rnd.eye : Vec6 (Fl R)) 0 = ⟨2 ^ (-52 : ℤ)⟩ := by
      have e : (lit 2 : Fl R) * ⟨1⟩ * Rnd.invGrad (TOD.init c 0 0 0 0 false) (fun a => (⟨1⟩ : Fl R) * Rnd.eye a) 0 = ⟨2 * c⟩ :=
        congrFun hSb 0
      unfold Rnd.distS
      simp only [e, hSb, hSbC, hinv]
      simp only [fdiv, fmul, mul_one]
      rw [show ((3 : ℕ+) : ℕ) = 3 from rfl, Nat.cast_ofNat, thirds]
      change (⟨rn (2 * c - rn (2 - 3 * 2 ^ (-52 : ℤ)))⟩ : Fl R) = _
      rw [← thirds, rn_num (num_rn _), thirds, hlast]
    have hp := piola_diag C81_double hF (S := Rnd.distS (⟨R.pow (Rnd.det (Rnd.cauchyGreen (R.arr33 (1 : Ten2 ℝ)))).val (R.div (-1) 3)⟩ : Fl R)
      (R.divBy (Rnd.det (Rnd.cauchyGreen (R.arr33 (1 : Ten2 ℝ))))) (TOD.init c 0 0 0 0 false) (Rnd.cauchyGreen (R.arr33 (1 : Ten2 ℝ))))
      (Fair.distS C81_double.mul_comm (cauchyGreen_off hF) _ (divBy_zero C81_double hF hu h0) _).diag 0
    refine hp.trans ?_
    rw [hC, hdet, ht]
    change rn ((1 : Ten2 ℝ) 0 0 * (Rnd.distS (⟨1⟩ : Fl R) (R.divBy ⟨1⟩) (TOD.init c 0 0 0 0 false) (Rnd.eye : Vec6 (Fl R)) 0).val) = _
    rw [hS, Matrix.one_apply_eq, one_mul]
    exact rn_num ⟨1, -52, by norm_num, by norm_num⟩
  ext i j
  by_cases hij : i = j
  · subst hij
    rw [h2 i 0 (by rw [Matrix.one_apply_eq, Matrix.one_apply_eq]), key]
    simp
  · rw [h1 i j hij]
    simp [hij]

end

/-- The hypotheses are met: double precision, a stretched body with two equal stretches. -/
example : Ieee binary64Sqrt ∧ binary64Sqrt.u < 1 ∧ ∃ F : Full2 ℝ, IsDiagonal F ∧ (∀ i, F i i ≠ 0) ∧ F 0 0 = 2 ∧ F 1 1 = F 2 2 := by
  refine ⟨C81_double, ?_, ![![2, 0, 0], ![0, 3 / 4, 0], ![0, 0, 3 / 4]], fun i j h => ?_, fun i => ?_, rfl, rfl⟩
  · change (2 : ℝ) ^ (-53 : ℤ) < 1
    norm_num
  · fin_cases i <;> fin_cases j <;> first | exact absurd rfl h | rfl
  · fin_cases i <;> simp

end Props
