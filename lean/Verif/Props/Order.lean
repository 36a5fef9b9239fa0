import Verif.Spec.Order
import Verif.Props.Initial

/-! # Property C71: the larger principal stretch carries the larger principal Cauchy stress -/

namespace Props
open Spec Hel Matrix

variable {Z μ : Type}

/-- the same property of the tensors handed to and returned by a material -/
def Grows (C G : Ten2 ℝ) : Prop := ∀ (p q : Fin 3 → ℝ) (x y : ℝ), C *ᵥ p = x • p → C *ᵥ q = y • q → p ⬝ᵥ p = x → q ⬝ᵥ q = y →
  0 < x → 0 < y → x ≤ y → p ⬝ᵥ (G *ᵥ p) ≤ q ⬝ᵥ (G *ᵥ q)

theorem order_of_grows {F S : Ten2 ℝ} (hF : F.det ≠ 0) (h : Grows (cauchyGreen F) S) {k : ℝ} (hk : 0 ≤ k) :
    PrincipalOrder F (k • (F * S * Fᵀ)) := by
  have eig : ∀ (u : Fin 3 → ℝ) (x : ℝ), (F * Fᵀ) *ᵥ u = x • u → cauchyGreen F *ᵥ (Fᵀ *ᵥ u) = x • (Fᵀ *ᵥ u) := by
    intro u x hu
    have : Fᵀ *ᵥ ((F * Fᵀ) *ᵥ u) = x • (Fᵀ *ᵥ u) := by rw [hu, mulVec_smul]
    rw [← this, cauchyGreen]
    simp only [mulVec_mulVec, Matrix.mul_assoc]
  have sq : ∀ (u : Fin 3 → ℝ) (A : Ten2 ℝ), (Fᵀ *ᵥ u) ⬝ᵥ (A *ᵥ (Fᵀ *ᵥ u)) = u ⬝ᵥ ((F * A * Fᵀ) *ᵥ u) := by
    intro u A
    rw [mulVec_transpose, ← dotProduct_mulVec]
    simp only [mulVec_mulVec, Matrix.mul_assoc, ← mulVec_transpose]
  have len : ∀ (u : Fin 3 → ℝ) (x : ℝ), u ⬝ᵥ u = 1 → (F * Fᵀ) *ᵥ u = x • u → (Fᵀ *ᵥ u) ⬝ᵥ (Fᵀ *ᵥ u) = x := by
    intro u x h1 hu
    have := sq u 1
    rw [one_mulVec, Matrix.mul_one, hu, dotProduct_smul, h1, smul_eq_mul, mul_one] at this
    exact this
  have pos : ∀ (u : Fin 3 → ℝ) (x : ℝ), u ⬝ᵥ u = 1 → (F * Fᵀ) *ᵥ u = x • u → 0 < x := by
    intro u x h1 hu
    rw [← len u x h1 hu]
    have h0 : Fᵀ *ᵥ u ≠ 0 := by
      intro k0
      have hu' : IsUnit (Fᵀ).det := isUnit_iff_ne_zero.2 (by rwa [det_transpose])
      have : u = 0 := by
        have e := congrArg (fun y => (Fᵀ)⁻¹ *ᵥ y) k0
        simpa [mulVec_mulVec, nonsing_inv_mul _ hu'] using e
      rw [this] at h1
      simp at h1
    rcases (Finset.sum_nonneg fun i _ => mul_self_nonneg ((Fᵀ *ᵥ u) i) : 0 ≤ (Fᵀ *ᵥ u) ⬝ᵥ (Fᵀ *ᵥ u)).lt_or_eq with h | h
    · exact h
    · exact absurd (dotProduct_self_eq_zero.1 h.symm) h0
  intro u v x y hu hv ex ey hxy
  have := h _ _ x y (eig u x ex) (eig v y ey) (len u x hu ex) (len v y hv ey) (pos u x hu ex) (pos v y hv ey) hxy
  rw [sq, sq] at this
  rw [smul_mulVec, smul_mulVec, dotProduct_smul, dotProduct_smul]
  exact mul_le_mul_of_nonneg_left this hk

/-- `p · C⁻¹ p = 1` -/
theorem inv_eig {C : Ten2 ℝ} (hC : C.det ≠ 0) {p : Fin 3 → ℝ} {x : ℝ} (h : C *ᵥ p = x • p) (hp : p ⬝ᵥ p = x) (hx : 0 < x) :
    p ⬝ᵥ (C⁻¹ *ᵥ p) = 1 := by
  have e : C⁻¹ *ᵥ p = x⁻¹ • p := by
    have : C⁻¹ *ᵥ (C *ᵥ p) = x • (C⁻¹ *ᵥ p) := by rw [h, mulVec_smul]
    rw [mulVec_mulVec, nonsing_inv_mul _ (isUnit_iff_ne_zero.2 hC), one_mulVec] at this
    rw [eq_inv_smul_iff₀ hx.ne']
    exact this.symm
  rw [e, dotProduct_smul, hp, smul_eq_mul, inv_mul_cancel₀ hx.ne']

theorem Grows.smul {C G : Ten2 ℝ} (h : Grows C G) {k : ℝ} (hk : 0 ≤ k) : Grows C (k • G) := by
  intro p q x y h1 h2 h3 h4 h5 h6 h7
  rw [smul_mulVec, smul_mulVec, dotProduct_smul, dotProduct_smul]
  exact mul_le_mul_of_nonneg_left (h p q x y h1 h2 h3 h4 h5 h6 h7) hk

theorem Grows.sub_inv {C G : Ten2 ℝ} (hC : C.det ≠ 0) (h : Grows C G) (k : ℝ) : Grows C (G - k • C⁻¹) := by
  intro p q x y h1 h2 h3 h4 h5 h6 h7
  rw [sub_mulVec, sub_mulVec, dotProduct_sub, dotProduct_sub, smul_mulVec, smul_mulVec, dotProduct_smul, dotProduct_smul,
    inv_eig hC h1 h3 h5, inv_eig hC h2 h4 h6]
  exact sub_le_sub_right (h p q x y h1 h2 h3 h4 h5 h6 h7) _

theorem grows_inv {C : Ten2 ℝ} (hC : C.det ≠ 0) (k : ℝ) : Grows C (k • C⁻¹) := by
  intro p q x y h1 h2 h3 h4 h5 h6 h7
  rw [smul_mulVec, smul_mulVec, dotProduct_smul, dotProduct_smul, inv_eig hC h1 h3 h5, inv_eig hC h2 h4 h6]

theorem Grows.rescale {C G : Ten2 ℝ} {c : ℝ} (hc : 0 < c) (h : Grows (c • C) G) : Grows C G := by
  intro p q x y h1 h2 h3 h4 h5 h6 h7
  have hs : √c * √c = c := Real.mul_self_sqrt hc.le
  have e : ∀ (p : Fin 3 → ℝ) (x : ℝ), C *ᵥ p = x • p → (c • C) *ᵥ (√c • p) = (c * x) • (√c • p) := by
    intro p x h
    rw [smul_mulVec, mulVec_smul, h, smul_smul, smul_smul, smul_smul]; congr 1; ring
  have l : ∀ (p : Fin 3 → ℝ) (x : ℝ), p ⬝ᵥ p = x → (√c • p) ⬝ᵥ (√c • p) = c * x := by
    intro p x h
    rw [smul_dotProduct, dotProduct_smul, h, smul_eq_mul, smul_eq_mul, ← mul_assoc, hs]
  have := h _ _ _ _ (e p x h1) (e q y h2) (l p x h3) (l q y h4) (by positivity) (by positivity)
    (mul_le_mul_of_nonneg_left h7 hc.le)
  simp only [mulVec_smul, smul_dotProduct, dotProduct_smul, smul_eq_mul, ← mul_assoc, hs] at this
  exact le_of_mul_le_mul_left this hc

/-- The spaces preserve the order. -/
theorem order_space (w : Space) (mat : Material ℝ Z μ) (z z' : Z) (s : w.St μ) {F σ : Ten2 ℝ} (hF : F.det ≠ 0)
    (hG : w ≠ .dilatational → ∀ G, Material.Grad mat z (T2 (arg w F)) G → Grows (T2 (arg w F)) G)
    (h : Returns ((w.obj { area := none } mat).gradient F z) s (.full σ, z')) : PrincipalOrder F σ := by
  obtain ⟨g, h1, h2⟩ := (Space.returns_gradient ..).1 h
  have hP : Returns ((w.obj {} mat).gradient F z) s (.full (F * T2 (stressOf w F g)), z') :=
    (Space.returns_gradient ..).2 ⟨g, h1, (piolaStress_default ..).symm⟩
  obtain ⟨σ', h3, h4, -, -⟩ := C33_cauchy w mat z z' s hP
  obtain rfl : σ = σ' := by
    rw [Returns, h3] at h
    exact (Stress.full.inj (congrArg Prod.fst (Except.ok.inj h))).symm
  rw [h4]
  refine order_of_grows hF ?_ (inv_nonneg.2 (Real.sqrt_nonneg _))
  have hC : (cauchyGreen F).det ≠ 0 := (det_cauchyGreen_pos hF).ne'
  have hMG := Material.grad_T2 _ _ _ _ _ _ h1
  have hpw : ∀ e : ℝ, 0 < (cauchyGreen F).det ^ e := fun e => Real.rpow_pos_of_pos (det_cauchyGreen_pos hF) _
  cases w with
  | deformation =>
    have h5 := hG (by simp) _ hMG
    change Grows (cauchyGreen F) (T2 fun a => 2 * g a)
    rw [T2_smul]
    change Grows (T2 (rightCauchyGreen F)) _ at h5
    rw [T2_rcg] at h5
    exact h5.smul (by norm_num)
  | distortional =>
    have h5 := hG (by simp) _ hMG
    change Grows (T2 (Distortional.cu F)) _ at h5
    rw [Distortional.T2_cu] at h5
    have e1 : T2 (stressOf .distortional F g) = distS (cauchyGreen F) (T2 g) := Distortional.T2_st hF g
    rw [e1, distS]
    exact (Grows.smul (h5.rescale (hpw _)) (by have := hpw (-1 / 3); positivity)).sub_inv hC _
  | dilatational =>
    have e1 : T2 (stressOf .dilatational F g) = dilS (cauchyGreen F) (T2 g) := Dilatational.T2_st hF g
    rw [e1, dilS]
    exact grows_inv hC _

/-! ### invariants -/

theorem trace_ge {C : Ten2 ℝ} (hC : PosDef C) {p q : Fin 3 → ℝ} {x y : ℝ} (h1 : C *ᵥ p = x • p) (h2 : C *ᵥ q = y • q)
    (h3 : p ⬝ᵥ p = x) (h4 : q ⬝ᵥ q = y) (h5 : 0 < x) (h6 : 0 < y) (h7 : x < y) : x + y ≤ C.trace := by
  have hs : Cᵀ = C := hC.1
  have hsym : ∀ a b : Fin 3 → ℝ, a ⬝ᵥ (C *ᵥ b) = b ⬝ᵥ (C *ᵥ a) := by
    intro a b
    rw [dotProduct_mulVec, ← mulVec_transpose, hs, dotProduct_comm]
  have h0 : p ⬝ᵥ q = 0 := by
    have := hsym p q
    rw [h1, h2, dotProduct_smul, dotProduct_smul, dotProduct_comm q p, smul_eq_mul, smul_eq_mul] at this
    have h8 : (y - x) * (p ⬝ᵥ q) = 0 := by linarith
    exact (mul_eq_zero.1 h8).resolve_left (by linarith)
  -- the unit vectors
  have hM : ∀ i : Fin 3, 0 ≤ C i i - p i ^ 2 - q i ^ 2 := by
    intro i
    -- `C` on the part of the unit vector orthogonal to `p` and `q`
    set r : Fin 3 → ℝ := Pi.single i 1 - (p i / x) • p - (q i / y) • q with hr
    have hn : 0 ≤ r ⬝ᵥ (C *ᵥ r) := by
      by_cases hz : r = 0
      · rw [hz]; simp
      · exact (hC.2 r hz).le
    have e1 : ∀ a : Fin 3 → ℝ, Pi.single i 1 ⬝ᵥ a = a i := fun a => by simp
    have ee : Pi.single i 1 ⬝ᵥ (C *ᵥ Pi.single i 1) = C i i := by simp
    have ep : Pi.single i 1 ⬝ᵥ (C *ᵥ p) = x * p i := by rw [h1, e1]; rfl
    have eq : Pi.single i 1 ⬝ᵥ (C *ᵥ q) = y * q i := by rw [h2, e1]; rfl
    have epp : p ⬝ᵥ (C *ᵥ p) = x * x := by rw [h1, dotProduct_smul, h3]; rfl
    have eqq : q ⬝ᵥ (C *ᵥ q) = y * y := by rw [h2, dotProduct_smul, h4]; rfl
    have epq : p ⬝ᵥ (C *ᵥ q) = 0 := by rw [h2, dotProduct_smul, h0, smul_zero]
    have hxn := h5.ne'
    have hyn := h6.ne'
    have : r ⬝ᵥ (C *ᵥ r) = C i i - p i ^ 2 - q i ^ 2 := by
      rw [hr]
      simp only [mulVec_sub, mulVec_smul, dotProduct_sub, sub_dotProduct, dotProduct_smul, smul_dotProduct, smul_eq_mul]
      rw [hsym p (Pi.single i 1), hsym q (Pi.single i 1), hsym q p, ee, ep, eq, epp, eqq, epq]
      field_simp
      ring
    rwa [← this]
  have hp : p 0 ^ 2 + p 1 ^ 2 + p 2 ^ 2 = x := by
    rw [← h3]; simp only [dotProduct, Fin.sum_univ_three]; ring
  have hq : q 0 ^ 2 + q 1 ^ 2 + q 2 ^ 2 = y := by
    rw [← h4]; simp only [dotProduct, Fin.sum_univ_three]; ring
  have := hM 0
  have := hM 1
  have := hM 2
  simp only [Matrix.trace, Matrix.diag_apply, Fin.sum_univ_three]
  linarith

theorem grows_invariants {C : Ten2 ℝ} (hC : PosDef C) {g : Fin 3 → ℝ} (h0 : 0 ≤ g 0) (h1 : 0 ≤ g 1) : Grows C (invGradT C g) := by
  have e : ∀ (p : Fin 3 → ℝ) (x : ℝ), C *ᵥ p = x • p → p ⬝ᵥ p = x → 0 < x →
      p ⬝ᵥ (invGradT C g *ᵥ p) = g 0 * x + g 1 * (C.trace * x - x * x) + g 2 * C.det := by
    intro p x h2 h3 h4
    simp only [invGradT, add_mulVec, sub_mulVec, smul_mulVec, dotProduct_add, dotProduct_sub, dotProduct_smul, one_mulVec,
      inv_eig hC.det_ne_zero h2 h3 h4, h2, h3, smul_eq_mul, mul_one]
  intro p q x y h2 h3 h4 h5 h6 h7 h8
  rw [e p x h2 h4 h6, e q y h3 h5 h7]
  rcases h8.lt_or_eq with h9 | rfl
  · have := trace_ge hC h2 h3 h4 h5 h6 h7 h9
    have k1 : 0 ≤ (y - x) * g 0 := mul_nonneg (by linarith) h0
    have k2 : 0 ≤ (y - x) * (g 1 * (C.trace - (x + y))) := mul_nonneg (by linarith) (mul_nonneg h1 (by linarith))
    nlinarith
  · exact le_rfl

/-- the tensors which a space hands to its material -/
def Admissible (w : Space) (C : Ten2 ℝ) : Prop := PosDef C ∧ (w = .distortional → C.det = 1)

theorem admissible_arg (w : Space) {F : Ten2 ℝ} (hF : F.det ≠ 0) : Admissible w (T2 (arg w F)) := by
  refine ⟨posDef_arg w hF, ?_⟩
  rintro rfl
  change (T2 (Distortional.cu F)).det = 1
  have hd := det_cauchyGreen_pos hF
  rw [Distortional.T2_cu, unimodular, det_smul, Fintype.card_fin, ← Real.rpow_natCast, ← Real.rpow_mul hd.le]
  norm_num
  rw [Real.rpow_neg hd.le, Real.rpow_one, inv_mul_cancel₀ hd.ne']

/-- Materials in terms of invariants whose first two derivatives are nonnegative: the larger principal stretch carries the
larger principal Cauchy stress, in every space. -/
theorem C71_invariants (w : Space) (mat : InvMat ℝ Z μ) (z z' : Z) (s : w.St (InvSt ℝ μ))
    (hW : ∀ C, PosDef C → (w = .distortional → C.det = 1) → ∀ g, InvMat.Grad mat z (invariants C) g → 0 ≤ g 0 ∧ 0 ≤ g 1)
    {F σ : Ten2 ℝ} (hF : F.det ≠ 0)
    (h : Returns ((w.obj { area := none } (Invariants.material mat)).gradient F z) s (.full σ, z')) : PrincipalOrder F σ := by
  refine order_space w _ z z' s hF (fun _ G hG => ?_) h
  have ha := admissible_arg w hF
  obtain ⟨g, hg, rfl⟩ := (Invariants.grad_iff mat z ⟨ha.1.1, ha.1.det_ne_zero⟩).1 hG
  obtain ⟨h0, h1⟩ := hW _ ha.1 ha.2 g hg
  exact grows_invariants ha.1 h0 h1

theorem amgm3 (a b c : ℝ) (ha : 0 < a) (hb : 0 < b) (hc : 0 < c) (h : a * b * c = 1) : 3 ≤ a + b + c := by
  by_contra hlt
  push Not at hlt
  have hs : (a + b + c) ^ 3 < 3 ^ 3 := pow_lt_pow_left₀ hlt (by positivity) (by norm_num)
  have : 27 * (a * b * c) ≤ (a + b + c) ^ 3 := by
    nlinarith [mul_nonneg ha.le (sq_nonneg (b - c)), mul_nonneg hb.le (sq_nonneg (a - c)), mul_nonneg hc.le (sq_nonneg (a - b)),
      mul_nonneg ha.le (sq_nonneg (a - b)), mul_nonneg ha.le (sq_nonneg (a - c)), mul_nonneg hb.le (sq_nonneg (a - b)),
      mul_nonneg hb.le (sq_nonneg (b - c)), mul_nonneg hc.le (sq_nonneg (a - c)), mul_nonneg hc.le (sq_nonneg (b - c))]
  rw [h] at this
  linarith

theorem invariants_ge_three {C : Ten2 ℝ} (hC : PosDef C) (hd : C.det = 1) : 3 ≤ invariants C 0 ∧ 3 ≤ invariants C 1 := by
  obtain ⟨w, v, h⟩ := exists_spectral hC.1
  have hw := h.pos hC
  have e := h.eq
  have e' : C = rotate v (diagonal w) := e
  have hp : w 0 * w 1 * w 2 = 1 := by
    rw [← hd, e', det_rotate _ h.orthogonal, det_diagonal, Fin.prod_univ_three]
  rw [e', invariants_rotate _ h.orthogonal]
  have h0 := hw 0
  have h1 := hw 1
  have h2 := hw 2
  constructor
  · have : invariants (diagonal w : Ten2 ℝ) 0 = w 0 + w 1 + w 2 := by
      simp [invariants, Matrix.trace, Fin.sum_univ_three]
    rw [this]
    exact amgm3 _ _ _ h0 h1 h2 hp
  · have : invariants (diagonal w : Ten2 ℝ) 1 = w 0 * w 1 + w 1 * w 2 + w 0 * w 2 := by
      simp only [invariants, inv2, diagonal_mul_diagonal, trace_diagonal, Fin.sum_univ_three, cons_val_one, cons_val_zero]
      ring
    rw [this]
    refine amgm3 _ _ _ (by positivity) (by positivity) (by positivity) ?_
    have : w 0 * w 1 * (w 1 * w 2) * (w 0 * w 2) = (w 0 * w 1 * w 2) ^ 2 := by ring
    rw [this, hp, one_pow]

/-- `ThirdOrderDeformation` with nonnegative coefficients: in the distortional (and in the dilatational) space without
further conditions, in the deformation space without the coefficients `C11` and `C20`. -/
theorem C71_third_order (w : Space) (c : Fin 5 → ℝ) (hc : ∀ i, 0 ≤ c i) (hw : w = .deformation → c 2 = 0 ∧ c 3 = 0) (z z' : Z)
    (s : w.St (InvSt ℝ Unit)) {F σ : Ten2 ℝ} (hF : F.det ≠ 0)
    (h : Returns ((w.obj { area := none } (Invariants.material (todOf c false).mat)).gradient F z) s (.full σ, z')) :
    PrincipalOrder F σ := by
  by_cases hdil : w = .dilatational
  · exact order_space w _ z z' s hF (fun h => absurd hdil h) h
  refine C71_invariants w _ z z' s (fun C hC hd g hg => ?_) hF h
  rw [(TOD.grad_iff ..).1 hg]
  simp only [todOf, TOD.init, cons_val_zero, cons_val_one, if_false, Bool.false_eq_true]
  have c0 := hc 0
  have c1 := hc 1
  have c2 := hc 2
  have c3 := hc 3
  have c4 := hc 4
  by_cases hdef : w = .deformation
  · obtain ⟨e2, e3⟩ := hw hdef
    rw [e2, e3]
    constructor <;> simp <;> positivity
  · have hdist : w = .distortional := by cases w <;> simp_all
    obtain ⟨h0, h1⟩ := invariants_ge_three hC (hd hdist)
    have k0 : 0 ≤ invariants C 0 - 3 := by linarith
    have k1 : 0 ≤ invariants C 1 - 3 := by linarith
    constructor <;> positivity

/-! ### stretches -/

theorem grows_stretches {C : Ten2 ℝ} (hC : PosDef C) {x v : _} (h : Spectral C x v) {g : Fin 3 → ℝ}
    (ht : ∀ a b, √(x a) ≤ √(x b) → √(x a) * g a ≤ √(x b) * g b) :
    Grows C (v * diagonal (fun a => g a / (2 * √(x a))) * vᵀ) := by
  have hpos := h.pos hC
  have ho : vᵀ * v = 1 := h.orthogonal
  have ho' : v * vᵀ = 1 := mul_eq_one_comm.1 ho
  -- the components of an eigenvector
  have e : ∀ (p : Fin 3 → ℝ) (y : ℝ), C *ᵥ p = y • p → p ⬝ᵥ p = y → 0 < y → ∃ a, x a = y ∧
      p ⬝ᵥ ((v * diagonal (fun a => g a / (2 * √(x a))) * vᵀ) *ᵥ p) = √(x a) * g a / 2 := by
    intro p y h1 h2 h3
    set q : Fin 3 → ℝ := vᵀ *ᵥ p with hq
    have hn : q ⬝ᵥ q = y := by
      rw [hq, mulVec_transpose, ← dotProduct_mulVec, ← mulVec_transpose, mulVec_mulVec, ho', one_mulVec, h2]
    have hcomp : ∀ a, (x a - y) * q a = 0 := by
      intro a
      have k : vᵀ *ᵥ (C *ᵥ p) = y • q := by rw [h1, mulVec_smul]
      have k' : vᵀ *ᵥ (C *ᵥ p) = diagonal x *ᵥ q := by
        rw [h.eq, hq]
        simp only [mulVec_mulVec, Matrix.mul_assoc]
        rw [← Matrix.mul_assoc vᵀ v, ho, Matrix.one_mul]
      have k2 := congrFun (k'.symm.trans k) a
      rw [mulVec_diagonal] at k2
      simp only [Pi.smul_apply, smul_eq_mul] at k2
      linarith
    have hex : ∃ a, q a ≠ 0 := by
      by_contra k
      push Not at k
      have : q = 0 := funext k
      rw [this] at hn
      simp at hn
      exact h3.ne hn
    obtain ⟨a, ha⟩ := hex
    have hxa : x a = y := by
      have := (mul_eq_zero.1 (hcomp a)).resolve_right ha
      linarith
    refine ⟨a, hxa, ?_⟩
    have e1 : p ⬝ᵥ ((v * diagonal (fun a => g a / (2 * √(x a))) * vᵀ) *ᵥ p) = ∑ b, g b / (2 * √(x b)) * (q b * q b) := by
      rw [← mulVec_mulVec, ← hq, ← mulVec_mulVec, dotProduct_mulVec, ← mulVec_transpose, ← hq]
      refine Finset.sum_congr rfl fun b _ => ?_
      rw [mulVec_diagonal]; ring
    have e2 : ∀ b, g b / (2 * √(x b)) * (q b * q b) = √(x a) * g a / (2 * y) * (q b * q b) := by
      intro b
      by_cases hb : q b = 0
      · rw [hb]; ring
      · have hxb : x b = y := by
          have := (mul_eq_zero.1 (hcomp b)).resolve_right hb
          linarith
        have hab : √(x a) = √(x b) := by rw [hxa, hxb]
        have hg : √(x a) * g a = √(x b) * g b := le_antisymm (ht a b hab.le) (ht b a hab.ge)
        rw [hg]
        have h4 : √(x b) * √(x b) = y := by rw [Real.mul_self_sqrt (hpos b).le, hxb]
        have h5 : √(x b) ≠ 0 := (Real.sqrt_pos.2 (hpos b)).ne'
        rw [← h4]
        field_simp
    rw [e1, Finset.sum_congr rfl fun b _ => e2 b, ← Finset.mul_sum]
    have e3 : ∑ b, q b * q b = y := hn
    rw [e3]
    field_simp
  intro p q y z h1 h2 h3 h4 h5 h6 h7
  obtain ⟨a, rfl, ea⟩ := e p y h1 h3 h5
  obtain ⟨b, rfl, eb⟩ := e q z h2 h4 h6
  rw [ea, eb]
  have := ht a b (Real.sqrt_le_sqrt h7)
  linarith

/-- Materials in terms of stretches for which `λ ∂ψ/∂λ` is ordered as the stretches are: the larger principal stretch carries
the larger principal Cauchy stress, in every space. -/
theorem C71_stretches (lapack : Eigh) (hl : EighValid lapack) (w : Space) (mat : StrMat Z μ) (z z' : Z) (s : w.St (StrSt μ))
    (ht : ∀ l g, Positive l → (w = .distortional → l 0 * l 1 * l 2 = 1) → StrMat.Grad mat z l g → ∀ a b, l a ≤ l b → l a * g a ≤ l b * g b)
    {F σ : Ten2 ℝ} (hF : F.det ≠ 0)
    (h : Returns ((w.obj { area := none } (Stretches.material lapack mat)).gradient F z) s (.full σ, z')) :
    PrincipalOrder F σ := by
  refine order_space w _ z z' s hF (fun _ G hG => ?_) h
  obtain ⟨ha, hd⟩ := admissible_arg w hF
  obtain ⟨hs, g, hg, rfl⟩ := (Stretches.grad_iff ..).1 hG
  have hS := hl _ hs
  have hp := hS.pos ha
  refine grows_stretches ha hS fun a b => ht _ g (fun a => Real.sqrt_pos.2 (hp a)) (fun hw => ?_) hg a b
  have h1 : (lapack (T2 (arg w F))).1 0 * (lapack (T2 (arg w F))).1 1 * (lapack (T2 (arg w F))).1 2 = 1 := by
    have h2 : T2 (arg w F) = rotate _ _ := hS.eq
    have h3 := hd hw
    rw [h2, det_rotate _ hS.orthogonal, det_diagonal, Fin.prod_univ_three] at h3
    exact h3
  change √((lapack _).1 0) * √((lapack _).1 1) * √((lapack _).1 2) = 1
  rw [← Real.sqrt_mul (hp 0).le, ← Real.sqrt_mul (mul_pos (hp 0) (hp 1)).le, h1, Real.sqrt_one]

theorem rpow_order {m e x y : ℝ} (hm : 0 ≤ m) (he : e ≠ 0) (hx : 0 < x) (h : x ≤ y) : m / e * x ^ e ≤ m / e * y ^ e := by
  rcases lt_or_gt_of_ne he with h0 | h0
  · have h1 : y ^ e ≤ x ^ e := Real.rpow_le_rpow_of_nonpos hx h h0.le
    exact mul_le_mul_of_nonpos_left h1 (div_nonpos_of_nonneg_of_nonpos hm h0.le)
  · exact mul_le_mul_of_nonneg_left (Real.rpow_le_rpow hx.le h h0.le) (by positivity)

/-- Ogden's model with nonnegative moduli and any exponents. -/
theorem C71_ogden (lapack : Eigh) (hl : EighValid lapack) (w : Space) (mu alpha : List ℝ) (hm : ∀ m ∈ mu, 0 ≤ m) (z z' : Z)
    (s : w.St (StrSt Unit)) {F σ : Ten2 ℝ} (hF : F.det ≠ 0)
    (h : Returns ((w.obj { area := none } (Stretches.material lapack (Ogden.mat ⟨mu, alpha⟩))).gradient F z) s (.full σ, z')) :
    PrincipalOrder F σ := by
  refine C71_stretches lapack hl w _ z z' s (fun l g hp _ hg a b hab => ?_) hF h
  obtain ⟨s0, z1, hr⟩ := hg
  simp only [Returns, Ogden.mat, PyM.lift_run, Ogden.gradient_eq] at hr
  split_ifs at hr with hz
  obtain rfl : (fun a => ogdenSlope mu alpha (l a)) = g := congrArg Prod.fst (Except.ok.inj hr)
  have e : ∀ a, l a * ogdenSlope mu alpha (l a) = ((mu.zip alpha).map fun p => 2 * p.1 / p.2 * l a ^ p.2).sum := by
    intro a
    rw [ogdenSlope, ← List.sum_map_mul_left]
    congr 1
    refine List.map_congr_left fun p _ => ?_
    rw [Real.rpow_sub_one (hp a).ne']
    have := (hp a).ne'
    field_simp
  rw [e, e]
  refine List.sum_le_sum fun p hpm => ?_
  exact rpow_order (by have := hm _ (List.of_mem_zip hpm).1; positivity) (hz p hpm) (hp a) hab

theorem third_index {a b : Fin 3} (h : a ≠ b) : ∃ c, ∀ f : Fin 3 → ℝ, f 0 + f 1 + f 2 = f a + f b + f c := by
  refine ⟨-(a + b), fun f => ?_⟩
  rw [← Fin.sum_univ_three]
  have e : (Finset.univ : Finset (Fin 3)) = {a, b, -(a + b)} := by revert a b; decide
  have h1 : a ∉ ({b, -(a + b)} : Finset (Fin 3)) := by revert a b; decide
  have h2 : b ∉ ({-(a + b)} : Finset (Fin 3)) := by revert a b; decide
  rw [e, Finset.sum_insert h1, Finset.sum_insert h2, Finset.sum_singleton, add_assoc]

/-- `ThirdOrderDeformation` with nonnegative coefficients in terms of the generalized invariants of any exponent: in the
distortional (and in the dilatational) space without further conditions, in the deformation space without the coefficients
`C11` and `C20`. -/
theorem C71_generalized (lapack : Eigh) (hl : EighValid lapack) (w : Space) {k : ℝ} (hk : k ≠ 0) {m : GenInv}
    (hm : GenInv.init (deformationFun k) = .ok m) (c : Fin 5 → ℝ) (hc : ∀ i, 0 ≤ c i)
    (hw : w = .deformation → c 2 = 0 ∧ c 3 = 0) (z z' : Z) (s : w.St (StrSt (GenSt Unit))) {F σ : Ten2 ℝ} (hF : F.det ≠ 0)
    (h : Returns ((w.obj { area := none } (generalizedFramework lapack m (todOf c false).mat)).gradient F z) s (.full σ, z')) :
    PrincipalOrder F σ := by
  by_cases hdil : w = .dilatational
  · exact order_space w _ z z' s hF (fun h => absurd hdil h) h
  have hS := measures_deformation k
  obtain ⟨hgs, hg1, hg2, hI1, hI2, -, -⟩ := GenInv.init_ok hm hS
  obtain ⟨-, hc1, hc2⟩ := C13_init_deformation hk
  rw [← hg1] at hc1
  rw [← hg2] at hc2
  have p1 : 0 ≤ m.c1 := by rw [hc1]; positivity
  have p2 : 0 ≤ m.c2 := by rw [hc2]; positivity
  refine C71_stretches lapack hl w _ z z' s (fun l g hp hd hg a b hab => ?_) hF h
  obtain ⟨W, hW, rfl⟩ := (GenInv.grad_iff ..).1 hg
  have hev : ∀ a, m.ev l a = l a ^ k := fun a => by simp [GenInv.ev, hgs, deformationFun, deformationEval]
  have hdev : ∀ a, l a * m.dev l a = k * l a ^ k := fun a => by
    simp only [GenInv.dev, hgs, deformationFun, deformationEval]
    rw [Real.rpow_sub_one (hp a).ne']
    have := (hp a).ne'
    field_simp
  have hpos : ∀ a, 0 < l a ^ k := fun a => Real.rpow_pos_of_pos (hp a) _
  have hJ := GenInv.J_doc hm hS hp
  -- the derivatives of the energy are nonnegative
  have hWn : 0 ≤ W 0 ∧ 0 ≤ W 1 ∧ W 2 = 0 := by
    rw [(TOD.grad_iff ..).1 hW]
    simp only [todOf, TOD.init, cons_val_zero, cons_val_one, if_false, Bool.false_eq_true]
    have c0 := hc 0
    have c1 := hc 1
    have c2 := hc 2
    have c3 := hc 3
    have c4 := hc 4
    refine ⟨?_, ?_, rfl⟩
    all_goals
      by_cases hdef : w = .deformation
      · obtain ⟨e2, e3⟩ := hw hdef
        rw [e2]
        try rw [e3]
        simp
        positivity
      · have hdist : w = .distortional := by cases w <;> simp_all
        have hl1 : l 0 ^ k * l 1 ^ k * l 2 ^ k = 1 := by
          rw [← Real.mul_rpow (hp 0).le (hp 1).le, ← Real.mul_rpow (mul_pos (hp 0) (hp 1)).le (hp 2).le, hd hdist,
            Real.one_rpow]
        have k0 : 0 ≤ m.J l 0 - 3 := by
          rw [hJ]
          simp only [genInvariants, cons_val_zero, Real.one_rpow]
          have := amgm3 _ _ _ (hpos 0) (hpos 1) (hpos 2) hl1
          have := mul_nonneg (hg1 ▸ p1 : 0 ≤ coef1 (deformationFun k)) (by linarith : 0 ≤ l 0 ^ k + l 1 ^ k + l 2 ^ k - 3 * 1)
          linarith
        have k1 : 0 ≤ m.J l 1 - 3 := by
          rw [hJ]
          simp only [genInvariants, cons_val_one, cons_val_zero, Real.one_rpow]
          have := amgm3 (l 0 ^ k * l 1 ^ k) (l 1 ^ k * l 2 ^ k) (l 0 ^ k * l 2 ^ k) (mul_pos (hpos 0) (hpos 1))
            (mul_pos (hpos 1) (hpos 2)) (mul_pos (hpos 0) (hpos 2)) (by
              have e : l 0 ^ k * l 1 ^ k * (l 1 ^ k * l 2 ^ k) * (l 0 ^ k * l 2 ^ k) = (l 0 ^ k * l 1 ^ k * l 2 ^ k) ^ 2 := by ring
              rw [e, hl1, one_pow])
          have := mul_nonneg (hg2 ▸ p2 : 0 ≤ coef2 (deformationFun k))
            (by linarith : 0 ≤ l 0 ^ k * l 1 ^ k + l 1 ^ k * l 2 ^ k + l 0 ^ k * l 2 ^ k - 3 * 1 ^ 2)
          linarith
        positivity
  obtain ⟨w0, w1, w2⟩ := hWn
  have key : k * l a ^ k ≤ k * l b ^ k := by
    have := rpow_order (m := k ^ 2) (sq_nonneg k) hk (hp a) hab
    have e : k ^ 2 / k = k := by field_simp
    rwa [e] at this
  have e : ∀ a, l a * ∑ j, W j * m.dJ l j a = k * l a ^ k * (m.c1 * W 0) +
      k * l a ^ k * (l 0 ^ k + l 1 ^ k + l 2 ^ k - l a ^ k) * (m.c2 * W 1) := by
    intro a
    have e1 : l a * ∑ j, W j * m.dJ l j a = (l a * m.dev l a) * (m.c1 * W 0 + m.dJ2 (m.ev l) a * W 1) := by
      rw [Fin.sum_univ_three, w2]
      simp only [GenInv.dJ, cons_val_zero, cons_val_one]
      ring
    have e2 : m.dJ2 (m.ev l) a = m.c2 * (l 0 ^ k + l 1 ^ k + l 2 ^ k - l a ^ k) := by
      fin_cases a <;> simp [GenInv.dJ2, take, hev] <;> ring_nf <;> simp
    rw [e1, hdev, e2]
    ring
  rw [e, e]
  refine add_le_add (mul_le_mul_of_nonneg_right key (mul_nonneg p1 w0)) (mul_le_mul_of_nonneg_right ?_ (mul_nonneg p2 w1))
  by_cases hne : a = b
  · rw [hne]
  · obtain ⟨t, ht⟩ := third_index hne
    rw [ht fun i => l i ^ k]
    have := mul_le_mul_of_nonneg_right key (hpos t).le
    nlinarith

/-- The hypotheses are met: a simple shear with its stress, and a deformation with different principal stretches. -/
example (z : Z) : ∃ σ, Returns ((Space.distortional.obj { area := none } (Invariants.material (todOf ![1, 1, 1, 1, 1] false).mat)).gradient
      (!![1, 1, 0; 0, 1, 0; 0, 0, 1] : Ten2 ℝ) z) { material := { material := () } } (.full σ, z) ∧
    PrincipalOrder !![1, 1, 0; 0, 1, 0; 0, 0, 1] σ := by
  have hF : (!![1, 1, 0; 0, 1, 0; 0, 0, 1] : Ten2 ℝ).det ≠ 0 := by simp [det_fin_three]
  obtain ⟨P, hP⟩ := tod_space_total .distortional (todOf ![1, 1, 1, 1, 1] false) !![1, 1, 0; 0, 1, 0; 0, 0, 1] z { material := { material := () } }
  obtain ⟨σ, h, -⟩ := C33_cauchy _ _ _ _ _ hP
  refine ⟨σ, h, C71_third_order _ _ (fun i => ?_) (by simp) _ _ _ hF h⟩
  fin_cases i <;> simp

end Props
