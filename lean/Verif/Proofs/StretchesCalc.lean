import Verif.Proofs.StretchesFramework
import Verif.Proofs.InvFramework
import Mathlib.Data.Fin.Tuple.Sort

/-! Calculus and basis independence of the `Stretches` framework. -/

namespace Spec
open Matrix Filter Topology

/-- limits with a prescribed order of the limiting eigenvalues -/
theorem spectral_limit_at {X : ℝ → Ten2 ℝ} {X' : Ten2 ℝ} {t₀ : ℝ} (hX : Moves X X' t₀) (U : Ultrafilter ℝ)
    (hU : (U : Filter ℝ) ≤ 𝓝[≠] t₀) {w : ℝ → Fin 3 → ℝ} {v : ℝ → Ten2 ℝ}
    (h : ∀ᶠ t in (U : Filter ℝ), Spectral (X t) (w t) (v t)) {w0 : Fin 3 → ℝ} {v0 : Ten2 ℝ} (h0 : Spectral (X t₀) w0 v0) :
    ∃ (p : Equiv.Perm (Fin 3)) (V : Ten2 ℝ), Spectral (X t₀) w0 V ∧ Tendsto (fun t => w t ∘ p) U (𝓝 w0) ∧
      Tendsto (fun t => (fun i a => v t i (p a) : Ten2 ℝ)) U (𝓝 V) ∧
      Tendsto (fun t => (fun i a => v t i (p a) : Ten2 ℝ)ᵀ * quot X t₀ t * V) U (𝓝 (Vᵀ * X' * V)) ∧
      (∀ a, Tendsto (fun t => (t - t₀)⁻¹ * (w t (p a) - w0 a)) U (𝓝 ((Vᵀ * X' * V) a a))) ∧
      (∀ a b, a ≠ b → w0 a = w0 b → (Vᵀ * X' * V) a b = 0) := by
  obtain ⟨W, V, hS, hw, -⟩ := spectral_limit hX U hU h
  obtain ⟨p, rfl⟩ := hS.perm h0
  obtain ⟨W1, V1, hS1, hw1, h1, h2, h3, h4⟩ := spectral_limit hX U hU (h.mono fun t ht => ht.permute p)
  have e : W1 = W ∘ p := by
    refine tendsto_nhds_unique hw1 ?_
    exact tendsto_pi_nhds.2 fun a => tendsto_pi_nhds.1 hw (p a)
  subst e
  exact ⟨p, V1, hS1, hw1, h1, h2, h3, h4⟩

/-! ### Symmetric functions of three numbers -/

theorem posDef_diagonal {x : Fin 3 → ℝ} (hx : Positive x) : PosDef (diagonal x : Ten2 ℝ) := by
  refine ⟨Matrix.diagonal_transpose x, fun u hu => ?_⟩
  have : u ⬝ᵥ (diagonal x *ᵥ u) = ∑ a, x a * (u a * u a) := by
    simp only [dotProduct, Matrix.mulVec_diagonal]
    exact Finset.sum_congr rfl fun a _ => by ring
  rw [this]
  obtain ⟨a, ha⟩ := Function.ne_iff.1 hu
  refine Finset.sum_pos' (fun b _ => mul_nonneg (hx b).le (mul_self_nonneg _)) ⟨a, Finset.mem_univ a, ?_⟩
  exact mul_pos (hx a) (mul_self_pos.2 ha)

theorem spectral_diagonal (x : Fin 3 → ℝ) : Spectral (diagonal x) x 1 :=
  Spectral.of_eq (by rw [Orthogonal]; simp) (by simp)

theorem EnergyOfStretches.symm {ψ Ψ} (h : EnergyOfStretches ψ Ψ) {x : Fin 3 → ℝ} (hx : Positive x)
    (p : Equiv.Perm (Fin 3)) : ψ (x ∘ p) = ψ x := by
  have hx2 : Positive fun a => x a ^ 2 := fun a => by have := hx a; positivity
  have h1 := h _ _ _ (posDef_diagonal hx2) (spectral_diagonal _)
  have h2 := h _ _ _ (posDef_diagonal hx2) ((spectral_diagonal _).permute p)
  have e1 : (fun a => Real.sqrt (x a ^ 2)) = x := funext fun a => Real.sqrt_sq (hx a).le
  have e2 : (fun a => Real.sqrt (((fun a => x a ^ 2) ∘ p) a)) = x ∘ p := funext fun a => Real.sqrt_sq (hx (p a)).le
  rw [e1] at h1
  rw [e2] at h2
  rw [← h1, ← h2]

/-- the straight motion in direction `c` -/
theorem line_moves (x : Fin 3 → ℝ) (c : Fin 3) : Moves3 (fun t => x + t • Pi.single c 1) (Pi.single c 1) 0 := by
  intro a
  have : HasDerivAt (fun t : ℝ => x a + t * (Pi.single c (1 : ℝ) : Fin 3 → ℝ) a) ((Pi.single c (1 : ℝ) : Fin 3 → ℝ) a) 0 := by
    have := ((hasDerivAt_id (0 : ℝ)).mul_const ((Pi.single c (1 : ℝ) : Fin 3 → ℝ) a)).const_add (x a)
    simpa using this
  exact this

theorem line_pos {x : Fin 3 → ℝ} (hx : Positive x) (c : Fin 3) :
    ∀ᶠ t in 𝓝 (0 : ℝ), Positive (x + t • Pi.single c (1 : ℝ)) := by
  have hc : HasDerivAt (fun t : ℝ => x + t • (Pi.single c (1 : ℝ) : Fin 3 → ℝ)) (Pi.single c 1) 0 :=
    hasDerivAt_pi.2 (line_moves x c)
  exact positive_eventually hc.continuousAt (by simpa using hx)

theorem line_zero (x : Fin 3 → ℝ) (c : Fin 3) : x + (0 : ℝ) • (Pi.single c (1 : ℝ) : Fin 3 → ℝ) = x := by simp

theorem sum_single_comp (g : Fin 3 → ℝ) (p : Equiv.Perm (Fin 3)) (c : Fin 3) :
    ∑ a, g a * ((Pi.single (p c) (1 : ℝ) : Fin 3 → ℝ) ∘ p) a = g c := by
  rw [Finset.sum_eq_single c]
  · simp
  · intro b _ hb
    have : p b ≠ p c := fun h => hb (p.injective h)
    simp [this]
  · intro h; exact absurd (Finset.mem_univ c) h

theorem IsGradient3.stabilizer {ψ : (Fin 3 → ℝ) → ℝ} {ret} (h : IsGradient3 Positive ψ ret)
    (hψ : ∀ x, Positive x → ∀ p : Equiv.Perm (Fin 3), ψ (x ∘ p) = ψ x) {x g : Fin 3 → ℝ} (hx : Positive x) (hg : ret x g)
    (p : Equiv.Perm (Fin 3)) (hp : x ∘ p = x) : g ∘ p = g := by
  funext c
  have h1 := h _ _ 0 g (line_pos hx (p c)) (line_moves x (p c)) (by rw [line_zero]; exact hg)
  have h2 := h (fun t => (x + t • (Pi.single (p c) (1 : ℝ) : Fin 3 → ℝ)) ∘ p)
    ((Pi.single (p c) (1 : ℝ) : Fin 3 → ℝ) ∘ p) 0 g
    ((line_pos hx (p c)).mono fun t ht a => ht (p a)) (fun a => line_moves x (p c) (p a))
    (by rw [line_zero, hp]; exact hg)
  have h3 := (h2.congr_of_eventuallyEq ((line_pos hx (p c)).mono fun t ht => (hψ _ ht p).symm)).unique h1
  have e1 : ∑ a, g a * (Pi.single (p c) (1 : ℝ) : Fin 3 → ℝ) a = g (p c) := by simp [Pi.single_apply]
  have e2 := sum_single_comp g p c
  rw [e1] at h3
  rw [Function.comp_apply, ← h3]
  exact e2

theorem IsHessian3.stabilizer {ret retH} (h : IsHessian3 Positive ret retH) (htot : ∀ x, Positive x → ∃ g, ret x g)
    (heq : ∀ (p : Equiv.Perm (Fin 3)) x g, ret x g → ret (x ∘ p) (g ∘ p)) {x g : Fin 3 → ℝ} {H : Fin 3 → Fin 3 → ℝ}
    (hx : Positive x) (hg : ret x g) (hH : retH x H) (p : Equiv.Perm (Fin 3)) (hp : x ∘ p = x) :
    g ∘ p = g ∧ ∀ a b, H (p a) (p b) = H a b := by
  refine ⟨h.unique hx (by have := heq p x g hg; rwa [hp] at this) hg hH, fun a c => ?_⟩
  have hev : ∀ᶠ t in 𝓝 (0 : ℝ), ∃ k, ret (x + t • Pi.single (p c) (1 : ℝ)) k :=
    (line_pos hx (p c)).mono fun t ht => htot _ ht
  obtain ⟨k, hk⟩ := hev.choice
  have h1 := h _ _ 0 k H (line_pos hx (p c)) (line_moves x (p c)) hk (by rw [line_zero]; exact hH) (p a)
  have h2 := h (fun t => (x + t • (Pi.single (p c) (1 : ℝ) : Fin 3 → ℝ)) ∘ p)
    ((Pi.single (p c) (1 : ℝ) : Fin 3 → ℝ) ∘ p) 0 (fun t => k t ∘ p) H
    ((line_pos hx (p c)).mono fun t ht a => ht (p a)) (fun a => line_moves x (p c) (p a))
    (hk.mono fun t ht => heq p _ _ ht) (by rw [line_zero, hp]; exact hH) a
  have h3 := h2.unique h1
  have e1 : ∑ b, H (p a) b * (Pi.single (p c) (1 : ℝ) : Fin 3 → ℝ) b = H (p a) (p c) := by simp [Pi.single_apply]
  rw [e1] at h3
  rw [← h3]
  exact sum_single_comp (H a) p c

end Spec

namespace Hel
open Spec Matrix Filter Topology

variable {Z μ : Type}

namespace Stretches

theorem roots_pos {w : Fin 3 → ℝ} (hw : ∀ a, 0 < w a) : Positive (roots w) := fun a => Real.sqrt_pos.2 (hw a)

theorem roots_sq {w : Fin 3 → ℝ} (hw : ∀ a, 0 < w a) (a : Fin 3) : roots w a ^ 2 = w a := Real.sq_sqrt (hw a).le

theorem roots_comp {w : Fin 3 → ℝ} (p : Equiv.Perm (Fin 3)) : roots (w ∘ p) = roots w ∘ p := rfl

/-- difference quotients of the stretches -/
theorem roots_slope {l : Filter ℝ} {t₀ : ℝ} {w : ℝ → Fin 3 → ℝ} {w0 w' : Fin 3 → ℝ} (h0 : ∀ a, 0 < w0 a)
    (hp : ∀ᶠ t in l, ∀ a, 0 < w t a) (hw : Tendsto w l (𝓝 w0))
    (hs : ∀ a, Tendsto (fun t => (t - t₀)⁻¹ * (w t a - w0 a)) l (𝓝 (w' a))) :
    Tendsto (fun t => (t - t₀)⁻¹ • (roots (w t) - roots w0)) l (𝓝 fun a => w' a / (2 * roots w0 a)) := by
  refine tendsto_pi_nhds.2 fun a => ?_
  have hr : Tendsto (fun t => roots (w t) a) l (𝓝 (roots w0 a)) :=
    (Real.continuous_sqrt.tendsto (w0 a)).comp (tendsto_pi_nhds.1 hw a)
  have hd : Tendsto (fun t => roots (w t) a + roots w0 a) l (𝓝 (2 * roots w0 a)) := by
    rw [two_mul]; exact hr.add tendsto_const_nhds
  have hne : (2 * roots w0 a) ≠ 0 := by have := roots_pos h0 a; positivity
  refine ((hs a).div hd hne).congr' ?_
  filter_upwards [hp] with t ht
  have h1 := roots_sq ht a
  have h2 := roots_sq h0 a
  have h3 : roots (w t) a + roots w0 a ≠ 0 := (add_pos (roots_pos ht a) (roots_pos h0 a)).ne'
  rw [Pi.div_apply, div_eq_iff h3, Pi.smul_apply, Pi.sub_apply, smul_eq_mul, ← h1, ← h2]
  ring

/-- difference quotients of `dψ/dλ / (2λ)` -/
theorem dlC_slope {l : Filter ℝ} {t₀ : ℝ} {x g : ℝ → Fin 3 → ℝ} {x0 x' g0 : Fin 3 → ℝ} {g' : ℝ} {a : Fin 3} (h0 : Positive x0)
    (hp : ∀ᶠ t in l, Positive (x t)) (hx : Tendsto x l (𝓝 x0))
    (hs : Tendsto (fun t => (t - t₀)⁻¹ • (x t - x0)) l (𝓝 x'))
    (hg : Tendsto (fun t => (t - t₀)⁻¹ * (g t a - g0 a)) l (𝓝 g')) :
    Tendsto (fun t => (t - t₀)⁻¹ * (dlC (x t) (g t) a - dlC x0 g0 a)) l
      (𝓝 (g' / (2 * x0 a) - g0 a * x' a / (2 * x0 a ^ 2))) := by
  have hxa := tendsto_pi_nhds.1 hx a
  have hsa : Tendsto (fun t => (t - t₀)⁻¹ * (x t a - x0 a)) l (𝓝 (x' a)) := tendsto_pi_nhds.1 hs a
  have hne : x0 a ≠ 0 := (h0 a).ne'
  have h1 : Tendsto (fun t => (t - t₀)⁻¹ * (g t a - g0 a) / (2 * x t a) -
      g0 a * ((t - t₀)⁻¹ * (x t a - x0 a)) / (2 * (x0 a * x t a))) l
      (𝓝 (g' / (2 * x0 a) - g0 a * x' a / (2 * (x0 a * x0 a)))) :=
    (hg.div (hxa.const_mul 2) (by positivity)).sub
      ((hsa.const_mul (g0 a)).div ((hxa.const_mul (x0 a)).const_mul 2) (by positivity))
  rw [pow_two]
  refine h1.congr' ?_
  filter_upwards [hp] with t ht
  have hxt : x t a ≠ 0 := (ht a).ne'
  simp only [dlC]
  field_simp
  ring

/-! ### Compatibility of the coefficients -/

theorem hmat_symm (h : StrHess) (a b : Fin 3) : StrHess.mat h a b = StrHess.mat h b a := by
  fin_cases a <;> fin_cases b <;> rfl

theorem cross'_symm (l p : Vec3 ℝ) (D : Fin 3 → Fin 3 → ℝ) (a b : Fin 3) : cross' l p D a b = cross' l p D b a := by
  unfold cross'
  rcases lt_trichotomy a b with h | h | h
  · rw [if_pos h, if_neg h.le.not_gt]
  · rw [h]
  · rw [if_pos h, if_neg h.le.not_gt]

theorem swap_fix {w : Fin 3 → ℝ} {a b : Fin 3} (h : w a = w b) : w ∘ Equiv.swap a b = w := by
  funext c
  rw [Function.comp_apply]
  rcases eq_or_ne c a with rfl | h1
  · rw [Equiv.swap_apply_left, h]
  rcases eq_or_ne c b with rfl | h2
  · rw [Equiv.swap_apply_right, h]
  rw [Equiv.swap_apply_of_ne_of_ne h1 h2]

/-- derivatives at stretches with their symmetry under permutations which fix the stretches -/
structure Fixed (w g : Fin 3 → ℝ) (h : Fin 3 → Fin 3 → ℝ) : Prop where
  pos : ∀ a, 0 < w a
  symm : ∀ a b, h a b = h b a
  grad : ∀ p : Equiv.Perm (Fin 3), w ∘ p = w → g ∘ p = g
  hess : ∀ p : Equiv.Perm (Fin 3), w ∘ p = w → ∀ a b, h (p a) (p b) = h a b

section
variable {w g : Fin 3 → ℝ} {h : Fin 3 → Fin 3 → ℝ}

theorem dlC_block (hg : ∀ p : Equiv.Perm (Fin 3), w ∘ p = w → g ∘ p = g) {a b : Fin 3} (hab : w a = w b) :
    dlC (roots w) g a = dlC (roots w) g b := by
  have := congrFun (hg _ (swap_fix hab)) a
  rw [Function.comp_apply, Equiv.swap_apply_left] at this
  simp only [dlC, roots, hab, this]

theorem Fixed.diag (hf : Fixed w g h) {a b : Fin 3} (hab : w a = w b) :
    Dmat (roots w) g h a a = Dmat (roots w) g h b b := by
  have h1 := hf.hess _ (swap_fix hab) a a
  rw [Equiv.swap_apply_left] at h1
  have h2 : roots w a = roots w b := by simp only [roots, hab]
  simp only [Dmat, if_true, dlC_block hf.grad hab, h1, h2]

theorem Dmat_symm (hf : Fixed w g h) (a b : Fin 3) : Dmat (roots w) g h a b = Dmat (roots w) g h b a := by
  rcases eq_or_ne a b with rfl | hab
  · rfl
  · simp only [Dmat, if_neg hab, if_neg (Ne.symm hab), hf.symm a b]; ring

theorem Fixed.off (hf : Fixed w g h) {a b c : Fin 3} (hab : w a = w b) (ha : c ≠ a) (hb : c ≠ b) :
    Dmat (roots w) g h a c = Dmat (roots w) g h b c := by
  have h1 := hf.hess _ (swap_fix hab) a c
  rw [Equiv.swap_apply_left, Equiv.swap_apply_of_ne_of_ne ha hb] at h1
  have h2 : roots w a = roots w b := by simp only [roots, hab]
  simp only [Dmat, if_neg (Ne.symm ha), if_neg (Ne.symm hb), h1, h2]

theorem isclose_iff (hw : ∀ a, 0 < w a) (a b : Fin 3) :
    isclose0 (roots w a ^ 2 - roots w b ^ 2) ↔ |w a - w b| ≤ 1 / 10 ^ 8 := by
  rw [isclose0, roots_sq hw, roots_sq hw]

theorem Fixed.cross_eq (hf : Fixed w g h) {a b : Fin 3} (hab : w a = w b) (p : Vec3 ℝ) :
    cross' (roots w) p (Dmat (roots w) g h) a b = Dmat (roots w) g h b b - Dmat (roots w) g h a b := by
  have h1 : isclose0 (roots w a ^ 2 - roots w b ^ 2) := by
    rw [isclose_iff hf.pos, hab, sub_self, abs_zero]; positivity
  have h2 : isclose0 (roots w b ^ 2 - roots w a ^ 2) := by
    rw [isclose_iff hf.pos, hab, sub_self, abs_zero]; positivity
  unfold cross' cross
  rw [if_pos h1, if_pos h2]
  split_ifs
  · rfl
  · rw [hf.diag hab, Dmat_symm hf b a]

theorem cross_ne (hw : ∀ a, 0 < w a) {a b : Fin 3} (hab : 1 / 10 ^ 8 < |w a - w b|) (p : Vec3 ℝ) (D : Fin 3 → Fin 3 → ℝ) :
    cross' (roots w) p D a b = (p a - p b) / (w a - w b) := by
  have h1 : ¬ isclose0 (roots w a ^ 2 - roots w b ^ 2) := by
    rw [isclose_iff hw]; exact not_le.2 hab
  have h2 : ¬ isclose0 (roots w b ^ 2 - roots w a ^ 2) := by
    rw [isclose_iff hw, abs_sub_comm]; exact not_le.2 hab
  unfold cross' cross
  rw [if_neg h1, if_neg h2]
  simp only [roots_sq hw]
  split_ifs
  · rfl
  · rw [← neg_sub (w a), ← neg_sub (p a), neg_div_neg_eq]

theorem Fixed.compatible (hf : Fixed w g h) (hsep : ∀ a b, w a = w b ∨ 1 / 10 ^ 8 < |w a - w b|) :
    Compatible w (Dmat (roots w) g h) (cross' (roots w) (dlC (roots w) g) (Dmat (roots w) g h)) where
  symm := Dmat_symm hf
  diag _ _ := hf.diag
  off _ _ _ := hf.off
  fsymm := cross'_symm _ _ _
  feq a b _ hab := hf.cross_eq hab _
  fne a b c hab hac := by
    have hbc : w b ≠ w c := hab ▸ hac
    rw [cross_ne hf.pos ((hsep a c).resolve_left hac), cross_ne hf.pos ((hsep b c).resolve_left hbc), dlC_block hf.grad hab, hab]

/-- ascending eigenvalues: no separation needed -/
theorem Fixed.compatible_ascending (hf : Fixed w g h) (hs : Monotone w) :
    Compatible w (Dmat (roots w) g h) (cross' (roots w) (dlC (roots w) g) (Dmat (roots w) g h)) where
  symm := Dmat_symm hf
  diag _ _ := hf.diag
  off _ _ _ := hf.off
  fsymm := cross'_symm _ _ _
  feq a b _ hab := hf.cross_eq hab _
  fne a b c hab hac := by
    have hr : roots w a = roots w b := by simp only [roots, hab]
    have hbc : w b ≠ w c := hab ▸ hac
    have nea : c ≠ a := fun e => hac (by rw [e])
    have neb : c ≠ b := fun e => hbc (by rw [e])
    rcases lt_or_gt_of_ne nea with hca | hac'
    · have hlt : w c < w a := lt_of_le_of_ne (hs hca.le) (Ne.symm hac)
      have hcb : c < b := by
        by_contra hcb
        exact absurd (hs (not_lt.1 hcb)) (not_le.2 (hab ▸ hlt))
      unfold cross' cross
      rw [if_neg hca.le.not_gt, if_neg hcb.le.not_gt]
      by_cases hh : isclose0 (roots w c ^ 2 - roots w b ^ 2)
      · have hh' : isclose0 (roots w c ^ 2 - roots w a ^ 2) := by rw [hr]; exact hh
        rw [if_pos hh, if_pos hh', hf.diag hab, Dmat_symm hf c a, Dmat_symm hf c b, hf.off hab nea neb]
      · have hh' : ¬ isclose0 (roots w c ^ 2 - roots w a ^ 2) := by rw [hr]; exact hh
        rw [if_neg hh, if_neg hh', hr, dlC_block hf.grad hab]
    · have hlt : w a < w c := lt_of_le_of_ne (hs (le_of_lt hac')) hac
      have hcb : b < c := by
        by_contra hcb
        exact absurd (hs (not_lt.1 hcb)) (not_le.2 (hab ▸ hlt))
      unfold cross' cross
      rw [if_pos (show a < c from hac'), if_pos hcb]
      by_cases hh : isclose0 (roots w b ^ 2 - roots w c ^ 2)
      · have hh' : isclose0 (roots w a ^ 2 - roots w c ^ 2) := by rw [hr]; exact hh
        rw [if_pos hh, if_pos hh', hf.off hab nea neb]
      · have hh' : ¬ isclose0 (roots w a ^ 2 - roots w c ^ 2) := by rw [hr]; exact hh
        rw [if_neg hh, if_neg hh', hr, dlC_block hf.grad hab]

open Classical in
/-- the divided difference of the principal stress coefficients, with its limit at equal eigenvalues -/
noncomputable def exact (w q : Fin 3 → ℝ) (D : Fin 3 → Fin 3 → ℝ) (a b : Fin 3) : ℝ :=
  if w a = w b then D b b - D a b else (q a - q b) / (w a - w b)

theorem Fixed.exact_compatible (hf : Fixed w g h) :
    Compatible w (Dmat (roots w) g h) (exact w (dlC (roots w) g) (Dmat (roots w) g h)) where
  symm := Dmat_symm hf
  diag _ _ := hf.diag
  off _ _ _ := hf.off
  fsymm a b := by
    unfold exact
    by_cases hab : w a = w b
    · rw [if_pos hab, if_pos hab.symm, hf.diag hab, Dmat_symm hf a b]
    · rw [if_neg hab, if_neg (Ne.symm hab), ← neg_sub (w b), ← neg_sub (dlC (roots w) g b), neg_div_neg_eq]
  feq a b _ hab := by rw [exact, if_pos hab]
  fne a b c hab hac := by
    have hbc : w b ≠ w c := hab ▸ hac
    rw [exact, exact, if_neg hac, if_neg hbc, dlC_block hf.grad hab, hab]

/-- separated eigenvalues: the factors of the code are the divided differences -/
theorem Fixed.exact_eq (hf : Fixed w g h) {a b : Fin 3} (hsep : w a = w b ∨ 1 / 10 ^ 8 < |w a - w b|) :
    cross' (roots w) (dlC (roots w) g) (Dmat (roots w) g h) a b = exact w (dlC (roots w) g) (Dmat (roots w) g h) a b := by
  unfold exact
  rcases hsep with hab | hab
  · rw [if_pos hab, hf.cross_eq hab]
  · rw [if_neg (fun e => absurd hab (by rw [e, sub_self, abs_zero]; norm_num)), cross_ne hf.pos hab]

/-- the chain rule for the principal stress coefficients -/
theorem Dmat_sum (l g y : Fin 3 → ℝ) (h : Fin 3 → Fin 3 → ℝ) (hl : Positive l) (a : Fin 3) :
    (∑ b, h a b * (y b / (2 * l b))) / (2 * l a) - g a * (y a / (2 * l a)) / (2 * l a ^ 2) = ∑ b, Dmat l g h a b * y b := by
  have hne : ∀ b, l b ≠ 0 := fun b => (hl b).ne'
  have e1 : ∀ b, Dmat l g h a b * y b = h a b * (y b / (2 * l b)) / (2 * l a) -
      if a = b then g a * (y a / (2 * l a)) / (2 * l a ^ 2) else 0 := by
    intro b
    have h1 := hne a
    have h2 := hne b
    by_cases hab : a = b
    · subst hab
      simp only [Dmat, dlC, if_true]
      field_simp
      ring
    · simp only [Dmat, if_neg hab, sub_zero]
      field_simp
      ring
  simp only [e1, Finset.sum_sub_distrib, Finset.sum_ite_eq, Finset.mem_univ, if_true, Finset.sum_div]

end

end Stretches
end Hel
