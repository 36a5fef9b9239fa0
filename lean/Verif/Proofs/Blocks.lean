import Verif.Proofs.Spectral

/-! Tensor functions given by blocks in a spectral basis do not depend on the basis. -/

namespace Spec
open Matrix

variable {C : Ten2 ℝ} {w : Fin 3 → ℝ} {v V : Ten2 ℝ}

/-- second-order: `Σ p_a v_a ⊗ v_a` -/
theorem Spectral.fn_unique {p : Fin 3 → ℝ} (h : Spectral C w v) (h' : Spectral C w V)
    (hp : ∀ a b, w a = w b → p a = p b) : v * diagonal p * vᵀ = V * diagonal p * Vᵀ := by
  have hR : diagonal p * (vᵀ * V) = (vᵀ * V) * diagonal p := by
    ext a b
    rw [Matrix.diagonal_mul, Matrix.mul_diagonal]
    by_cases hab : (vᵀ * V) a b = 0
    · rw [hab, mul_zero, zero_mul]
    · rw [hp a b (h.eq_of_ne h' hab), mul_comm]
  calc v * diagonal p * vᵀ = v * diagonal p * vᵀ * (V * Vᵀ) := by rw [h'.orthogonal.mul_transpose, Matrix.mul_one]
    _ = v * (diagonal p * (vᵀ * V)) * Vᵀ := by simp only [Matrix.mul_assoc]
    _ = v * ((vᵀ * V) * diagonal p) * Vᵀ := by rw [hR]
    _ = (v * vᵀ) * V * diagonal p * Vᵀ := by simp only [Matrix.mul_assoc]
    _ = _ := by rw [h.orthogonal.mul_transpose, Matrix.one_mul]

/-- the linear map in the spectral basis -/
def kmap (D f : Fin 3 → Fin 3 → ℝ) (Y : Ten2 ℝ) : Ten2 ℝ := fun a b =>
  if a = b then ∑ c, D a c * Y c c else f a b * Y a b

/-- block form -/
def bmap (φ θ : Fin 3 → Fin 3 → ℝ) (Y : Ten2 ℝ) : Ten2 ℝ := fun a b =>
  φ a b * Y a b + if a = b then ∑ c, θ a c * Y c c else 0

theorem rotate_block {φ θ : Fin 3 → Fin 3 → ℝ} {R : Ten2 ℝ} (hR : Orthogonal R)
    (h : ∀ a b, R a b ≠ 0 → (∀ c, φ a c = φ b c) ∧ (∀ c, φ c a = φ c b) ∧ (∀ c, θ a c = θ b c) ∧ (∀ c, θ c a = θ c b))
    (Y : Ten2 ℝ) :
    R * bmap φ θ Y * Rᵀ = bmap φ θ (R * Y * Rᵀ) := by
  have hR' := hR.mul_transpose
  have e : ∀ (A : Ten2 ℝ) a b, (R * A * Rᵀ) a b = ∑ i, ∑ j, R a i * R b j * A i j := by
    intro A a b
    simp only [Matrix.mul_apply, Matrix.transpose_apply, Finset.sum_mul]
    rw [Finset.sum_comm]
    exact Finset.sum_congr rfl fun i _ => Finset.sum_congr rfl fun j _ => by ring
  ext a b
  rw [e]
  simp only [bmap]
  have h1 : ∀ i j, R a i * R b j * (φ i j * Y i j) = φ a b * (R a i * R b j * Y i j) := by
    intro i j
    by_cases hi : R a i = 0
    · rw [hi]; ring
    by_cases hj : R b j = 0
    · rw [hj]; ring
    rw [(h a i hi).1 b, (h b j hj).2.1 i]; ring
  have h2 : ∀ i, ∑ j, R a i * R b j * (if i = j then ∑ c, θ i c * Y c c else 0) =
      R a i * R b i * ∑ c, θ a c * Y c c := by
    intro i
    rw [Finset.sum_eq_single i (fun j _ hj => by rw [if_neg (Ne.symm hj), mul_zero]) (fun hi => absurd (Finset.mem_univ i) hi),
      if_pos rfl]
    by_cases hi : R a i = 0
    · rw [hi]; ring
    · congr 1
      exact Finset.sum_congr rfl fun c _ => by rw [(h a i hi).2.2.1 c]
  have h3 : ∑ i, R a i * R b i = (1 : Ten2 ℝ) a b := by
    rw [← hR', Matrix.mul_apply]; rfl
  have h4 : ∑ c, θ a c * (R * Y * Rᵀ) c c = ∑ c, θ a c * Y c c := by
    have : ∀ c, θ a c * (R * Y * Rᵀ) c c = ∑ i, ∑ j, θ a i * Y i j * (R c i * R c j) := by
      intro c
      rw [e, Finset.mul_sum]
      refine Finset.sum_congr rfl fun i _ => ?_
      rw [Finset.mul_sum]
      refine Finset.sum_congr rfl fun j _ => ?_
      by_cases hi : R c i = 0
      · rw [hi]; ring
      · rw [(h c i hi).2.2.2 a]; ring
    simp only [this]
    rw [Finset.sum_comm]
    refine Finset.sum_congr rfl fun i _ => ?_
    rw [Finset.sum_comm]
    have h5 : ∀ j, ∑ c, θ a i * Y i j * (R c i * R c j) = θ a i * Y i j * (1 : Ten2 ℝ) i j := by
      intro j
      rw [← Finset.mul_sum, ← (show Rᵀ * R = 1 from hR), Matrix.mul_apply]; rfl
    simp only [h5]
    rw [Finset.sum_eq_single i (fun j _ hj => by rw [Matrix.one_apply_ne (Ne.symm hj), mul_zero])
      (fun hi => absurd (Finset.mem_univ i) hi), Matrix.one_apply_eq, mul_one]
  simp only [mul_add, Finset.sum_add_distrib, h1, h2]
  rw [← Finset.sum_mul, h3, h4]
  simp only [← Finset.mul_sum]
  rw [← e]
  congr 1
  rw [Matrix.one_apply]
  split_ifs <;> ring

/-- The coefficients are compatible with repeated eigenvalues. -/
structure Compatible (w : Fin 3 → ℝ) (D f : Fin 3 → Fin 3 → ℝ) : Prop where
  symm : ∀ a b, D a b = D b a
  diag : ∀ a b, w a = w b → D a a = D b b
  off : ∀ a b c, w a = w b → c ≠ a → c ≠ b → D a c = D b c
  fsymm : ∀ a b, f a b = f b a
  feq : ∀ a b, a ≠ b → w a = w b → f a b = D b b - D a b
  fne : ∀ a b c, w a = w b → w a ≠ w c → f a c = f b c

theorem Compatible.kmap_rotate {D f : Fin 3 → Fin 3 → ℝ} (hc : Compatible w D f) {R : Ten2 ℝ} (hR : Orthogonal R)
    (h : ∀ a b, R a b ≠ 0 → w a = w b) (Y : Ten2 ℝ) : R * kmap D f Y * Rᵀ = kmap D f (R * Y * Rᵀ) := by
  classical
  let φ : Fin 3 → Fin 3 → ℝ := fun a b => if a = b then
      (if hb : ∃ b, b ≠ a ∧ w a = w b then D a a - D a hb.choose else 0) else f a b
  let θ : Fin 3 → Fin 3 → ℝ := fun a b => if a = b then D a a - φ a a else D a b
  -- all off-diagonal coefficients of a block agree
  have hoff : ∀ a b c, b ≠ a → c ≠ a → w a = w b → w a = w c → D a b = D a c := by
    intro a b c hb hc' hab hac
    by_cases hbc : b = c
    · rw [hbc]
    · rw [hc.symm a b, hc.symm a c]
      exact hc.off b c a (hab ▸ hac) (Ne.symm hb) (Ne.symm hc')
  have hφd : ∀ a b, b ≠ a → w a = w b → φ a a = D a a - D a b := by
    intro a b hb hab
    have hex : ∃ b, b ≠ a ∧ w a = w b := ⟨b, hb, hab⟩
    simp only [φ, if_true, dif_pos hex]
    rw [hoff a _ b hex.choose_spec.1 hb hex.choose_spec.2 hab]
  have hφs : ∀ a b, φ a b = φ b a := by
    intro a b
    by_cases hab : a = b
    · rw [hab]
    · simp only [φ]
      rw [if_neg hab, if_neg (Ne.symm hab), hc.fsymm]
  have hθs : ∀ a b, θ a b = θ b a := by
    intro a b
    by_cases hab : a = b
    · rw [hab]
    · simp only [θ]
      rw [if_neg hab, if_neg (Ne.symm hab), hc.symm]
  have hfn : ∀ a b, a ≠ b → φ a b = f a b := fun a b hab => if_neg hab
  have hφ : ∀ a b c, w a = w b → φ a c = φ b c := by
    intro a b c hab
    by_cases e : a = b
    · rw [e]
    by_cases e1 : a = c
    · subst e1
      rw [hφd a b (Ne.symm e) hab, hfn b a (Ne.symm e), hc.feq b a (Ne.symm e) hab.symm, hc.symm b a]
    by_cases e2 : b = c
    · subst e2
      rw [hφd b a e hab.symm, hfn a b e, hc.feq a b e hab, hc.symm a b]
    rw [hfn a c e1, hfn b c e2]
    by_cases hac : w a = w c
    · rw [hc.feq a c e1 hac, hc.feq b c e2 (hab ▸ hac), hc.off a b c hab (Ne.symm e1) (Ne.symm e2)]
    · exact hc.fne a b c hab hac
  have hθ : ∀ a b c, w a = w b → θ a c = θ b c := by
    intro a b c hab
    by_cases e : a = b
    · rw [e]
    by_cases e1 : a = c
    · subst e1
      simp only [θ, if_true, if_neg (Ne.symm e)]
      rw [hφd a b (Ne.symm e) hab, hc.symm a b]; ring
    by_cases e2 : b = c
    · subst e2
      simp only [θ, if_true, if_neg e]
      rw [hφd b a e hab.symm, hc.symm a b]; ring
    · simp only [θ, if_neg e1, if_neg e2]
      exact hc.off a b c hab (Ne.symm e1) (Ne.symm e2)
  have hk : ∀ Y : Ten2 ℝ, kmap D f Y = bmap φ θ Y := by
    intro Y
    funext a b
    by_cases hab : a = b
    · subst hab
      simp only [kmap, bmap, if_true]
      have h1 : ∀ c, D a c * Y c c = θ a c * Y c c + if a = c then φ a a * Y a a else 0 := by
        intro c
        by_cases hac : a = c
        · subst hac; simp only [θ, if_true]; ring
        · simp only [θ, if_neg hac]; ring
      simp only [h1, Finset.sum_add_distrib, Finset.sum_ite_eq, Finset.mem_univ, if_true]
      ring
    · simp only [kmap, bmap, if_neg hab, hfn a b hab, add_zero]
  rw [hk, hk]
  exact rotate_block hR (fun a b hab => ⟨fun c => hφ a b c (h a b hab), fun c => by
    rw [hφs c a, hφs c b]; exact hφ a b c (h a b hab), fun c => hθ a b c (h a b hab), fun c => by
    rw [hθs c a, hθs c b]; exact hθ a b c (h a b hab)⟩) Y

/-- fourth-order: the map does not depend on the basis -/
theorem Compatible.kmap_unique {D f : Fin 3 → Fin 3 → ℝ} (hc : Compatible w D f) (h : Spectral C w v)
    (h' : Spectral C w V) (X : Ten2 ℝ) :
    v * kmap D f (vᵀ * X * v) * vᵀ = V * kmap D f (Vᵀ * X * V) * Vᵀ := by
  have hR : Orthogonal (vᵀ * V) := by
    rw [Orthogonal, Matrix.transpose_mul, Matrix.transpose_transpose]
    calc Vᵀ * v * (vᵀ * V) = Vᵀ * (v * vᵀ) * V := by simp only [Matrix.mul_assoc]
      _ = 1 := by rw [h.orthogonal.mul_transpose, Matrix.mul_one]; exact h'.orthogonal
  have h1 := hc.kmap_rotate hR (fun a b hab => h.eq_of_ne h' hab) (Vᵀ * X * V)
  have h2 : (vᵀ * V) * (Vᵀ * X * V) * (vᵀ * V)ᵀ = vᵀ * X * v := by
    rw [Matrix.transpose_mul, Matrix.transpose_transpose]
    calc vᵀ * V * (Vᵀ * X * V) * (Vᵀ * v) = vᵀ * (V * Vᵀ) * X * (V * Vᵀ) * v := by simp only [Matrix.mul_assoc]
      _ = _ := by rw [h'.orthogonal.mul_transpose, Matrix.mul_one, Matrix.mul_one]
  rw [h2] at h1
  rw [← h1, Matrix.transpose_mul, Matrix.transpose_transpose]
  calc v * (vᵀ * V * kmap D f (Vᵀ * X * V) * (Vᵀ * v)) * vᵀ
      = (v * vᵀ) * V * kmap D f (Vᵀ * X * V) * Vᵀ * (v * vᵀ) := by simp only [Matrix.mul_assoc]
    _ = _ := by rw [h.orthogonal.mul_transpose, Matrix.one_mul, Matrix.mul_one]

end Spec
