import Verif.Proofs.Tolerance
import Verif.Props.EndToEnd
import Verif.Props.DistortionalBound

/-! # Property C69: the hessian of `Stretches` at unequal eigenvalues inside numpy's tolerance -/

namespace Props
open Spec Hel Matrix Filter Topology

variable {Z μ : Type}

/-- For every symmetric model whose second derivatives with respect to the squared stretches are
Lipschitz continuous with constant `L` between `m` and `M`, every valid eigen-solver and every
motion of positive definite tensors whose eigenvalues at the point of evaluation lie between `m`
and `M` (at any distance of each other): the gradient of the framework has a derivative, and the
contraction of the returned hessian with the velocity misses it by at most `18 · L · 1e-8` times
the largest entry of the velocity. -/
theorem C69_bound (lapack : Eigh) (hl : EighValid lapack) (mat : StrMat Z μ) (z : Z) (hs : StrMat.Symmetric mat)
    (ht : StrMat.Total mat z) (hth : StrMat.TotalHess mat z) (hz : StrMat.KeepsState mat z)
    (h : IsHessian3 Positive (StrMat.Grad mat z) (StrMat.Hess mat z)) {m M L : ℝ} (hL0 : 0 ≤ L)
    (hL : StrMat.LipschitzHess mat z m M L) {X : ℝ → Ten2 ℝ} {X' : Ten2 ℝ} {t₀ : ℝ} {G : ℝ → Ten2 ℝ} {H : Ten4 ℝ}
    (hX : ∀ᶠ t in 𝓝 t₀, PosDef (X t)) (hm : Moves X X' t₀) (hE : EigenvaluesIn m M (X t₀))
    (hG : ∀ᶠ t in 𝓝 t₀, Material.Grad (Stretches.material lapack mat) z (X t) (G t))
    (hH : Material.Hess (Stretches.material lapack mat) z (X t₀) H) :
    ∃ G', Moves G G' t₀ ∧
      ∀ v, (∀ k l, |X' k l| ≤ v) → ∀ i j, |G' i j - contract42 H X' i j| ≤ 18 * L * v * (1 / 10 ^ 8) := by
  obtain ⟨g, k, hS, hg, hh, hf, e, hmov⟩ := moves_exact lapack hl mat z hs ht hz h hX hm hG hH
  set w := Stretches.vals lapack (X t₀)
  set V := Stretches.vecs lapack (X t₀)
  refine ⟨_, hmov, fun v hv i j => ?_⟩
  rw [e, ← Matrix.sub_apply, ← Matrix.sub_mul, ← Matrix.mul_sub]
  have hY : ∀ a b, |(Vᵀ * X' * V) a b| ≤ 3 * v := fun a b => by
    have := abs_rotate hS.orthogonal.transpose hv a b
    rwa [Matrix.transpose_transpose] at this
  have h1 : ∀ a b, |(kmap (Stretches.Dmat (Stretches.roots w) g (StrHess.mat k))
      (Stretches.exact w (Stretches.dlC (Stretches.roots w) g) (Stretches.Dmat (Stretches.roots w) g (StrHess.mat k)))
      (Vᵀ * X' * V) - kmap (Stretches.Dmat (Stretches.roots w) g (StrHess.mat k))
      (Stretches.cross' (Stretches.roots w) (Stretches.dlC (Stretches.roots w) g)
        (Stretches.Dmat (Stretches.roots w) g (StrHess.mat k))) (Vᵀ * X' * V)) a b| ≤ 2 * L * (1 / 10 ^ 8) * (3 * v) := by
    intro a b
    have h2 := Stretches.cross_close hs ht hth h hL0 hL hf hg hh (hE w V hS) a b
    rw [Matrix.sub_apply, kmap, kmap]
    split_ifs
    · rw [sub_self, abs_zero]
      exact mul_nonneg (by positivity) ((abs_nonneg _).trans (hY a b))
    · rw [← sub_mul, abs_mul]
      exact mul_le_mul h2 (hY a b) (abs_nonneg _) (by positivity)
  refine (abs_rotate hS.orthogonal h1 i j).trans (le_of_eq ?_)
  ring

/-! ### Ogden -/

/-- powers between two bounds -/
theorem rpow_le_ends {m M x : ℝ} (hm : 0 < m) (h1 : m ≤ x) (h2 : x ≤ M) (e : ℝ) : x ^ e ≤ m ^ e + M ^ e := by
  have hx : 0 < x := hm.trans_le h1
  have hM : 0 < M := hx.trans_le h2
  rcases le_total 0 e with he | he
  · exact (Real.rpow_le_rpow hx.le h2 he).trans (le_add_of_nonneg_left (Real.rpow_pos_of_pos hm e).le)
  · exact (Real.rpow_le_rpow_of_nonpos hm h1 he).trans (le_add_of_nonneg_right (Real.rpow_pos_of_pos hM e).le)

/-- powers are Lipschitz continuous between two bounds -/
theorem rpow_lipschitz {m M x y : ℝ} (hm : 0 < m) (hx : m ≤ x ∧ x ≤ M) (hy : m ≤ y ∧ y ≤ M) (e : ℝ) :
    |x ^ e - y ^ e| ≤ |e| * (m ^ (e - 1) + M ^ (e - 1)) * |x - y| := by
  have h1 : ∀ u ∈ Set.Icc m M, HasDerivWithinAt (fun u : ℝ => u ^ e) (e * u ^ (e - 1)) (Set.Icc m M) u := fun u hu =>
    (Real.hasDerivAt_rpow_const (Or.inl (hm.trans_le hu.1).ne')).hasDerivWithinAt
  have h2 : ∀ u ∈ Set.Icc m M, ‖e * u ^ (e - 1)‖ ≤ |e| * (m ^ (e - 1) + M ^ (e - 1)) := fun u hu => by
    rw [Real.norm_eq_abs, abs_mul, abs_of_pos (Real.rpow_pos_of_pos (hm.trans_le hu.1) _)]
    exact mul_le_mul_of_nonneg_left (rpow_le_ends hm hu.1 hu.2 _) (abs_nonneg _)
  have h3 := Convex.norm_image_sub_le_of_norm_hasDerivWithin_le h1 h2 (convex_Icc m M) (Set.mem_Icc.2 hy) (Set.mem_Icc.2 hx)
  simpa only [Real.norm_eq_abs] using h3

/-- The second derivatives of Ogden's model with respect to the squared stretches. -/
theorem ogden_squaredHess {mu alpha : List ℝ} {z : Z} {x g : Fin 3 → ℝ} {h : Fin 3 → Fin 3 → ℝ} (hx : Positive x)
    (hg : StrMat.Grad (Ogden.mat ⟨mu, alpha⟩) z x g) (hh : StrMat.Hess (Ogden.mat ⟨mu, alpha⟩) z x h) (a b : Fin 3) :
    squaredHess x g h a b = if a = b then
      ((mu.zip alpha).map fun p => p.1 / p.2 * (p.2 / 2 - 1) * (x a ^ 2) ^ (p.2 / 2 - 2)).sum else 0 := by
  obtain ⟨s, z', hg⟩ := hg
  obtain ⟨s2, r, hh, rfl⟩ := hh
  simp only [Returns, Ogden.mat, PyM.lift_run, Ogden.gradient_eq, Ogden.hessian_eq] at hg hh
  split_ifs at hg with hne
  rw [if_pos hne] at hh
  simp only [Except.ok.injEq, Prod.mk.injEq] at hg hh
  obtain ⟨rfl, -⟩ := hg
  subst hh
  unfold squaredHess
  by_cases hab : a = b
  · subst hab
    rw [if_pos rfl, if_pos rfl]
    have h1 : StrHess.mat (.list ![
        some (sumOver (mu.zip alpha) (fun p x => 2 * p.1 / p.2 * (p.2 - 1) * x ^ (p.2 - 2)) (x 0)),
        some (sumOver (mu.zip alpha) (fun p x => 2 * p.1 / p.2 * (p.2 - 1) * x ^ (p.2 - 2)) (x 1)),
        some (sumOver (mu.zip alpha) (fun p x => 2 * p.1 / p.2 * (p.2 - 1) * x ^ (p.2 - 2)) (x 2)),
        none, none, none]) a a = sumOver (mu.zip alpha) (fun p x => 2 * p.1 / p.2 * (p.2 - 1) * x ^ (p.2 - 2)) (x a) := by
      fin_cases a <;> simp [StrHess.mat, StrHess.vec]
    rw [h1]
    have hp := hx a
    unfold sumOver
    dsimp only
    generalize x a = l at hp ⊢
    induction mu.zip alpha with
    | nil => simp
    | cons p L ih =>
      simp only [List.map_cons, List.sum_cons, add_div]
      rw [← ih]
      have e1 : (l ^ 2) ^ (p.2 / 2 - 2) = l ^ (p.2 - 4) := by
        rw [← Real.rpow_natCast, ← Real.rpow_mul hp.le]; congr 1; push_cast; ring
      have e2 : l ^ (p.2 - 2) = l ^ (p.2 - 4) * l ^ 2 := by
        rw [← Real.rpow_natCast, ← Real.rpow_add hp]; congr 1; push_cast; ring
      have e3 : l ^ (p.2 - 1) = l ^ (p.2 - 4) * l ^ 3 := by
        rw [← Real.rpow_natCast, ← Real.rpow_add hp]; congr 1; push_cast; ring
      rw [e1, e2, e3]
      have := hp.ne'
      have e4 : 2 * p.1 / p.2 * (p.2 - 1) * (l ^ (p.2 - 4) * l ^ 2) / (4 * l * l) -
          2 * p.1 / p.2 * (l ^ (p.2 - 4) * l ^ 3) / (4 * l ^ 3) = p.1 / p.2 * (p.2 / 2 - 1) * l ^ (p.2 - 4) := by
        field_simp
        ring
      rw [← e4]
      ring
  · rw [if_neg hab, if_neg hab, sub_zero]
    have : StrHess.mat (.list ![
        some (sumOver (mu.zip alpha) (fun p x => 2 * p.1 / p.2 * (p.2 - 1) * x ^ (p.2 - 2)) (x 0)),
        some (sumOver (mu.zip alpha) (fun p x => 2 * p.1 / p.2 * (p.2 - 1) * x ^ (p.2 - 2)) (x 1)),
        some (sumOver (mu.zip alpha) (fun p x => 2 * p.1 / p.2 * (p.2 - 1) * x ^ (p.2 - 2)) (x 2)),
        none, none, none]) a b = 0 := by
      fin_cases a <;> fin_cases b <;> simp [StrHess.mat, StrHess.vec] at hab ⊢
    rw [this, zero_div]

theorem ogden_lipschitz (mu alpha : List ℝ) (z : Z) {m M : ℝ} (hm : 0 < m) :
    StrMat.LipschitzHess (Ogden.mat ⟨mu, alpha⟩) z m M (ogdenLipschitz mu alpha m M) := by
  intro x y gx gy hx hy hxm hym h1 h2 h3 h4 d hd a b
  have hM : 0 < M := hm.trans_le ((hxm.2 0).1.trans (hxm.2 0).2)
  have d0 : 0 ≤ d := (abs_nonneg _).trans (hd 0)
  rw [ogden_squaredHess hxm.1 h1 h2, ogden_squaredHess hym.1 h3 h4]
  have hnn : 0 ≤ ogdenLipschitz mu alpha m M * d := by
    refine mul_nonneg (List.sum_nonneg fun r hr => ?_) d0
    obtain ⟨p, -, rfl⟩ := List.mem_map.1 hr
    exact mul_nonneg (abs_nonneg _) (add_nonneg (Real.rpow_pos_of_pos hm _).le (Real.rpow_pos_of_pos hM _).le)
  split_ifs with hab
  · unfold ogdenLipschitz
    induction mu.zip alpha with
    | nil => simp
    | cons p L ih =>
      simp only [List.map_cons, List.sum_cons, add_mul]
      rw [add_sub_add_comm]
      refine (abs_add_le _ _).trans (add_le_add ?_ ih)
      rw [← mul_sub, abs_mul]
      have h5 := rpow_lipschitz hm (hxm.2 a) (hym.2 a) (p.2 / 2 - 2)
      rw [show p.2 / 2 - 2 - 1 = p.2 / 2 - 3 by ring] at h5
      have h6 : 0 ≤ m ^ (p.2 / 2 - 3) + M ^ (p.2 / 2 - 3) :=
        add_nonneg (Real.rpow_pos_of_pos hm _).le (Real.rpow_pos_of_pos hM _).le
      calc |p.1 / p.2 * (p.2 / 2 - 1)| * |(x a ^ 2) ^ (p.2 / 2 - 2) - (y a ^ 2) ^ (p.2 / 2 - 2)|
          ≤ |p.1 / p.2 * (p.2 / 2 - 1)| * (|p.2 / 2 - 2| * (m ^ (p.2 / 2 - 3) + M ^ (p.2 / 2 - 3)) * d) :=
            mul_le_mul_of_nonneg_left (h5.trans (mul_le_mul_of_nonneg_left (hd a) (mul_nonneg (abs_nonneg _) h6))) (abs_nonneg _)
        _ = |p.1 / p.2 * (p.2 / 2 - 1) * (p.2 / 2 - 2)| * (m ^ (p.2 / 2 - 3) + M ^ (p.2 / 2 - 3)) * d := by
            rw [abs_mul (p.1 / p.2 * (p.2 / 2 - 1))]; ring
  · rw [sub_self, abs_zero]; exact hnn

theorem ogdenLipschitz_nonneg (mu alpha : List ℝ) {m M : ℝ} (hm : 0 < m) (hM : 0 < M) : 0 ≤ ogdenLipschitz mu alpha m M := by
  refine List.sum_nonneg fun r hr => ?_
  obtain ⟨p, -, rfl⟩ := List.mem_map.1 hr
  exact mul_nonneg (abs_nonneg _) (add_nonneg (Real.rpow_pos_of_pos hm _).le (Real.rpow_pos_of_pos hM _).le)

section
variable (lapack : Eigh) (hl : EighValid lapack) (mu alpha : List ℝ) (z : Z)
include hl

/-- The hessian of `Stretches(Ogden)`: its error against the derivative of the gradient, at every
positive definite `C` with eigenvalues between `m` and `M`, no matter how close they are. -/
theorem C69_ogden (hα : ∀ p ∈ mu.zip alpha, p.2 ≠ 0) {m M : ℝ} (hm0 : 0 < m) {X : ℝ → Ten2 ℝ} {X' : Ten2 ℝ} {t₀ : ℝ}
    {G : ℝ → Ten2 ℝ} {H : Ten4 ℝ} (hX : ∀ᶠ t in 𝓝 t₀, PosDef (X t)) (hm : Moves X X' t₀) (hE : EigenvaluesIn m M (X t₀))
    (hG : ∀ᶠ t in 𝓝 t₀, Material.Grad (Stretches.material lapack (Ogden.mat ⟨mu, alpha⟩)) z (X t) (G t))
    (hH : Material.Hess (Stretches.material lapack (Ogden.mat ⟨mu, alpha⟩)) z (X t₀) H) :
    ∃ G', Moves G G' t₀ ∧ ∀ v, (∀ k l, |X' k l| ≤ v) →
      ∀ i j, |G' i j - contract42 H X' i j| ≤ 18 * ogdenLipschitz mu alpha m M * v * (1 / 10 ^ 8) := by
  have hS0 := hl _ hX.self_of_nhds.1
  have h0 := hE _ _ hS0 0
  exact C69_bound lapack hl _ z (Ogden.symmetric _) (fun x _ => (C11_returns mu alpha z x).1.2 hα)
    (fun x _ => (C11_returns mu alpha z x).2.2 hα) (C11_statevars mu alpha z) (C11_hessian mu alpha z)
    (ogdenLipschitz_nonneg mu alpha hm0 (hm0.trans_le (h0.1.trans h0.2))) (ogden_lipschitz mu alpha z hm0) hX hm hE hG hH

/-- With the exponents 2 and 4 only (terms without stiffness aside), the hessian is the derivative of the gradient at every positive
definite `C`: nothing is lost inside the tolerance. -/
theorem C69_ogden_exact (hα0 : ∀ p ∈ mu.zip alpha, p.2 ≠ 0)
    (hα : ∀ p ∈ mu.zip alpha, p.1 = 0 ∨ p.2 = 2 ∨ p.2 = 4) :
    IsHessian PosDef (Material.Grad (Stretches.material lapack (Ogden.mat ⟨mu, alpha⟩)) z)
      (Material.Hess (Stretches.material lapack (Ogden.mat ⟨mu, alpha⟩)) z) := by
  intro X X' t₀ G H hX hm hG hH
  have hS0 := hl _ hX.self_of_nhds.1
  have hp : ∀ a, 0 < (lapack (X t₀)).1 a := fun a => hS0.pos hX.self_of_nhds a
  obtain ⟨m, hm0, M, hE⟩ : ∃ m : ℝ, 0 < m ∧ ∃ M, EigenvaluesIn m M (X t₀) := by
    let w := (lapack (X t₀)).1
    refine ⟨min (w 0) (min (w 1) (w 2)), lt_min (hp 0) (lt_min (hp 1) (hp 2)), w 0 + w 1 + w 2, ?_⟩
    intro w' v' hS'
    obtain ⟨p, rfl⟩ := hS0.perm hS'
    intro a
    have h0 : 0 < w 0 := hp 0
    have h1 : 0 < w 1 := hp 1
    have h2 : 0 < w 2 := hp 2
    have : ∀ c, min (w 0) (min (w 1) (w 2)) ≤ w c ∧ w c ≤ w 0 + w 1 + w 2 := by
      intro c
      fin_cases c
      · exact ⟨min_le_left _ _, by simp; linarith⟩
      · exact ⟨(min_le_right _ _).trans (min_le_left _ _), by simp; linarith⟩
      · exact ⟨(min_le_right _ _).trans (min_le_right _ _), by simp; linarith⟩
    exact this _
  obtain ⟨G', h1, h2⟩ := C69_ogden lapack hl mu alpha z hα0 hm0 hX hm hE hG hH
  have hL : ogdenLipschitz mu alpha m M = 0 := by
    refine List.sum_eq_zero fun r hr => ?_
    obtain ⟨p, hp, rfl⟩ := List.mem_map.1 hr
    rcases hα p hp with h | h | h <;> rw [h] <;> norm_num
  have e : contract42 H X' = G' := by
    obtain ⟨v, -, hv⟩ := exists_bound2 X'
    ext i j
    have := h2 v hv i j
    rw [hL, mul_zero, zero_mul, zero_mul, abs_le] at this
    linarith [this.1, this.2]
  rw [e]
  exact h1

omit hl in
theorem ogden_dlC {mu alpha : List ℝ} {z : Z} {w g : Fin 3 → ℝ} (hw : ∀ a, 0 < w a)
    (hg : StrMat.Grad (Ogden.mat ⟨mu, alpha⟩) z (Stretches.roots w) g) (a : Fin 3) :
    Stretches.dlC (Stretches.roots w) g a = ((mu.zip alpha).map fun p => p.1 / p.2 * w a ^ (p.2 / 2 - 1)).sum := by
  obtain ⟨s, z', hg⟩ := hg
  simp only [Returns, Ogden.mat, PyM.lift_run, Ogden.gradient_eq] at hg
  split_ifs at hg with hne
  simp only [Except.ok.injEq, Prod.mk.injEq] at hg
  obtain ⟨rfl, -⟩ := hg
  have hp : 0 < Stretches.roots w a := Stretches.roots_pos hw a
  have hsq := Stretches.roots_sq hw a
  unfold Stretches.dlC sumOver
  rw [← hsq]
  dsimp only
  generalize Stretches.roots w a = l at hp ⊢
  induction mu.zip alpha with
  | nil => simp
  | cons p L ih =>
    simp only [List.map_cons, List.sum_cons, add_div]
    rw [← ih]
    have e1 : (l ^ 2) ^ (p.2 / 2 - 1) = l ^ (p.2 - 2) := by
      rw [← Real.rpow_natCast, ← Real.rpow_mul hp.le]; congr 1; push_cast; ring
    have e2 : l ^ (p.2 - 1) = l ^ (p.2 - 2) * l := by
      rw [← Real.rpow_add_one hp.ne']; congr 1; ring
    rw [e1, e2]
    have := hp.ne'
    congr 1
    field_simp

/-- For one Ogden term the hessian is the derivative of the gradient at every positive definite `C`
only with the exponents 2 and 4 (or without stiffness): with any other exponent there are a `C` with
unequal eigenvalues inside the tolerance and a motion on which it is wrong. -/
theorem C69_ogden_iff (μ α : ℝ) (hα : α ≠ 0) :
    IsHessian PosDef (Material.Grad (Stretches.material lapack (Ogden.mat ⟨[μ], [α]⟩)) z)
      (Material.Hess (Stretches.material lapack (Ogden.mat ⟨[μ], [α]⟩)) z) ↔ μ = 0 ∨ α = 2 ∨ α = 4 := by
  classical
  have hα0 : ∀ p ∈ [μ].zip [α], p.2 ≠ 0 := by simpa using hα
  constructor
  · intro hH
    by_contra hcon
    push Not at hcon
    obtain ⟨hμ, h2, h4⟩ := hcon
    let x : Fin 3 → ℝ := ![1, 1 + 1 / 10 ^ 8, 2]
    have hx1 : ∀ a, 1 ≤ x a := fun a => by fin_cases a <;> simp [x] <;> norm_num
    have hC : PosDef (diagonal x : Ten2 ℝ) := posDef_diagonal fun a => zero_lt_one.trans_le (hx1 a)
    obtain ⟨p, hp⟩ := (spectral_diagonal x).perm (hl _ hC.1)
    let w := Stretches.vals lapack (diagonal x)
    let V := Stretches.vecs lapack (diagonal x)
    have hw : w = x ∘ p := hp
    have hV : Orthogonal V := (hl _ hC.1).orthogonal
    let a := p.symm 0
    let b := p.symm 1
    have hwa : w a = 1 := by rw [hw]; simp [a, x]
    have hwb : w b = 1 + 1 / 10 ^ 8 := by rw [hw]; simp [b, x]
    let E : Ten2 ℝ := fun i j => if (i = a ∧ j = b) ∨ (i = b ∧ j = a) then 1 else 0
    have hE : E.IsSymm := by
      ext i j
      refine if_congr ?_ rfl rfl
      tauto
    let X' := V * E * Vᵀ
    have hX' : X'.IsSymm := by
      rw [Matrix.IsSymm]
      simp only [X', Matrix.transpose_mul, Matrix.transpose_transpose, hE.eq, Matrix.mul_assoc]
    let X : ℝ → Ten2 ℝ := fun t => diagonal x + t • X'
    have hX0 : X 0 = diagonal x := by simp [X]
    have hm : Moves X X' 0 := fun i j => by
      have := ((hasDerivAt_id (0 : ℝ)).mul_const (X' i j)).const_add ((diagonal x : Ten2 ℝ) i j)
      simpa [X] using this
    have hpd : ∀ᶠ t in 𝓝 (0 : ℝ), PosDef (X t) := posDef_near hx1 hX'
    obtain ⟨G, hG⟩ := (hpd.mono fun t ht => (C20_ogden_returns lapack [μ] [α] z hα0 ht).1).choice
    obtain ⟨H, hHess⟩ := (C20_ogden_returns lapack [μ] [α] z hα0 hpd.self_of_nhds).2
    have hd := hH X X' 0 G H hpd hm hG hHess
    obtain ⟨g, k, hS, hg, hh, hf, e, hmov⟩ := moves_exact lapack hl (Ogden.mat ⟨[μ], [α]⟩) z (Ogden.symmetric _)
      (fun x _ => (C11_returns [μ] [α] z x).1.2 hα0) (C11_statevars [μ] [α] z) (C11_hessian [μ] [α] z) hpd hm hG hHess
    rw [hX0] at hS hg hh hf e hmov
    change Stretches.Fixed w g _ at hf
    change contract42 H X' = V * kmap _ _ (Vᵀ * X' * V) * Vᵀ at e
    change Moves G (V * kmap _ _ (Vᵀ * X' * V) * Vᵀ) 0 at hmov
    have e2 := Matrix.ext fun i j => (hd i j).unique (hmov i j)
    have hY : Vᵀ * X' * V = E := by
      simp only [X']
      rw [show Vᵀ * (V * E * Vᵀ) * V = (Vᵀ * V) * E * (Vᵀ * V) by simp only [Matrix.mul_assoc], hV, Matrix.one_mul, Matrix.mul_one]
    rw [hY] at e e2
    have h3 : ∀ K K' : Ten2 ℝ, V * K * Vᵀ = V * K' * Vᵀ → K = K' := by
      intro K K' h
      have := congrArg (fun T => Vᵀ * T * V) h
      simpa only [show ∀ K : Ten2 ℝ, Vᵀ * (V * K * Vᵀ) * V = (Vᵀ * V) * K * (Vᵀ * V) from fun K => by simp only [Matrix.mul_assoc],
        show Vᵀ * V = 1 from hV, Matrix.one_mul, Matrix.mul_one] using this
    have h5 := congrFun (congrFun (h3 _ _ (e.symm.trans e2)) a) b
    have hab : a ≠ b := fun h => by
      have : w a = w b := by rw [h]
      rw [hwa, hwb] at this
      norm_num at this
    have hEab : E a b = 1 := by simp [E]
    simp only [kmap, if_neg hab, hEab, mul_one] at h5
    have hne : w a ≠ w b := by rw [hwa, hwb]; norm_num
    have hcl : |w a - w b| ≤ 1 / 10 ^ 8 := by rw [hwa, hwb]; norm_num
    have hD : ∀ c d, Stretches.Dmat (Stretches.roots w) g (StrHess.mat k) c d =
        if c = d then μ / α * (α / 2 - 1) * w c ^ (α / 2 - 2) else 0 := fun c d => by
      rw [Stretches.Dmat_eq, ogden_squaredHess (Stretches.roots_pos hf.pos) hg hh]
      have := Stretches.roots_sq hf.pos c
      simp [this]
    have hq : ∀ c, Stretches.dlC (Stretches.roots w) g c = μ / α * w c ^ (α / 2 - 1) := fun c => by
      rw [ogden_dlC hf.pos hg]; simp
    -- the mean value
    obtain ⟨ξ, hξ, hslope⟩ := exists_hasDerivAt_eq_slope (fun u : ℝ => μ / α * u ^ (α / 2 - 1))
      (fun u => μ / α * ((α / 2 - 1) * u ^ (α / 2 - 1 - 1))) (show (1 : ℝ) < 1 + 1 / 10 ^ 8 by norm_num)
      (fun u hu => ((Real.hasDerivAt_rpow_const (Or.inl (zero_lt_one.trans_le hu.1).ne')).const_mul _).continuousAt.continuousWithinAt)
      (fun u hu => (Real.hasDerivAt_rpow_const (Or.inl (zero_lt_one.trans hu.1).ne')).const_mul _)
    have hex : Stretches.exact w (Stretches.dlC (Stretches.roots w) g) (Stretches.Dmat (Stretches.roots w) g (StrHess.mat k)) a b =
        μ / α * (α / 2 - 1) * ξ ^ (α / 2 - 2) := by
      rw [Stretches.exact, if_neg hne, hq, hq, hwa, hwb, ← neg_sub, ← neg_sub (1 + 1 / 10 ^ 8 : ℝ), neg_div_neg_eq]
      have : α / 2 - 1 - 1 = α / 2 - 2 := by ring
      rw [this] at hslope
      rw [← hslope]
      ring
    have hcr : ∃ c, (c = a ∨ c = b) ∧ Stretches.cross' (Stretches.roots w) (Stretches.dlC (Stretches.roots w) g)
        (Stretches.Dmat (Stretches.roots w) g (StrHess.mat k)) a b = μ / α * (α / 2 - 1) * w c ^ (α / 2 - 2) := by
      unfold Stretches.cross' Stretches.cross
      rw [if_pos ((Stretches.isclose_iff hf.pos a b).2 hcl),
        if_pos ((Stretches.isclose_iff hf.pos b a).2 (by rw [abs_sub_comm]; exact hcl))]
      by_cases h1 : a < b
      · exact ⟨b, Or.inr rfl, by rw [if_pos h1, hD b b, hD a b, if_pos rfl, if_neg hab, sub_zero]⟩
      · exact ⟨a, Or.inl rfl, by rw [if_neg h1, hD a a, hD b a, if_pos rfl, if_neg (Ne.symm hab), sub_zero]⟩
    obtain ⟨c, hc, hcr⟩ := hcr
    rw [hex] at h5
    change Stretches.cross' (Stretches.roots w) _ _ a b = _ at h5
    rw [hcr] at h5
    have hne2 : μ / α * (α / 2 - 1) ≠ 0 := mul_ne_zero (div_ne_zero hμ hα) (fun h => h2 (by linarith))
    have h6 := mul_left_cancel₀ hne2 h5
    have h7 : w c = ξ := (Real.rpow_left_inj (hf.pos c).le (zero_le_one.trans hξ.1.le) (fun h => h4 (by linarith))).1 h6
    rcases hc with rfl | rfl
    · rw [hwa] at h7; exact hξ.1.ne h7
    · rw [hwb] at h7; exact hξ.2.ne h7.symm
  · intro h
    exact C69_ogden_exact lapack hl _ _ z hα0 (by simpa using h)

/-- The elasticity of `Deformation(Stretches(Ogden))`: its error against the derivative of the first
Piola-Kirchhoff stress along a motion of deformation gradients, with entries of the deformation
gradient at most `f` and entries of its velocity at most `v`. -/
theorem C69_deformation (hα : ∀ p ∈ mu.zip alpha, p.2 ≠ 0) {m M : ℝ} (hm0 : 0 < m) {F P : ℝ → Ten2 ℝ} {F' : Ten2 ℝ} {t₀ : ℝ}
    {A : Ten4 ℝ} (hF : ∀ᶠ t in 𝓝 t₀, (F t).det ≠ 0) (hm : Moves F F' t₀) (hE : EigenvaluesIn m M (cauchyGreen (F t₀)))
    (hP : ∀ᶠ t in 𝓝 t₀, SpaceObj.Grad (Deformation.obj {} (Stretches.material lapack (Ogden.mat ⟨mu, alpha⟩))) z (F t) (P t))
    (hA : SpaceObj.Hess (Deformation.obj {} (Stretches.material lapack (Ogden.mat ⟨mu, alpha⟩))) z (F t₀) A) :
    ∃ P', Moves P P' t₀ ∧ ∀ f v, (∀ k l, |F t₀ k l| ≤ f) → (∀ k l, |F' k l| ≤ v) →
      ∀ i j, |P' i j - contract42 A F' i j| ≤ 648 * f ^ 2 * ogdenLipschitz mu alpha m M * v * (1 / 10 ^ 8) := by
  obtain ⟨G₀, H, hG₀, hH, rfl⟩ := Deformation.hess_elim hA
  obtain ⟨G, hG⟩ := (hP.mono fun t ht => (Deformation.grad_iff _ _ _ _).1 ht).choice
  have hpd : ∀ᶠ t in 𝓝 t₀, PosDef (cauchyGreen (F t)) := hF.mono fun t ht => posDef_cauchyGreen ht
  have hu : G t₀ = G₀ := by
    obtain ⟨D, hD, -⟩ := C69_ogden lapack hl mu alpha z hα hm0 (X := fun _ => cauchyGreen (F t₀)) (X' := 0) (t₀ := 0)
      (G := fun t => if t = 0 then G t₀ else G₀) (.of_forall fun _ => hpd.self_of_nhds) (fun i j => hasDerivAt_const _ _) hE
      (.of_forall fun t => by split_ifs; exacts [hG.self_of_nhds.1, hG₀]) hH
    ext i j
    refine eq_of_hasDerivAt_ite (t₀ := 0) (c := D i j) ?_
    refine (hD i j).congr_of_eventuallyEq (.of_forall fun t => ?_)
    dsimp only
    split_ifs <;> rfl
  obtain ⟨G', h1, hb⟩ := C69_ogden lapack hl mu alpha z hα hm0 hpd (moves_cauchyGreen hm) hE (hG.mono fun t ht => ht.1) hH
  have h2 : Moves (fun t => (2 : ℝ) • G t) ((2 : ℝ) • G') t₀ := fun i j => (h1 i j).const_mul 2
  have h3 := (moves_piola hm h2).congr (hG.mono fun t ht => ht.2)
  refine ⟨_, h3, fun f v hf hv i j => ?_⟩
  have f0 : 0 ≤ f := (abs_nonneg _).trans (hf 0 0)
  have v0 : 0 ≤ v := (abs_nonneg _).trans (hv 0 0)
  have hmin := Material.hess_minor hH
  have e : contract42 (piolaT (F t₀) ((2 : ℝ) • G₀) fun i j k l => 4 * H i j k l) F' = _ :=
    contract42_piola (F t₀) F' ((2 : ℝ) • G₀) ((Material.grad_symm hG₀).smul _)
      (smul_minor 4 hmin)
  rw [e, contract42_smul, hu, smul_smul]
  have hvel : ∀ k l, |(F'ᵀ * F t₀ + (F t₀)ᵀ * F') k l| ≤ 6 * (f * v) := fun k l => by
    simp only [Matrix.add_apply, Matrix.mul_apply, Matrix.transpose_apply]
    have h5 : ∀ r, |F' r k * F t₀ r l| ≤ f * v := fun r => by
      rw [abs_mul, mul_comm]; exact mul_le_mul (hf ..) (hv ..) (abs_nonneg _) f0
    have h6 : ∀ r, |F t₀ r k * F' r l| ≤ f * v := fun r => by
      rw [abs_mul]; exact mul_le_mul (hf ..) (hv ..) (abs_nonneg _) f0
    refine (abs_add_le _ _).trans ?_
    refine (add_le_add ((Finset.abs_sum_le_sum_abs ..).trans (Finset.sum_le_sum fun r _ => h5 r))
      ((Finset.abs_sum_le_sum_abs ..).trans (Finset.sum_le_sum fun r _ => h6 r))).trans (le_of_eq ?_)
    simp only [Finset.sum_const, Finset.card_univ, Fintype.card_fin, nsmul_eq_mul]
    push_cast
    ring
  have hb' := hb _ hvel
  have e3 : (F' * (2 : ℝ) • G₀ + F t₀ * (2 : ℝ) • G') i j - (F' * (2 : ℝ) • G₀ +
      F t₀ * (1 / 2 * 4 : ℝ) • contract42 H (F'ᵀ * F t₀ + (F t₀)ᵀ * F')) i j =
      ∑ r, F t₀ i r * (2 * (G' r j - contract42 H (F'ᵀ * F t₀ + (F t₀)ᵀ * F') r j)) := by
    simp only [Matrix.add_apply, Matrix.mul_apply, Matrix.smul_apply, smul_eq_mul, Fin.sum_univ_three]
    ring
  rw [e3]
  refine (Finset.abs_sum_le_sum_abs ..).trans ((Finset.sum_le_sum (g := fun _ => f * (2 * (18 * ogdenLipschitz mu alpha m M *
    (6 * (f * v)) * (1 / 10 ^ 8)))) fun r _ => ?_).trans (le_of_eq ?_))
  · rw [abs_mul, abs_mul, abs_two]
    exact mul_le_mul (hf ..) (mul_le_mul_of_nonneg_left (hb' r j) (by norm_num)) (mul_nonneg (by norm_num) (abs_nonneg _)) f0
  · simp only [Finset.sum_const, Finset.card_univ, Fintype.card_fin, nsmul_eq_mul]
    push_cast
    ring

omit hl in
/-- The hypotheses are met at eigenvalues inside the tolerance: `diag(1, 1 + 1e-9, 1)` is positive
definite, not separated, and its eigenvalues lie between 1 and 2. -/
example : PosDef (diagonal ![1, 1 + 1 / 10 ^ 9, 1] : Ten2 ℝ) ∧ ¬ Separated (diagonal ![1, 1 + 1 / 10 ^ 9, 1]) ∧
    EigenvaluesIn 1 2 (diagonal ![1, 1 + 1 / 10 ^ 9, 1]) ∧ (∃ lapack, EighValid lapack) ∧
    ∃ G, Material.Hess (Stretches.material lapack (Ogden.mat ⟨[1, 2], [3, -2]⟩)) z (diagonal ![1, 1 + 1 / 10 ^ 9, 1]) G := by
  have hpd : PosDef (diagonal ![1, 1 + 1 / 10 ^ 9, 1] : Ten2 ℝ) := posDef_diagonal fun a => by fin_cases a <;> norm_num
  refine ⟨hpd, fun h => ?_, fun w v hS a => ?_, exists_eigh, (C20_ogden_returns lapack _ _ z (by simp) hpd).2⟩
  · have := h _ _ (spectral_diagonal _) 0 1
    norm_num at this
  · obtain ⟨p, rfl⟩ := (spectral_diagonal _).perm hS
    have : ∀ c : Fin 3, (1 : ℝ) ≤ ![1, 1 + 1 / 10 ^ 9, 1] c ∧ (![1, 1 + 1 / 10 ^ 9, 1] c : ℝ) ≤ 2 := fun c => by
      fin_cases c <;> norm_num
    exact this _

end

end Props
