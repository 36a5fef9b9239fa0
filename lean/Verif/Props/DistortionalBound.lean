import Verif.Props.Spaces

/-! # Property C28: what the dropped material part can amount to -/

namespace Props
open Spec Hel Matrix Filter Topology

variable {Z μ : Type}

theorem abs_sum3 {f : Fin 3 → ℝ} {b : ℝ} (h : ∀ i, |f i| ≤ b) : |∑ i, f i| ≤ 3 * b := by
  refine (Finset.abs_sum_le_sum_abs _ _).trans ?_
  rw [Fin.sum_univ_three]
  linarith [h 0, h 1, h 2]

theorem abs_sum33 {f : Fin 3 → Fin 3 → ℝ} {b : ℝ} (h : ∀ i j, |f i j| ≤ b) : |∑ i, ∑ j, f i j| ≤ 9 * b := by
  refine (abs_sum3 fun i => abs_sum3 fun j => h i j).trans (le_of_eq ?_)
  ring

theorem abs_contract44 {X Y : Ten4 ℝ} {x y : ℝ} (hX : ∀ i j k l, |X i j k l| ≤ x) (hY : ∀ i j k l, |Y i j k l| ≤ y)
    (i j k l : Fin 3) : |contract44 X Y i j k l| ≤ 9 * (x * y) := by
  refine abs_sum33 fun m n => ?_
  rw [abs_mul]
  exact mul_le_mul (hX ..) (hY ..) (abs_nonneg _) ((abs_nonneg _).trans (hX i j m n))

theorem exists_bound2 (F : Ten2 ℝ) : ∃ f, 0 ≤ f ∧ ∀ i j, |F i j| ≤ f :=
  ⟨∑ i, ∑ j, |F i j|, Finset.sum_nonneg fun _ _ => Finset.sum_nonneg fun _ _ => abs_nonneg _, fun i j =>
    (Finset.single_le_sum (f := fun j => |F i j|) (fun _ _ => abs_nonneg _) (Finset.mem_univ j)).trans
      (Finset.single_le_sum (f := fun i => ∑ j, |F i j|) (fun _ _ => Finset.sum_nonneg fun _ _ => abs_nonneg _)
        (Finset.mem_univ i))⟩

theorem exists_bound4 (X : Ten4 ℝ) : ∃ f, 0 ≤ f ∧ ∀ i j k l, |X i j k l| ≤ f := by
  choose f h0 h using fun p : Fin 3 × Fin 3 => exists_bound2 fun k l => X p.1 p.2 k l
  exact ⟨∑ p, f p, Finset.sum_nonneg fun p _ => h0 p, fun i j k l => (h (i, j) k l).trans
    (Finset.single_le_sum (fun p _ => h0 p) (Finset.mem_univ (i, j)))⟩

theorem contract42_piolaT_add (F S F' : Ten2 ℝ) (X Y : Ten4 ℝ) (i j : Fin 3) :
    contract42 (piolaT F S fun i j k l => X i j k l + Y i j k l) F' i j - contract42 (piolaT F S X) F' i j =
      ∑ k, ∑ l, (∑ I, ∑ K, F i I * F k K * Y I j K l) * F' k l := by
  simp only [contract42, piolaT]
  rw [← Finset.sum_sub_distrib]
  refine Finset.sum_congr rfl fun k _ => ?_
  rw [← Finset.sum_sub_distrib]
  refine Finset.sum_congr rfl fun l _ => ?_
  simp only [mul_add, Finset.sum_add_distrib]
  ring

theorem abs_cauchyGreen {F : Ten2 ℝ} {f : ℝ} (hf : ∀ i j, |F i j| ≤ f) (i j : Fin 3) : |cauchyGreen F i j| ≤ 3 * f ^ 2 := by
  have f0 : 0 ≤ f := (abs_nonneg _).trans (hf 0 0)
  rw [cauchyGreen, Matrix.mul_apply]
  refine (abs_sum3 (b := f * f) fun k => ?_).trans (le_of_eq (by ring))
  rw [Matrix.transpose_apply, abs_mul]
  exact mul_le_mul (hf ..) (hf ..) (abs_nonneg _) f0

theorem abs_proj {A B : Ten2 ℝ} {a b : ℝ} (hA : ∀ i j, |A i j| ≤ a) (hB : ∀ i j, |B i j| ≤ b) (i j k l : Fin 3) :
    |dyadSym (1 : Ten2 ℝ) 1 i j k l - 1 / 3 * dyad A B i j k l| ≤ 1 + a * b / 3 := by
  have h1 : |dyadSym (1 : Ten2 ℝ) 1 i j k l| ≤ 1 := by
    have h : ∀ i j : Fin 3, |(1 : Ten2 ℝ) i j| ≤ 1 := fun i j => by
      rw [Matrix.one_apply]; split_ifs <;> norm_num
    have h' : ∀ i j k l : Fin 3, |(1 : Ten2 ℝ) i j * (1 : Ten2 ℝ) k l| ≤ 1 := fun i j k l => by
      rw [abs_mul]
      exact mul_le_one₀ (h ..) (abs_nonneg _) (h ..)
    simp only [dyadSym]
    rw [abs_div, abs_of_pos (by norm_num : (0 : ℝ) < 4), div_le_one (by norm_num)]
    refine (abs_add_le _ _).trans ?_
    refine (add_le_add ((abs_add_le _ _).trans (add_le_add (abs_add_le _ _) le_rfl)) le_rfl).trans ?_
    have t1 := h' i k j l
    have t2 := h' i l k j
    have t3 := h' i l j k
    have t4 := h' i k l j
    first | linarith | linarith [h' i k j l, h' i l j k, h' j l i k, h' j k i l, h' k j i l]
  have h2 : |1 / 3 * dyad A B i j k l| ≤ 1 / 3 * (a * b) := by
    rw [abs_mul, abs_of_pos (by norm_num : (0 : ℝ) < 1 / 3)]
    refine mul_le_mul_of_nonneg_left ?_ (by norm_num)
    rw [dyad, abs_mul]
    exact mul_le_mul (hA ..) (hB ..) (abs_nonneg _) ((abs_nonneg _).trans (hA i j))
  exact (abs_sub _ _).trans ((add_le_add h1 h2).trans (le_of_eq (by ring)))

open Classical in
/-- The elasticity tensor of the distortional space differs from the derivative of its stress by at
most an explicit constant, which depends on the deformation gradient only, times the absolute
tolerance `1e-8`: for every material, every motion and every returned elasticity; `f` and `n` are
bounds of the entries of the deformation gradient and of the inverse of the right Cauchy-Green
tensor.  (The difference need not be zero, see `C28_hessian_false`.) -/
theorem C28_bound (mat : Material ℝ Z μ) (z : Z) (dom : Ten2 ℝ → Prop)
    (h : IsHessian dom (Material.Grad mat z) (Material.Hess mat z))
    (F P : ℝ → Ten2 ℝ) (F' : Ten2 ℝ) (t₀ : ℝ) (A : Ten4 ℝ)
    (hF : ∀ᶠ t in 𝓝 t₀, (F t).det ≠ 0 ∧ dom (unimodular (cauchyGreen (F t)))) (hm : Moves F F' t₀)
    (hP : ∀ᶠ t in 𝓝 t₀, SpaceObj.Grad (Distortional.obj {} mat) z (F t) (P t))
    (hA : SpaceObj.Hess (Distortional.obj {} mat) z (F t₀) A)
    {f n : ℝ} (hf : ∀ i j, |F t₀ i j| ≤ f) (hn : ∀ i j, |(cauchyGreen (F t₀))⁻¹ i j| ≤ n) :
    ∃ P', Moves P P' t₀ ∧ ∀ v, (∀ k l, |F' k l| ≤ v) → ∀ i j,
      |P' i j - contract42 A F' i j| ≤ 6561 * f ^ 2 * (1 + n * f ^ 2) ^ 2 * v * (1 / 10 ^ 8) := by
  have f0 : 0 ≤ f := (abs_nonneg _).trans (hf 0 0)
  have n0 : 0 ≤ n := (abs_nonneg _).trans (hn 0 0)
  obtain ⟨p, hpd⟩ : ∃ p, p = 1 + n * f ^ 2 := ⟨_, rfl⟩
  have p0 : 0 ≤ p := by rw [hpd]; positivity
  have hp : ∀ i j k l, |Distortional.projT (cauchyGreen (F t₀)) i j k l| ≤ p := fun i j k l =>
    (abs_proj hn (abs_cauchyGreen hf) i j k l).trans (le_of_eq (by rw [hpd]; ring))
  have hq : ∀ i j k l, |Distortional.projTt (cauchyGreen (F t₀)) i j k l| ≤ p := fun i j k l =>
    (abs_proj (abs_cauchyGreen hf) hn i j k l).trans (le_of_eq (by rw [hpd]; ring))
  rw [← hpd]
  have h0 := hF.self_of_nhds
  obtain ⟨G₀, H, hG₀, hH, rfl⟩ := Distortional.hess_elim h0.1 hA
  have h1 := moves_distortional (Q := fun _ => True) (fun X X' t₀ G H h1 h2 h3 h4 => h X X' t₀ G H h1 h2 h3 h4.2)
    hF hm hP trivial hG₀ hH
  refine ⟨_, h1, fun v hv i j => ?_⟩
  have v0 : 0 ≤ v := (abs_nonneg _).trans (hv 0 0)
  have hmin := Material.hess_minor hH
  have hsym := Material.grad_symm hG₀
  have hCs := cauchyGreen_symm (F t₀)
  have e : contract42 (piolaT (F t₀) (distS (cauchyGreen (F t₀)) G₀) fun i j k l =>
      Distortional.geoT (cauchyGreen (F t₀)) G₀ i j k l +
          contract44 (contract44 (Distortional.projT (cauchyGreen (F t₀)))
            (Distortional.c4bT (cauchyGreen (F t₀)) H))
            (Distortional.projTt (cauchyGreen (F t₀))) i j k l) F' = _ :=
    contract42_piola (F t₀) F' _ (distS_symm hCs hsym) (add_minor (geoT_minor hCs hsym)
      (contract44_minor (contract44_minor (projT_minor hCs) (smul_minor _ hmin)) (projTt_minor hCs)))
  rw [Distortional.contract42_exact (symInv_cauchyGreen h0.1) (det_cauchyGreen_pos h0.1)
    (velocity_symm _ _) H hmin] at e
  rw [← e]
  by_cases hd : Distortional.Dropped (F t₀) H
  · rw [if_neg (not_not.2 hd), contract42_piolaT_add]
    have hc : ∀ i j k l, |Distortional.c4bT (cauchyGreen (F t₀)) H i j k l| ≤ 1 / 10 ^ 8 := fun i j k l => hd i j k l
    have h2 := abs_contract44 (abs_contract44 hp hc) hq
    have h3 : ∀ k l, |∑ I, ∑ K, F t₀ i I * F t₀ k K * contract44 (contract44 (Distortional.projT (cauchyGreen (F t₀)))
        (Distortional.c4bT (cauchyGreen (F t₀)) H)) (Distortional.projTt (cauchyGreen (F t₀))) I j K l| ≤
        9 * (f * f * (9 * (9 * (p * (1 / 10 ^ 8)) * p))) := fun k l => abs_sum33 fun I K => by
      rw [abs_mul, abs_mul]
      exact mul_le_mul (mul_le_mul (hf ..) (hf ..) (abs_nonneg _) f0) (h2 ..) (abs_nonneg _) (mul_nonneg f0 f0)
    refine (abs_sum33 (b := 9 * (f * f * (9 * (9 * (p * (1 / 10 ^ 8)) * p))) * v) fun k l => ?_).trans (le_of_eq (by ring))
    rw [abs_mul]
    exact mul_le_mul (h3 k l) (hv k l) (abs_nonneg _) ((abs_nonneg _).trans (h3 k l))
  · rw [if_pos hd, sub_self, abs_zero]
    positivity

/-- The material with the energy `C:C / 2` along a growing stretch meets the hypotheses of C28. -/
example : ∃ (F P : ℝ → Ten2 ℝ) (F' : Ten2 ℝ) (A : Ten4 ℝ), F 0 = diagonal ![2, 1, 1] ∧ (F 0).det ≠ 0 ∧
    IsHessian (·.IsSymm) (Material.Grad (squareMat 1) ()) (Material.Hess (squareMat 1) ()) ∧
    (∀ᶠ t in 𝓝 0, (F t).det ≠ 0 ∧ (unimodular (cauchyGreen (F t))).IsSymm) ∧ Moves F F' 0 ∧
    (∀ᶠ t in 𝓝 0, SpaceObj.Grad (Distortional.obj {} (squareMat 1)) () (F t) (P t)) ∧
    SpaceObj.Hess (Distortional.obj {} (squareMat 1)) () (F 0) A := by
  have hev : ∀ᶠ t : ℝ in 𝓝 0, t ∈ Set.Ioi (-2 : ℝ) := Ioi_mem_nhds (by norm_num)
  have hdet : ∀ t : ℝ, t ∈ Set.Ioi (-2 : ℝ) → ((diagonal ![2, 1, 1] : Ten2 ℝ) + (t - 0) • diagonal ![1, 0, 0]).det ≠ 0 := by
    intro t ht
    have : 0 < 2 + t := by have := Set.mem_Ioi.1 ht; linarith
    simp [Matrix.det_fin_three]
    linarith
  refine ⟨fun t => diagonal ![2, 1, 1] + (t - 0) • diagonal ![1, 0, 0], _, diagonal ![1, 0, 0], _, ?_, hdet 0 (by simp),
    (squareMat_derivatives 1).2, hev.mono fun t ht => ⟨hdet t ht, (cauchyGreen_symm _).smul _⟩, Moves.add_const_smul _ _,
    hev.mono fun t ht => (Distortional.grad_iff _ _ (hdet t ht)).2
      ⟨_, (squareMat_grad 1 ((cauchyGreen_symm _).smul _) _).2 rfl, rfl⟩,
    { material := () }, (Distortional.returns_hessian _ _ _ _ _ _).2
      ⟨_, (), (), _, rfl, rfl, (piolaElasticity_default ..).symm⟩⟩
  simp

end Props
