import Verif.Props.Prediction
import Verif.Proofs.Newton

/-! # Property C75: Newton's method with the returned tangent -/

namespace Props
open Spec Hel Matrix Filter Topology

variable {Z μ : Type}

/-! ### Locally bounded and Lipschitz continuous functions of a tensor -/

/-- bounded and Lipschitz continuous close to `F` -/
def LocLip (f : Ten2 ℝ → ℝ) (F : Ten2 ℝ) : Prop :=
  ∃ δ > 0, ∃ B L, 0 ≤ B ∧ 0 ≤ L ∧ ∀ Y Y' h, Near F Y δ → Near F Y' δ → Near Y Y' h → |f Y| ≤ B ∧ |f Y' - f Y| ≤ L * h

namespace LocLip
variable {f g : Ten2 ℝ → ℝ} {F : Ten2 ℝ}

theorem const (c : ℝ) : LocLip (fun _ => c) F :=
  ⟨1, one_pos, |c|, 0, abs_nonneg _, le_rfl, fun Y Y' h _ _ hN => ⟨le_rfl, by simp⟩⟩

theorem entry (i j : Fin 3) : LocLip (fun X => X i j) F := by
  refine ⟨1, one_pos, |F i j| + 1, 1, by positivity, zero_le_one, fun Y Y' h h1 _ hN => ⟨?_, ?_⟩⟩
  · change |Y i j| ≤ _
    have e : Y i j = F i j + (Y i j - F i j) := by ring
    rw [e]
    exact (abs_add_le _ _).trans (add_le_add le_rfl (h1 i j))
  · rw [one_mul]; exact hN i j

theorem add (hf : LocLip f F) (hg : LocLip g F) : LocLip (fun X => f X + g X) F := by
  obtain ⟨d1, hd1, B1, L1, hB1, hL1, h1⟩ := hf
  obtain ⟨d2, hd2, B2, L2, hB2, hL2, h2⟩ := hg
  refine ⟨min d1 d2, lt_min hd1 hd2, B1 + B2, L1 + L2, by positivity, by positivity, fun Y Y' h hY hY' hN => ?_⟩
  obtain ⟨a1, b1⟩ := h1 Y Y' h (fun i j => (hY i j).trans (min_le_left _ _)) (fun i j => (hY' i j).trans (min_le_left _ _)) hN
  obtain ⟨a2, b2⟩ := h2 Y Y' h (fun i j => (hY i j).trans (min_le_right _ _)) (fun i j => (hY' i j).trans (min_le_right _ _)) hN
  refine ⟨(abs_add_le _ _).trans (add_le_add a1 a2), ?_⟩
  have e : f Y' + g Y' - (f Y + g Y) = (f Y' - f Y) + (g Y' - g Y) := by ring
  rw [e, add_mul]
  exact (abs_add_le _ _).trans (add_le_add b1 b2)

theorem mul (hf : LocLip f F) (hg : LocLip g F) : LocLip (fun X => f X * g X) F := by
  obtain ⟨d1, hd1, B1, L1, hB1, hL1, h1⟩ := hf
  obtain ⟨d2, hd2, B2, L2, hB2, hL2, h2⟩ := hg
  refine ⟨min d1 d2, lt_min hd1 hd2, B1 * B2, B1 * L2 + L1 * B2, by positivity, by positivity, fun Y Y' h hY hY' hN => ?_⟩
  have n1 : ∀ {X}, Near F X (min d1 d2) → Near F X d1 := fun h i j => (h i j).trans (min_le_left _ _)
  have n2 : ∀ {X}, Near F X (min d1 d2) → Near F X d2 := fun h i j => (h i j).trans (min_le_right _ _)
  have hN' : Near Y' Y h := fun i j => by rw [abs_sub_comm]; exact hN i j
  obtain ⟨a1, b1⟩ := h1 Y Y' h (n1 hY) (n1 hY') hN
  obtain ⟨a2, b2⟩ := h2 Y Y' h (n2 hY) (n2 hY') hN
  obtain ⟨a2', -⟩ := h2 Y' Y h (n2 hY') (n2 hY) hN'
  refine ⟨by rw [abs_mul]; exact mul_le_mul a1 a2 (abs_nonneg _) hB1, ?_⟩
  have e : f Y' * g Y' - f Y * g Y = f Y * (g Y' - g Y) + (f Y' - f Y) * g Y' := by ring
  rw [e]
  refine (abs_add_le _ _).trans ?_
  rw [abs_mul, abs_mul, add_mul]
  have h0 : 0 ≤ h := (abs_nonneg _).trans (hN 0 0)
  refine add_le_add ?_ ?_
  · rw [mul_assoc]; exact mul_le_mul a1 b2 (abs_nonneg _) hB1
  · calc |f Y' - f Y| * |g Y'| ≤ (L1 * h) * B2 := mul_le_mul b1 a2' (abs_nonneg _) (by positivity)
      _ = L1 * B2 * h := by ring

theorem sub (hf : LocLip f F) (hg : LocLip g F) : LocLip (fun X => f X - g X) F := by
  have := hf.add ((const (-1)).mul hg)
  have e : (fun X => f X - g X) = fun X => f X + -1 * g X := by funext X; ring
  rw [e]; exact this

theorem sum {ι : Type} (s : Finset ι) {f : ι → Ten2 ℝ → ℝ} (h : ∀ a, LocLip (f a) F) : LocLip (fun X => ∑ a ∈ s, f a X) F := by
  classical
  induction s using Finset.induction_on with
  | empty => simpa using const (F := F) 0
  | insert a s ha ih =>
    have e : (fun X => ∑ b ∈ insert a s, f b X) = fun X => f a X + ∑ b ∈ s, f b X := by
      funext X; rw [Finset.sum_insert ha]
    rw [e]; exact (h a).add ih

theorem pow (hf : LocLip f F) (n : ℕ) : LocLip (fun X => f X ^ n) F := by
  induction n with
  | zero => simpa using const (F := F) 1
  | succ n ih => simpa only [pow_succ] using ih.mul hf

end LocLip

/-- functions whose entries are locally Lipschitz continuous -/
theorem lipschitzResult_of_locLip {T : Ten2 ℝ → Ten4 ℝ} {retH : Ten2 ℝ → Ten4 ℝ → Prop} {dom : Ten2 ℝ → Prop} {F : Ten2 ℝ}
    (hd : Inside dom F) (hT : ∀ X A, dom X → retH X A → A = T X) (h : ∀ i j k l, LocLip (fun X => T X i j k l) F) :
    LipschitzResult retH F := by
  obtain ⟨ρ, hρ, hd⟩ := hd
  choose d hd0 B L hB hL hh using h
  let S : Finset (Fin 3 × Fin 3 × Fin 3 × Fin 3) := Finset.univ
  have hS : S.Nonempty := Finset.univ_nonempty
  let δ := min ρ (S.inf' hS fun p => d p.1 p.2.1 p.2.2.1 p.2.2.2)
  have hδ : 0 < δ := lt_min hρ ((Finset.lt_inf'_iff hS).2 fun p _ => hd0 _ _ _ _)
  have hδd : ∀ i j k l, δ ≤ d i j k l := fun i j k l =>
    (min_le_right _ _).trans (Finset.inf'_le (fun p : Fin 3 × Fin 3 × Fin 3 × Fin 3 => d p.1 p.2.1 p.2.2.1 p.2.2.2)
      (Finset.mem_univ (i, j, k, l)))
  have hLs : ∀ i j k l, L i j k l ≤ ∑ p ∈ S, L p.1 p.2.1 p.2.2.1 p.2.2.2 := fun i j k l =>
    Finset.single_le_sum (f := fun p : Fin 3 × Fin 3 × Fin 3 × Fin 3 => L p.1 p.2.1 p.2.2.1 p.2.2.2)
      (fun p _ => hL _ _ _ _) (Finset.mem_univ (i, j, k, l))
  refine ⟨δ, hδ, ∑ p ∈ S, L p.1 p.2.1 p.2.2.1 p.2.2.2, fun Y Y' A A' h hY hY' hN hA hA' i j k l => ?_⟩
  rw [hT Y A (hd Y fun i j => (hY i j).trans (min_le_left _ _)) hA,
    hT Y' A' (hd Y' fun i j => (hY' i j).trans (min_le_left _ _)) hA']
  refine ((hh i j k l Y Y' h (fun a b => (hY a b).trans (hδd i j k l)) (fun a b => (hY' a b).trans (hδd i j k l)) hN).2).trans ?_
  exact mul_le_mul_of_nonneg_right (hLs i j k l) ((abs_nonneg _).trans (hN 0 0))

theorem locLip_cauchyGreen (F : Ten2 ℝ) (i j : Fin 3) : LocLip (fun X => cauchyGreen X i j) F := by
  simp only [cauchyGreen, Matrix.mul_apply, Matrix.transpose_apply]
  exact LocLip.sum _ fun k => (LocLip.entry k i).mul (LocLip.entry k j)

theorem locLip_trace (F : Ten2 ℝ) : LocLip (fun X => (cauchyGreen X).trace) F := by
  simp only [Matrix.trace, Matrix.diag_apply]
  exact LocLip.sum _ fun k => locLip_cauchyGreen F k k

theorem locLip_inv1 (F : Ten2 ℝ) : LocLip (fun X => invariants (cauchyGreen X) 0) F := locLip_trace F

theorem locLip_inv2 (F : Ten2 ℝ) : LocLip (fun X => invariants (cauchyGreen X) 1) F := by
  have e : (fun X : Ten2 ℝ => invariants (cauchyGreen X) 1) =
      fun X => ((cauchyGreen X).trace ^ 2 - ∑ i, ∑ j, cauchyGreen X i j * cauchyGreen X j i) * (1 / 2) := by
    funext X
    change inv2 (cauchyGreen X) = _
    simp only [inv2, Matrix.trace, Matrix.diag_apply, Matrix.mul_apply]
    ring
  rw [e]
  exact (((locLip_trace F).pow 2).sub (LocLip.sum _ fun i => LocLip.sum _ fun j =>
    (locLip_cauchyGreen F i j).mul (locLip_cauchyGreen F j i))).mul (LocLip.const _)

/-- the elasticity tensor which the deformation space returns for a third-order-deformation material -/
noncomputable def todTangent (m : TOD ℝ) (X : Ten2 ℝ) : Ten4 ℝ :=
  piolaT X ((2 : ℝ) • todGradT m (cauchyGreen X)) (fun i j k l => 4 * todHessT m (cauchyGreen X) i j k l)

theorem tod_tangent {m : TOD ℝ} {z : Z} {X : Ten2 ℝ} {A : Ten4 ℝ} (hX : X.det ≠ 0)
    (h : SpaceObj.Hess (Deformation.obj {} (Invariants.material m.mat)) z X A) : A = todTangent m X := by
  obtain ⟨G, H, hG, hH, rfl⟩ := Deformation.hess_elim h
  rw [(tod_grad m z (symInv_cauchyGreen hX)).1 hG, (tod_hess m z (symInv_cauchyGreen hX)).1 hH]
  rfl

theorem locLip_todGradT (m : TOD ℝ) (F : Ten2 ℝ) (i j : Fin 3) : LocLip (fun X => todGradT m (cauchyGreen X) i j) F := by
  simp only [todGradT, Matrix.add_apply, Matrix.smul_apply, Matrix.sub_apply, smul_eq_mul]
  have c : ∀ a : ℝ, LocLip (fun _ => a) F := LocLip.const
  have i0 := (locLip_inv1 F).sub (c m.undeformed)
  have i1 := (locLip_inv2 F).sub (c m.undeformed)
  exact (((((c m.C10).add ((c m.C11).mul i1)).add ((c (m.C20 * 2)).mul i0)).add ((c (m.C30 * 3)).mul (i0.pow 2))).mul (c _)).add
    (((c m.C01).add ((c m.C11).mul i0)).mul (((locLip_trace F).mul (c _)).sub (locLip_cauchyGreen F i j)))

theorem locLip_todHessT (m : TOD ℝ) (F : Ten2 ℝ) (i j k l : Fin 3) :
    LocLip (fun X => todHessT m (cauchyGreen X) i j k l) F := by
  simp only [todHessT, dyad, Matrix.smul_apply, Matrix.sub_apply, smul_eq_mul]
  have c : ∀ a : ℝ, LocLip (fun _ => a) F := LocLip.const
  have i0 := (locLip_inv1 F).sub (c m.undeformed)
  have b := fun i j => ((locLip_trace F).mul (c ((1 : Ten2 ℝ) i j))).sub (locLip_cauchyGreen F i j)
  exact ((((c m.C01).add ((c m.C11).mul i0)).mul (c _)).add (((c (m.C20 * 2)).add ((c (m.C30 * 6)).mul i0)).mul (c _))).add
    ((c m.C11).mul (((c _).mul (b k l)).add ((b i j).mul (c _))))

theorem locLip_todTangent (m : TOD ℝ) (F : Ten2 ℝ) (i j k l : Fin 3) : LocLip (fun X => todTangent m X i j k l) F := by
  simp only [todTangent, piolaT, dyadIK, Matrix.smul_apply, smul_eq_mul]
  exact (LocLip.sum _ fun I => LocLip.sum _ fun K => ((LocLip.entry i I).mul (LocLip.entry k K)).mul
    ((LocLip.const 4).mul (locLip_todHessT m F I j K l))).add ((LocLip.const _).mul ((LocLip.const 2).mul (locLip_todGradT m F j l)))

section
variable (C10 C01 C11 C20 C30 : ℝ) (strain : Bool) (z : Z)

/-- **C75.**  Third-order-deformation materials on the deformation space: if the tangent at an invertible
`F` is regular, then from every deformation gradient close to `F` the Newton step towards the stress of
`F` exists, is the only one, and its distance to `F` is at most proportional to the square of the
distance before. -/
theorem C75_third_order {F P : Ten2 ℝ} {A : Ten4 ℝ} (hF : F.det ≠ 0) (hP : SpaceObj.Grad (Deformation.obj {} (Invariants.material (TOD.init C10 C01 C11 C20 C30 strain).mat)) z F P)
    (hA : SpaceObj.Hess (Deformation.obj {} (Invariants.material (TOD.init C10 C01 C11 C20 C30 strain).mat)) z F A) (hreg : Regular A) :
    ∃ δ > 0, ∃ c > 0, c * δ ≤ 1 / 2 ∧ ∀ X d, d ≤ δ → Near F X d →
      (∃! Y, NewtonStep (SpaceObj.Grad (Deformation.obj {} (Invariants.material (TOD.init C10 C01 C11 C20 C30 strain).mat)) z) (SpaceObj.Hess (Deformation.obj {} (Invariants.material (TOD.init C10 C01 C11 C20 C30 strain).mat)) z) P X Y) ∧
      ∀ Y, NewtonStep (SpaceObj.Grad (Deformation.obj {} (Invariants.material (TOD.init C10 C01 C11 C20 C30 strain).mat)) z) (SpaceObj.Hess (Deformation.obj {} (Invariants.material (TOD.init C10 C01 C11 C20 C30 strain).mat)) z) P X Y → Near F Y (c * d ^ 2) := by
  obtain ⟨δ, hδ, c, hc, hcδ, h⟩ := newton_core (C26_third_order C10 C01 C11 C20 C30 strain z)
    (fun Y _ => by
      obtain ⟨P', hP'⟩ := tod_space_total .deformation (TOD.init C10 C01 C11 C20 C30 strain) Y z { material := { material := () } }
      exact ⟨P', _, _, hP'⟩)
    (fun Y _ => by
      obtain ⟨A', hA'⟩ := tod_def_hess_total (TOD.init C10 C01 C11 C20 C30 strain) Y z { material := { material := () } }
      exact ⟨A', _, hA'⟩)
    (inside_det hF) hP hA hreg
    (lipschitzResult_of_locLip (dom := fun F => F.det ≠ 0) (inside_det hF) (fun X A hX hA => tod_tangent hX hA)
      (locLip_todTangent _ F))
  refine ⟨δ, hδ, c, hc, hcδ, fun X d hd hX => ?_⟩
  obtain ⟨⟨Y, hY⟩, hr, hdet, hN⟩ := h X d hd hX
  refine ⟨⟨Y, hY, fun Y' hY' => newtonStep_unique ?_ ?_ hr hY' hY⟩, hN⟩
  · intro P P' hP hP'
    obtain ⟨G, hG, rfl⟩ := (Deformation.grad_iff _ _ _ _).1 hP
    obtain ⟨G', hG', rfl⟩ := (Deformation.grad_iff _ _ _ _).1 hP'
    rw [(tod_grad _ z (symInv_cauchyGreen hdet)).1 hG, (tod_grad _ z (symInv_cauchyGreen hdet)).1 hG']
  · intro A A' hA hA'
    rw [tod_tangent hdet hA, tod_tangent hdet hA']

/-- Newton's iteration: every sequence of Newton steps which starts close enough to a deformation
gradient with a regular tangent converges to it, and the number of correct digits doubles in every step. -/
theorem C75_iteration {F P : Ten2 ℝ} {A : Ten4 ℝ} (hF : F.det ≠ 0) (hP : SpaceObj.Grad (Deformation.obj {} (Invariants.material (TOD.init C10 C01 C11 C20 C30 strain).mat)) z F P)
    (hA : SpaceObj.Hess (Deformation.obj {} (Invariants.material (TOD.init C10 C01 C11 C20 C30 strain).mat)) z F A) (hreg : Regular A) :
    ∃ δ > 0,
      (∀ X₀, Near F X₀ δ → ∃ X : ℕ → Ten2 ℝ, X 0 = X₀ ∧
        ∀ n, NewtonStep (SpaceObj.Grad (Deformation.obj {} (Invariants.material (TOD.init C10 C01 C11 C20 C30 strain).mat)) z) (SpaceObj.Hess (Deformation.obj {} (Invariants.material (TOD.init C10 C01 C11 C20 C30 strain).mat)) z) P (X n) (X (n + 1))) ∧
      ∀ X : ℕ → Ten2 ℝ, Near F (X 0) δ →
        (∀ n, NewtonStep (SpaceObj.Grad (Deformation.obj {} (Invariants.material (TOD.init C10 C01 C11 C20 C30 strain).mat)) z) (SpaceObj.Hess (Deformation.obj {} (Invariants.material (TOD.init C10 C01 C11 C20 C30 strain).mat)) z) P (X n) (X (n + 1))) →
        (∀ n, Near F (X n) (δ * (1 / 2) ^ (2 ^ n - 1))) ∧ ∀ i j, Tendsto (fun n => X n i j) atTop (𝓝 (F i j)) := by
  obtain ⟨δ, hδ, c, hc, hcδ, h⟩ := C75_third_order C10 C01 C11 C20 C30 strain z hF hP hA hreg
  refine ⟨δ, hδ, fun X₀ h0 => ?_, fun X h0 hs => ?_⟩
  · have hex : ∀ X : {X // Near F X δ}, ∃ Y : {X // Near F X δ},
        NewtonStep (SpaceObj.Grad (Deformation.obj {} (Invariants.material (TOD.init C10 C01 C11 C20 C30 strain).mat)) z) (SpaceObj.Hess (Deformation.obj {} (Invariants.material (TOD.init C10 C01 C11 C20 C30 strain).mat)) z) P X.1 Y.1 := by
      rintro ⟨X, hX⟩
      obtain ⟨⟨Y, hY, -⟩, hN⟩ := h X δ le_rfl hX
      refine ⟨⟨Y, fun i j => (hN Y hY i j).trans ?_⟩, hY⟩
      calc c * δ ^ 2 = c * δ * δ := by ring
        _ ≤ 1 / 2 * δ := mul_le_mul_of_nonneg_right hcδ hδ.le
        _ ≤ δ := by linarith
    choose g hg using hex
    refine ⟨fun n => (g^[n] ⟨X₀, h0⟩).1, rfl, fun n => ?_⟩
    simp only [Function.iterate_succ_apply']
    exact hg _
  · have hN := newton_sequence hδ hcδ (fun X d hd hX => (h X d hd hX).2) h0 hs
    refine ⟨hN, fun i j => ?_⟩
    rw [tendsto_iff_dist_tendsto_zero]
    refine squeeze_zero (fun n => dist_nonneg) (fun n => hN n i j) ?_
    have h1 : Tendsto (fun n : ℕ => 2 ^ n - 1) atTop atTop :=
      tendsto_atTop_mono (fun n => by have := Nat.lt_two_pow_self (n := n); simp only [id_eq]; omega) tendsto_id
    have h2 := (tendsto_pow_atTop_nhds_zero_of_lt_one (r := (1 / 2 : ℝ)) (by norm_num) (by norm_num)).comp h1
    simpa using h2.const_mul δ

end

/-- A neo-Hookean material (only `C10 ≠ 0`) has a regular tangent at every invertible deformation gradient. -/
example (z : Z) {F : Ten2 ℝ} {A : Ten4 ℝ} (hF : F.det ≠ 0)
    (hA : SpaceObj.Hess (Deformation.obj {} (Invariants.material (TOD.init 1 0 0 0 0 false).mat)) z F A) : Regular A := by
  rw [tod_tangent hF hA]
  intro U hU
  ext i j
  have h := hU i j
  fin_cases i <;> fin_cases j <;>
    simpa [contract42, todTangent, piolaT, todHessT, todGradT, TOD.init, dyadIK, Matrix.one_apply, Fin.sum_univ_three] using h

end Props
