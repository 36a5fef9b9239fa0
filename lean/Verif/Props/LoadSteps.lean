import Verif.Proofs.LoadSteps
import Verif.Props.NewtonOgden

/-! # Property C96: load steps -/

namespace Props
open Spec Hel Matrix Filter Topology

variable {Z : Type} {ret : Ten2 ℝ → Ten2 ℝ → Prop} {retH : Ten2 ℝ → Ten4 ℝ → Prop}

/-- From every start close to `F` there is exactly one infinite sequence of Newton steps, and it converges. -/
theorem C96_sequence {F P : Ten2 ℝ} (h : SmallLoadSteps ret retH F P) :
    ∃ r > 0, ∃ ε > 0, ∀ T, Near P T ε → ∃ S, Near F S r ∧ ret S T ∧ ∀ X₀, Near F X₀ r →
      (∃! X : ℕ → Ten2 ℝ, X 0 = X₀ ∧ ∀ n, NewtonStep ret retH T (X n) (X (n + 1))) ∧
      ∀ X : ℕ → Ten2 ℝ, X 0 = X₀ → (∀ n, NewtonStep ret retH T (X n) (X (n + 1))) →
        ∀ i j, Tendsto (fun n => X n i j) atTop (𝓝 (S i j)) := by
  obtain ⟨r, hr, ε, hε, K, -, h⟩ := h
  refine ⟨r, hr, ε, hε, fun T hT => ?_⟩
  obtain ⟨S, hS, hST, h⟩ := h T hT
  refine ⟨S, hS, hST, fun X₀ hX₀ => ⟨unique_sequence fun X n h0 hs => (h X n (h0 ▸ hX₀) hs).2, fun X h0 hs i j => ?_⟩⟩
  rw [tendsto_iff_dist_tendsto_zero]
  refine squeeze_zero (fun n => dist_nonneg) (fun n => (h X n (h0 ▸ hX₀) fun k _ => hs k).1 i j) ?_
  have h2 := tendsto_pow_atTop_nhds_zero_of_lt_one (r := (1 / 2 : ℝ)) (by norm_num) (by norm_num)
  simpa using h2.const_mul (2 * r)

/-- **Incremental loading.**  Along a continuous path of deformation gradients from each of which small load steps are possible,
the incremental procedure with sufficiently many load steps and Newton iterations does not break down, has only one result, and
follows the path: in every load step, the error after `n` iterations is at most `C / 2ⁿ`. -/
theorem C96_incremental {F T : ℝ → Ten2 ℝ} (hF : ContinuousOn F (Set.Icc 0 1)) (hT : ContinuousOn T (Set.Icc 0 1))
    (hret : ∀ t ∈ Set.Icc (0 : ℝ) 1, ret (F t) (T t))
    (hsmall : ∀ t ∈ Set.Icc (0 : ℝ) 1, SmallLoadSteps ret retH (F t) (T t)) :
    ∃ N₀ m₀ : ℕ, ∃ r > 0, ∃ C : ℝ, ∀ N ≥ N₀, ∀ m ≥ m₀,
      (∀ X₀, Near (F 0) X₀ r → ∃ X, X 0 0 = X₀ ∧ IncrementalRun ret retH T N m X) ∧
      (∀ X X', Near (F 0) (X 0 0) r → X 0 0 = X' 0 0 → IncrementalRun ret retH T N m X → IncrementalRun ret retH T N m X' →
        ∀ k < N, ∀ n ≤ m, X k n = X' k n) ∧
      ∀ X, Near (F 0) (X 0 0) r → IncrementalRun ret retH T N m X → ∀ k < N, ∀ n ≤ m,
        Near (F ((k + 1) / N)) (X k n) (C * (1 / 2) ^ n) := by
  obtain ⟨η, hη, r, hr, C, h⟩ := uniform_load_steps hF hT hret hsmall
  obtain ⟨N₀, hN₀⟩ := exists_nat_gt (1 / η)
  obtain ⟨m₀, hm₀⟩ : ∃ m₀ : ℕ, ∀ m ≥ m₀, C * (1 / 2) ^ m ≤ r := by
    have h2 := (tendsto_pow_atTop_nhds_zero_of_lt_one (r := (1 / 2 : ℝ)) (by norm_num) (by norm_num)).const_mul C
    rw [mul_zero] at h2
    obtain ⟨m₀, h3⟩ := eventually_atTop.1 (h2.eventually (gt_mem_nhds hr))
    exact ⟨m₀, fun m hm => (h3 m hm).le⟩
  refine ⟨N₀, m₀, r, hr, C, fun N hN m hm => ?_⟩
  have N0 : (0 : ℝ) < N := (by positivity : 0 < 1 / η).trans (hN₀.trans_le (by exact_mod_cast hN))
  have step : ∀ k : ℕ, k < N → ((k : ℝ) / N) ∈ Set.Icc (0 : ℝ) 1 ∧ ((k + 1 : ℝ) / N) ∈ Set.Icc (0 : ℝ) 1 ∧
      |(k + 1 : ℝ) / N - k / N| < η := by
    intro k hk
    have hk' : (k : ℝ) + 1 ≤ N := by exact_mod_cast hk
    refine ⟨⟨by positivity, (div_le_one N0).2 (by linarith)⟩, ⟨by positivity, (div_le_one N0).2 hk'⟩, ?_⟩
    rw [← sub_div, add_sub_cancel_left, abs_of_pos (by positivity)]
    exact (one_div_lt hη N0).1 (hN₀.trans_le (by exact_mod_cast hN))
  -- one load step
  have load : ∀ k < N, ∀ (X : ℕ → Ten2 ℝ) n, Near (F (k / N)) (X 0) r →
      (∀ n' < n, NewtonStep ret retH (T ((k + 1) / N)) (X n') (X (n' + 1))) →
      Near (F ((k + 1) / N)) (X n) (C * (1 / 2) ^ n) ∧ ∃! Y, NewtonStep ret retH (T ((k + 1) / N)) (X n) Y :=
    fun k hk X n h0 hX => h _ (step k hk).1 _ (step k hk).2.1 (step k hk).2.2 X n h0 hX
  -- all load steps
  have all : ∀ X, Near (F 0) (X 0 0) r → IncrementalRun ret retH T N m X → ∀ k < N, Near (F (k / N)) (X k 0) r := by
    intro X h0 hX k
    induction k with
    | zero => intro _; simpa using h0
    | succ k ih =>
      intro hk
      have hk' : k < N := k.lt_succ_self.trans hk
      rw [hX.2 k hk]
      have := (load k hk' (X k) m (ih hk') fun n hn => hX.1 k hk' n hn).1
      push_cast
      exact fun i j => (this i j).trans (hm₀ m hm)
  refine ⟨fun X₀ hX₀ => ?_, fun X X' h0 hXX hX hX' => ?_, fun X h0 hX k hk n hn =>
    (load k hk (X k) n (all X h0 hX k hk) fun n' hn' => hX.1 k hk n' (hn'.trans_le hn)).1⟩
  · have hex : ∀ (T : Ten2 ℝ) (x : Ten2 ℝ), ∃ y, (∃ y, NewtonStep ret retH T x y) → NewtonStep ret retH T x y := fun T x => by
      by_cases hx : ∃ y, NewtonStep ret retH T x y
      · exact ⟨hx.choose, fun _ => hx.choose_spec⟩
      · exact ⟨x, fun h => absurd h hx⟩
    choose g hg using hex
    let start : ℕ → Ten2 ℝ := fun k => Nat.rec X₀ (fun k x => (g (T ((k + 1) / N)))^[m] x) k
    have key : ∀ k < N, Near (F (k / N)) (start k) r → ∀ n, ∀ n' < n,
        NewtonStep ret retH (T ((k + 1) / N)) ((g (T ((k + 1) / N)))^[n'] (start k)) ((g (T ((k + 1) / N)))^[n' + 1] (start k)) := by
      intro k hk h0 n
      induction n with
      | zero => intro n' hn'; exact absurd hn' (Nat.not_lt_zero _)
      | succ n ih =>
        intro n' hn'
        rcases Nat.lt_succ_iff_lt_or_eq.1 hn' with hn' | rfl
        · exact ih n' hn'
        · rw [Function.iterate_succ_apply']
          exact hg _ _ (load k hk (fun n => (g (T ((k + 1) / N)))^[n] (start k)) n' h0 ih).2.exists
    have hst : ∀ k < N, Near (F (k / N)) (start k) r := by
      intro k
      induction k with
      | zero =>
        intro _
        change Near _ X₀ r
        simpa using hX₀
      | succ k ih =>
        intro hk
        have hk' : k < N := k.lt_succ_self.trans hk
        have := (load k hk' (fun n => (g (T ((k + 1) / N)))^[n] (start k)) m (ih hk') (key k hk' (ih hk') m)).1
        push_cast
        exact fun i j => (this i j).trans (hm₀ m hm)
    exact ⟨fun k n => (g (T ((k + 1) / N)))^[n] (start k), rfl, fun k hk n hn => key k hk (hst k hk) m n hn, fun k _ => rfl⟩
  · have inner : ∀ k < N, X k 0 = X' k 0 → ∀ n ≤ m, X k n = X' k n := by
      intro k hk hk0 n
      induction n with
      | zero => intro _; exact hk0
      | succ n ih =>
        intro hn
        have h1 := hX'.1 k hk n hn
        rw [← ih (n.le_succ.trans hn)] at h1
        exact (load k hk (X k) n (all X h0 hX k hk) fun n' hn' => hX.1 k hk n' (hn'.trans hn)).2.unique (hX.1 k hk n hn) h1
    have outer : ∀ k < N, X k 0 = X' k 0 := by
      intro k
      induction k with
      | zero => intro _; exact hXX
      | succ k ih =>
        intro hk
        have hk' : k < N := k.lt_succ_self.trans hk
        rw [hX.2 k hk, hX'.2 k hk]
        exact inner k hk' (ih hk') m le_rfl
    exact fun k hk => inner k hk (outer k hk)

/-- **C96.**  Third-order-deformation materials on the deformation space: small load steps are possible from every
deformation gradient with a regular tangent. -/
theorem C96_third_order (C10 C01 C11 C20 C30 : ℝ) (strain : Bool) (z : Z) {F P : Ten2 ℝ} {A : Ten4 ℝ} (hF : F.det ≠ 0)
    (hP : SpaceObj.Grad (Deformation.obj {} (Invariants.material (TOD.init C10 C01 C11 C20 C30 strain).mat)) z F P)
    (hA : SpaceObj.Hess (Deformation.obj {} (Invariants.material (TOD.init C10 C01 C11 C20 C30 strain).mat)) z F A) (hreg : Regular A) :
    SmallLoadSteps (SpaceObj.Grad (Deformation.obj {} (Invariants.material (TOD.init C10 C01 C11 C20 C30 strain).mat)) z)
      (SpaceObj.Hess (Deformation.obj {} (Invariants.material (TOD.init C10 C01 C11 C20 C30 strain).mat)) z) F P := by
  obtain ⟨K, hK, hKA⟩ := regular_bound hreg
  obtain ⟨δ, hδ, L, hL⟩ := lipschitzResult_of_locLip (retH := SpaceObj.Hess (Deformation.obj {} (Invariants.material (TOD.init C10 C01 C11 C20 C30 strain).mat)) z)
    (dom := fun F => F.det ≠ 0) (inside_det hF) (fun X A hX hA => tod_tangent hX hA) (locLip_todTangent _ F)
  have near0 : Near F F δ := fun i j => by rw [sub_self, abs_zero]; exact hδ.le
  refine smallLoadSteps (dom := fun F => F.det ≠ 0) (A := A) (K := K) (δ := δ) (L := max L 0) (e := 0) ?_ ?_ ?_ ?_ (inside_det hF) hP hK hKA hδ (le_max_right _ _) ⟨?_, ?_⟩ (by norm_num)
  · intro X P P' hdet hP hP'
    obtain ⟨G, hG, rfl⟩ := (Deformation.grad_iff _ _ _ _).1 hP
    obtain ⟨G', hG', rfl⟩ := (Deformation.grad_iff _ _ _ _).1 hP'
    rw [(tod_grad _ z (symInv_cauchyGreen hdet)).1 hG, (tod_grad _ z (symInv_cauchyGreen hdet)).1 hG']
  · intro Y _
    obtain ⟨P', hP'⟩ := tod_space_total .deformation (TOD.init C10 C01 C11 C20 C30 strain) Y z { material := { material := () } }
    exact ⟨P', _, _, hP'⟩
  · intro Y _
    obtain ⟨A', hA'⟩ := tod_def_hess_total (TOD.init C10 C01 C11 C20 C30 strain) Y z { material := { material := () } }
    exact ⟨A', _, hA'⟩
  · intro X A A' hdet hA hA'
    rw [tod_tangent hdet hA, tod_tangent hdet hA']
  · intro X d B hd hX hB i j k l
    refine (hL F X A B d near0 (fun i j => (hX i j).trans hd) hX hA hB i j k l).trans ?_
    rw [add_zero]
    exact mul_le_mul_of_nonneg_right (le_max_left _ _) (near_pos hX)
  · intro Y V s Q B d v hd hY hdom hm hQ hB hv i j
    refine ⟨_, C26_third_order C10 C01 C11 C20 C30 strain z Y V s Q B hdom hm hQ hB i j, ?_⟩
    rw [sub_self, abs_zero, add_zero]
    have h1 := near_pos hY
    have h2 : 0 ≤ v := (abs_nonneg _).trans (hv 0 0)
    have h3 : 0 ≤ max L 0 := le_max_right _ _
    positivity

section
variable (lapack : Eigh) (hl : EighValid lapack) (mu alpha : List ℝ) (z : Z)
include hl

/-- Ogden materials on the deformation space, whose returned tangent is discontinuous: small load steps are possible from every
deformation gradient whose tangent is bounded below, if the tolerance is small compared to it. -/
theorem C96_ogden (hα : ∀ p ∈ mu.zip alpha, p.2 ≠ 0) {F P : Ten2 ℝ} {A : Ten4 ℝ} {K f m M τ : ℝ} (hF : F.det ≠ 0)
    (hP : SpaceObj.Grad (Deformation.obj {} (Stretches.material lapack (Ogden.mat ⟨mu, alpha⟩))) z F P)
    (hA : SpaceObj.Hess (Deformation.obj {} (Stretches.material lapack (Ogden.mat ⟨mu, alpha⟩))) z F A)
    (hK : 0 < K) (hKA : BoundedBelow K A) (hf : ∀ i j, |F i j| ≤ f) (hm : 0 < m)
    (hE : ∀ w v, Spectral (cauchyGreen F) w v → ∀ a, m < w a ∧ w a < M) (hτ0 : 0 ≤ τ)
    (hτ : ∀ w v, Spectral (cauchyGreen F) w v → ∀ a b, |w a - w b| ≤ 1 / 10 ^ 8 → |w a - w b| ≤ τ)
    (hsmall : 4104 * K * f ^ 2 * ogdenLipschitz mu alpha m M * τ ≤ 1 / 4) :
    SmallLoadSteps (SpaceObj.Grad (Deformation.obj {} (Stretches.material lapack (Ogden.mat ⟨mu, alpha⟩))) z)
      (SpaceObj.Hess (Deformation.obj {} (Stretches.material lapack (Ogden.mat ⟨mu, alpha⟩))) z) F P := by
  obtain ⟨δ₀, hδ₀, L, hL, hN⟩ := ogden_nearly lapack hl hα hF hf hm hE hτ0 hτ hA
  have e : 38 * K * (108 * f ^ 2 * ogdenLipschitz mu alpha m M * τ) = 4104 * K * f ^ 2 * ogdenLipschitz mu alpha m M * τ := by ring
  refine smallLoadSteps ?_ (fun Y hY => ogden_def_total lapack hl mu alpha z hα Y hY) (fun Y _ => ogden_hess_total lapack hα Y) ?_
    (inside_det hF) hP hK (boundedBelow_norm.1 hKA) hδ₀ hL hN (by rw [e]; exact hsmall)
  · intro X P P' hX hP hP'
    obtain ⟨G, hG, rfl⟩ := (Deformation.grad_iff _ _ _ _).1 hP
    obtain ⟨G', hG', rfl⟩ := (Deformation.grad_iff _ _ _ _).1 hP'
    rw [ogden_grad_form lapack hl (posDef_cauchyGreen hX) hG, ogden_grad_form lapack hl (posDef_cauchyGreen hX) hG']
  · intro X A A' hdet hA hA'
    obtain ⟨G, H, hG, hH, rfl⟩ := Deformation.hess_elim hA
    obtain ⟨G', H', hG', hH', rfl⟩ := Deformation.hess_elim hA'
    rw [ogden_grad_form lapack hl (posDef_cauchyGreen hdet) hG, ogden_grad_form lapack hl (posDef_cauchyGreen hdet) hG',
      ogden_hess_unique lapack hl (posDef_cauchyGreen hdet) hH hH']

/-- Incremental loading of Ogden materials along a path of invertible deformation gradients, the undeformed one and those with
unequal stretches within the tolerance included. -/
theorem C96_ogden_incremental (hα : ∀ p ∈ mu.zip alpha, p.2 ≠ 0) {F T : ℝ → Ten2 ℝ} {K f m M : ℝ}
    (hF : ContinuousOn F (Set.Icc 0 1)) (hT : ContinuousOn T (Set.Icc 0 1)) (hdet : ∀ t ∈ Set.Icc (0 : ℝ) 1, (F t).det ≠ 0)
    (hP : ∀ t ∈ Set.Icc (0 : ℝ) 1, SpaceObj.Grad (Deformation.obj {} (Stretches.material lapack (Ogden.mat ⟨mu, alpha⟩))) z (F t) (T t))
    (hK : 0 < K) (hKA : ∀ t ∈ Set.Icc (0 : ℝ) 1, ∀ A,
      SpaceObj.Hess (Deformation.obj {} (Stretches.material lapack (Ogden.mat ⟨mu, alpha⟩))) z (F t) A → BoundedBelow K A)
    (hf : ∀ t ∈ Set.Icc (0 : ℝ) 1, ∀ i j, |F t i j| ≤ f) (hm : 0 < m)
    (hE : ∀ t ∈ Set.Icc (0 : ℝ) 1, ∀ w v, Spectral (cauchyGreen (F t)) w v → ∀ a, m < w a ∧ w a < M)
    (hsmall : 4104 * K * f ^ 2 * ogdenLipschitz mu alpha m M * (1 / 10 ^ 8) ≤ 1 / 4) :
    ∃ N₀ m₀ : ℕ, ∃ r > 0, ∃ C : ℝ, ∀ N ≥ N₀, ∀ m ≥ m₀,
      (∀ X₀, Near (F 0) X₀ r → ∃ X, X 0 0 = X₀ ∧
        IncrementalRun (SpaceObj.Grad (Deformation.obj {} (Stretches.material lapack (Ogden.mat ⟨mu, alpha⟩))) z)
          (SpaceObj.Hess (Deformation.obj {} (Stretches.material lapack (Ogden.mat ⟨mu, alpha⟩))) z) T N m X) ∧
      ∀ X, Near (F 0) (X 0 0) r →
        IncrementalRun (SpaceObj.Grad (Deformation.obj {} (Stretches.material lapack (Ogden.mat ⟨mu, alpha⟩))) z)
          (SpaceObj.Hess (Deformation.obj {} (Stretches.material lapack (Ogden.mat ⟨mu, alpha⟩))) z) T N m X →
        ∀ k < N, ∀ n ≤ m, Near (F ((k + 1) / N)) (X k n) (C * (1 / 2) ^ n) := by
  obtain ⟨N₀, m₀, r, hr, C, h⟩ := C96_incremental hF hT hP fun t ht => by
    obtain ⟨A, hA⟩ := ogden_hess_total lapack (z := z) hα (F t)
    exact C96_ogden lapack hl mu alpha z hα (hdet t ht) (hP t ht) hA hK (hKA t ht A hA) (hf t ht) hm (hE t ht) (by norm_num)
      (fun _ _ _ _ _ h => h) hsmall
  exact ⟨N₀, m₀, r, hr, C, fun N hN m hm => ⟨(h N hN m hm).1, (h N hN m hm).2.2⟩⟩

end

/-- A bar under tension, from the undeformed state to a stretch of `3/2`, with the model of one term with exponent three: the
path starts with equal stretches and goes through unequal ones within the tolerance. -/
example : ∃ (lapack : Eigh) (F T : ℝ → Ten2 ℝ), EighValid lapack ∧ (∀ p ∈ [(1 : ℝ)].zip [(3 : ℝ)], p.2 ≠ 0) ∧
    F 0 = 1 ∧ F 1 = diagonal ![1, 3 / 2, 1] ∧ (∃ t ∈ Set.Icc (0 : ℝ) 1, ¬ Separated (cauchyGreen (F t))) ∧
    ContinuousOn F (Set.Icc 0 1) ∧ ContinuousOn T (Set.Icc 0 1) ∧ (∀ t ∈ Set.Icc (0 : ℝ) 1, (F t).det ≠ 0) ∧
    (∀ t ∈ Set.Icc (0 : ℝ) 1, SpaceObj.Grad (Deformation.obj {} (Stretches.material lapack (Ogden.mat ⟨[1], [3]⟩))) () (F t) (T t)) ∧
    (∀ t ∈ Set.Icc (0 : ℝ) 1, ∀ A,
      SpaceObj.Hess (Deformation.obj {} (Stretches.material lapack (Ogden.mat ⟨[1], [3]⟩))) () (F t) A → BoundedBelow 6 A) ∧
    (∀ t ∈ Set.Icc (0 : ℝ) 1, ∀ i j, |F t i j| ≤ 2) ∧
    (∀ t ∈ Set.Icc (0 : ℝ) 1, ∀ w v, Spectral (cauchyGreen (F t)) w v → ∀ a, 1 / 4 < w a ∧ w a < 4) ∧
    4104 * 6 * 2 ^ 2 * ogdenLipschitz [1] [3] (1 / 4) 4 * (1 / 10 ^ 8) ≤ 1 / 4 := by
  obtain ⟨lapack, hl⟩ := exists_eigh
  have hα : ∀ p ∈ [(1 : ℝ)].zip [(3 : ℝ)], p.2 ≠ 0 := by simp
  have h2 : ∀ p ∈ [(1 : ℝ)].zip [(3 : ℝ)], 0 ≤ p.1 ∧ 2 ≤ p.2 := by simp; try norm_num
  have hd : ∀ t ∈ Set.Icc (0 : ℝ) 1, (diagonal ![1, 1 + t / 2, (1 : ℝ)]).det ≠ 0 := fun t ht => by
    rw [Matrix.det_diagonal, Fin.prod_univ_three]
    simp
    linarith [ht.1]
  have hC : ∀ t : ℝ, cauchyGreen (diagonal ![1, 1 + t / 2, (1 : ℝ)]) = diagonal ![1, (1 + t / 2) ^ 2, (1 : ℝ)] := fun t => by
    rw [cauchyGreen, Matrix.diagonal_transpose, Matrix.diagonal_mul_diagonal]
    congr 1
    funext i
    fin_cases i <;> simp [pow_two]
  have hw : ∀ t ∈ Set.Icc (0 : ℝ) 1, ∀ w v, Spectral (cauchyGreen (diagonal ![1, 1 + t / 2, (1 : ℝ)])) w v → ∀ a, 1 ≤ w a ∧ w a < 4 := by
    intro t ht w v hS a
    rw [hC] at hS
    obtain ⟨p, rfl⟩ := (spectral_diagonal _).perm hS
    have : ∀ c : Fin 3, 1 ≤ ![1, (1 + t / 2) ^ 2, (1 : ℝ)] c ∧ ![1, (1 + t / 2) ^ 2, (1 : ℝ)] c < 4 := by
      intro c
      fin_cases c
      · norm_num
      · change 1 ≤ (1 + t / 2) ^ 2 ∧ (1 + t / 2) ^ 2 < 4
        constructor <;> nlinarith [ht.1, ht.2]
      · norm_num
    exact this _
  -- the stress is continuous
  let T : ℝ → Ten2 ℝ := fun t => diagonal fun a => 2 * 1 / 3 * ![1, 1 + t / 2, (1 : ℝ)] a ^ ((3 : ℝ) - 1)
  have hTc : Continuous T := by
    refine Continuous.matrix_diagonal (continuous_pi fun a => ?_)
    refine continuous_const.mul (Continuous.rpow_const ?_ fun _ => Or.inr (by norm_num))
    fin_cases a
    · exact continuous_const
    · exact continuous_const.add (continuous_id.div_const _)
    · exact continuous_const
  have hFc : Continuous fun t : ℝ => diagonal ![1, 1 + t / 2, (1 : ℝ)] := by
    refine Continuous.matrix_diagonal (continuous_pi fun a => ?_)
    fin_cases a
    · exact continuous_const
    · exact continuous_const.add (continuous_id.div_const _)
    · exact continuous_const
  have hT : ∀ t ∈ Set.Icc (0 : ℝ) 1,
      SpaceObj.Grad (Deformation.obj {} (Stretches.material lapack (Ogden.mat ⟨[1], [3]⟩))) () (diagonal ![1, 1 + t / 2, (1 : ℝ)]) (T t) := by
    intro t ht
    have hp : Positive ![1, 1 + t / 2, (1 : ℝ)] := fun a => by
      fin_cases a
      · exact one_pos
      · change 0 < 1 + t / 2
        linarith [ht.1]
      · exact one_pos
    have := C52_ogden lapack hl [1] [3] (by simp) () { material := { material := () } } hp orthogonal_one orthogonal_one
    simp only [transpose_one, Matrix.mul_one, Matrix.one_mul, List.zip_cons_cons, List.zip_nil_right, List.map_cons, List.map_nil, List.sum_cons,
      List.sum_nil, add_zero] at this
    have e : ∀ A : Ten2 ℝ, A * (1 : Ten2 ℝ) = A := fun A => Matrix.mul_one A
    refine ⟨_, (), this.trans ?_⟩
    simp only [Except.ok.injEq, Prod.mk.injEq, and_true]
    exact congrArg Stress.full (e _)
  refine ⟨lapack, fun t => diagonal ![1, 1 + t / 2, (1 : ℝ)], T, hl, hα, ?_, ?_, ⟨2 / 10 ^ 9, by norm_num, fun hs => ?_⟩, hFc.continuousOn,
    hTc.continuousOn, hd, hT, fun t ht A hA => ?_, fun t ht i j => ?_, fun t ht w v hS a => ⟨by linarith [(hw t ht w v hS a).1], (hw t ht w v hS a).2⟩, ?_⟩
  · ext i j
    fin_cases i <;> fin_cases j <;> simp [Matrix.diagonal, Matrix.one_apply]
  · change diagonal ![1, 1 + 1 / 2, (1 : ℝ)] = _
    norm_num
  · have hS : Spectral (cauchyGreen (diagonal ![1, 1 + 2 / 10 ^ 9 / 2, (1 : ℝ)])) ![1, (1 + 2 / 10 ^ 9 / 2) ^ 2, (1 : ℝ)] 1 := by
      rw [hC]; exact spectral_diagonal _
    rcases hs _ _ hS 1 0 with h | h
    · norm_num at h
    · simp at h
      rw [lt_abs] at h
      norm_num at h
  · have := C94_bounded_below lapack hl [1] [3] () h2 (r := 1 / 4) (hd t ht) (by norm_num) (fun w v hS a => by
      have h1 := (hw t ht w v hS a).1
      have h3 : (1 : ℝ) ≤ w a ^ ((1 : ℝ) / 2) := Real.one_le_rpow h1 (by norm_num)
      have e : ogdenRate [1] [3] (w a) = 1 / 3 * w a ^ ((1 : ℝ) / 2) := by
        simp [ogdenRate]; norm_num
      rw [e]
      linarith) hA
    norm_num at this ⊢
    exact this
  · change |(diagonal ![1, 1 + t / 2, (1 : ℝ)] : Ten2 ℝ) i j| ≤ 2
    rw [Matrix.diagonal_apply]
    split_ifs
    · fin_cases i
      · norm_num
      · change |1 + t / 2| ≤ 2
        rw [abs_le]
        constructor <;> linarith [ht.1, ht.2]
      · norm_num
    · norm_num
  · have e1 : ((1 : ℝ) / 4) ^ ((3 : ℝ) / 2 - 3) = 8 := by
      rw [show ((1 : ℝ) / 4) = (2 : ℝ) ^ (-2 : ℝ) by rw [Real.rpow_neg (by norm_num)]; norm_num, ← Real.rpow_mul (by norm_num)]
      norm_num
    have e2 : (4 : ℝ) ^ ((3 : ℝ) / 2 - 3) = 1 / 8 := by
      rw [show (4 : ℝ) = (2 : ℝ) ^ (2 : ℝ) by norm_num, ← Real.rpow_mul (by norm_num)]
      norm_num
      try rw [show (-3 : ℝ) = -(3 : ℝ) by norm_num, Real.rpow_neg (by norm_num)]
      try norm_num
    simp only [ogdenLipschitz, List.zip_cons_cons, List.zip_nil_left, List.map_cons, List.map_nil, List.sum_cons, List.sum_nil, e1, e2]
    norm_num [abs_le]

end Props
