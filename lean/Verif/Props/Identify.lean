import Verif.Proofs.Exponentials
import Verif.Props.FitOgden
import Verif.Spec.Identify

/-!
# Ogden materials are identified by one test (C82)
-/

namespace Props
open Spec Hel

variable {Z : Type}

/-! ### lists of terms -/

/-- The coefficient of the power with the exponent `a`. -/
noncomputable def ogdenCoef (L : List (ℝ × ℝ)) (a : ℝ) : ℝ := (L.map fun p => if p.2 = a then 2 * p.1 / p.2 else 0).sum

/-- The exponents. -/
noncomputable def exponents (L : List (ℝ × ℝ)) : Finset ℝ := (L.map Prod.snd).toFinset

theorem ogdenCoef_of_notMem {L : List (ℝ × ℝ)} {a : ℝ} (h : a ∉ exponents L) : ogdenCoef L a = 0 := by
  refine List.sum_eq_zero fun x hx => ?_
  obtain ⟨p, hp, rfl⟩ := List.mem_map.1 hx
  rw [if_neg]
  rintro rfl
  exact h (List.mem_toFinset.2 (List.mem_map.2 ⟨p, hp, rfl⟩))

theorem sum_terms (L : List (ℝ × ℝ)) (g : ℝ → ℝ) (S : Finset ℝ) (hS : exponents L ⊆ S) :
    (L.map fun p => 2 * p.1 / p.2 * g p.2).sum = ∑ a ∈ S, ogdenCoef L a * g a := by
  induction L with
  | nil => simp [ogdenCoef]
  | cons p L ih =>
    have h1 : exponents L ⊆ S := fun a ha => hS (by
      rw [exponents, List.map_cons, List.toFinset_cons]
      exact Finset.mem_insert_of_mem ha)
    have h2 : p.2 ∈ S := hS (by
      rw [exponents, List.map_cons, List.toFinset_cons]
      exact Finset.mem_insert_self _ _)
    rw [List.map_cons, List.sum_cons, ih h1]
    simp only [ogdenCoef, List.map_cons, List.sum_cons, add_mul]
    rw [Finset.sum_add_distrib]
    congr 1
    simp only [ite_mul, zero_mul]
    rw [Finset.sum_ite_eq, if_pos h2]

/-- The second exponent of a term in the curves. -/
noncomputable def loadRatio : LoadKind → ℝ
  | .uniaxial => -1 / 2
  | .planar => -1
  | .biaxial => -2

theorem ogdenCurve_eq (k : LoadKind) (p : ℝ × ℝ) {l : ℝ} (hl : 0 < l) :
    ogdenCurve k p.1 p.2 l * l = 2 * p.1 / p.2 * (l ^ p.2 - l ^ (loadRatio k * p.2)) := by
  have h : ∀ e : ℝ, l ^ (e - 1) * l = l ^ e := fun e => by
    rw [Real.rpow_sub_one hl.ne', div_mul_cancel₀ _ hl.ne']
  cases k <;> simp only [ogdenCurve, loadRatio] <;> rw [mul_assoc, sub_mul, h, h] <;> congr 3 <;> ring

/-- A vanishing curve with enough data. -/
theorem coef_zero {k : LoadKind} (hk : k = .uniaxial ∨ k = .biaxial) {L : List (ℝ × ℝ)} (h0 : ∀ p ∈ L, p.2 ≠ 0) {n : ℕ}
    (hn : (exponents L).card ≤ n) {T : Finset ℝ} (hT : 2 * n ≤ T.card + 1) (hp : ∀ l ∈ T, 0 < l) (h1 : ∀ l ∈ T, l ≠ 1)
    (hz : ∀ l ∈ T, (L.map fun p => ogdenCurve k p.1 p.2 l).sum = 0) (a : ℝ) : ogdenCoef L a = 0 := by
  set ρ := loadRatio k with hρ
  have hρ0 : ρ ≠ 0 := by rcases hk with rfl | rfl <;> simp [hρ, loadRatio]
  set E := exponents L with hE
  set S := E ∪ E.image (ρ * ·) with hS
  set d : ℝ → ℝ := fun e => ogdenCoef L e - ogdenCoef L (e / ρ) with hd
  have hsum : ∀ l, 0 < l → (L.map fun p => ogdenCurve k p.1 p.2 l).sum * l = ∑ e ∈ S, d e * l ^ e := by
    intro l hl
    have e1 : (L.map fun p => ogdenCurve k p.1 p.2 l).sum * l =
        (L.map fun p => 2 * p.1 / p.2 * (l ^ p.2 - l ^ (ρ * p.2))).sum := by
      rw [← List.sum_map_mul_right]
      congr 1
      exact List.map_congr_left fun p _ => ogdenCurve_eq k p hl
    rw [e1, sum_terms L (fun a => l ^ a - l ^ (ρ * a)) E le_rfl]
    simp only [hd, mul_sub, sub_mul, Finset.sum_sub_distrib]
    congr 1
    · exact Finset.sum_subset Finset.subset_union_left fun x _ hx => by rw [ogdenCoef_of_notMem hx, zero_mul]
    · have h2 : ∑ e ∈ S, ogdenCoef L (e / ρ) * l ^ e = ∑ e ∈ E.image (ρ * ·), ogdenCoef L (e / ρ) * l ^ e := by
        refine (Finset.sum_subset Finset.subset_union_right fun x _ hx => ?_).symm
        rw [ogdenCoef_of_notMem, zero_mul]
        intro h
        exact hx (Finset.mem_image.2 ⟨x / ρ, h, mul_div_cancel₀ _ hρ0⟩)
      rw [h2, Finset.sum_image fun x _ y _ h => mul_left_cancel₀ hρ0 h]
      refine Finset.sum_congr rfl fun x _ => ?_
      rw [mul_div_cancel_left₀ _ hρ0]
  have hcard : S.card ≤ (insert 1 T).card := by
    have h2 : S.card ≤ E.card + (E.image (ρ * ·)).card := Finset.card_union_le _ _
    have h3 : (E.image (ρ * ·)).card ≤ E.card := Finset.card_image_le
    rw [Finset.card_insert_of_notMem fun h => h1 1 h rfl]
    omega
  have hzero := rpow_sum_zero S d (insert 1 T) hcard
    (fun t ht => by
      rcases Finset.mem_insert.1 ht with rfl | ht
      · exact one_pos
      · exact hp t ht)
    (fun t ht => by
      rcases Finset.mem_insert.1 ht with rfl | ht
      · rw [← hsum 1 one_pos, List.sum_eq_zero, zero_mul]
        intro x hx
        obtain ⟨p, -, rfl⟩ := List.mem_map.1 hx
        cases k <;> simp [ogdenCurve]
      · rw [← hsum t (hp t ht), hz t ht, zero_mul])
  have hstep : ∀ e, ogdenCoef L e = ogdenCoef L (e / ρ) := by
    intro e
    by_cases he : e ∈ S
    · exact sub_eq_zero.1 (hzero e he)
    · rw [ogdenCoef_of_notMem fun h => he (Finset.mem_union_left _ h), ogdenCoef_of_notMem]
      intro h
      exact he (Finset.mem_union_right _ (Finset.mem_image.2 ⟨e / ρ, h, mul_div_cancel₀ _ hρ0⟩))
  by_contra hne
  have ha : a ≠ 0 := by
    rintro rfl
    refine hne (List.sum_eq_zero fun x hx => ?_)
    obtain ⟨p, hp, rfl⟩ := List.mem_map.1 hx
    rw [if_neg (h0 p hp)]
  have hiter : ∀ n : ℕ, a / ρ ^ n ∈ E := by
    intro n
    by_contra h
    refine hne ?_
    have : ∀ n : ℕ, ogdenCoef L a = ogdenCoef L (a / ρ ^ n) := by
      intro n
      induction n with
      | zero => simp
      | succ n ih => rw [ih, hstep, div_div, pow_succ]
    rw [this n, ogdenCoef_of_notMem h]
  have hinj : Function.Injective fun n : ℕ => a / ρ ^ n := by
    intro m n hmn
    have h2 : ρ ^ m = ρ ^ n := by
      have h3 : a / ρ ^ m = a / ρ ^ n := hmn
      rw [div_eq_div_iff (pow_ne_zero _ hρ0) (pow_ne_zero _ hρ0)] at h3
      exact (mul_left_cancel₀ ha h3).symm
    have h3 : |ρ| ^ m = |ρ| ^ n := by rw [← abs_pow, ← abs_pow, h2]
    refine pow_right_injective₀ (abs_pos.2 hρ0) ?_ h3
    rcases hk with rfl | rfl <;> norm_num [hρ, loadRatio, abs_of_neg]
  exact Set.infinite_range_of_injective hinj (E.finite_toSet.subset (Set.range_subset_iff.2 hiter))

/-! ### two materials -/

theorem ogdenCoef_append (L L' : List (ℝ × ℝ)) (a : ℝ) : ogdenCoef (L ++ L') a = ogdenCoef L a + ogdenCoef L' a := by
  simp [ogdenCoef]

theorem ogdenCoef_neg (L : List (ℝ × ℝ)) (a : ℝ) : ogdenCoef (L.map fun p => (-p.1, p.2)) a = -ogdenCoef L a := by
  induction L with
  | nil => simp [ogdenCoef]
  | cons p L ih =>
    simp only [ogdenCoef, List.map_cons, List.sum_cons] at ih ⊢
    rw [ih]
    split_ifs <;> ring

theorem ogdenCurve_neg (k : LoadKind) (m a l : ℝ) : ogdenCurve k (-m) a l = -ogdenCurve k m a l := by
  cases k <;> simp only [ogdenCurve] <;> ring

theorem mem_zip_right {mu alpha : List ℝ} {p : ℝ × ℝ} (h : p ∈ mu.zip alpha) : p.2 ∈ alpha :=
  (List.of_mem_zip (a := p.1) (b := p.2) h).2

theorem coef_eq {k : LoadKind} (hk : k = .uniaxial ∨ k = .biaxial) {mu alpha mu' alpha' : List ℝ}
    (ha : ∀ a ∈ alpha, a ≠ 0) (ha' : ∀ a ∈ alpha', a ≠ 0) {n : ℕ} (hn : (alpha ++ alpha').toFinset.card ≤ n)
    {x : List ℝ} (hx : ∀ l ∈ x, 0 < l) (hS : DistinctStretches (2 * n - 1) x)
    (h : ∀ l ∈ x, ((mu.zip alpha).map fun p => ogdenCurve k p.1 p.2 l).sum =
      ((mu'.zip alpha').map fun p => ogdenCurve k p.1 p.2 l).sum) (a : ℝ) :
    ogdenCoef (mu.zip alpha) a = ogdenCoef (mu'.zip alpha') a := by
  obtain ⟨T, hT, hT'⟩ := hS
  have key := coef_zero hk (L := mu.zip alpha ++ (mu'.zip alpha').map fun p => (-p.1, p.2)) ?_ (n := n) ?_ (T := T)
    (by omega) (fun l hl => hx l (hT' l hl).1) (fun l hl => (hT' l hl).2) ?_ a
  · rw [ogdenCoef_append, ogdenCoef_neg] at key
    linarith
  · intro p hp
    rcases List.mem_append.1 hp with hp | hp
    · exact ha _ (mem_zip_right hp)
    · obtain ⟨q, hq, rfl⟩ := List.mem_map.1 hp
      exact ha' q.2 (mem_zip_right hq)
  · refine (Finset.card_le_card fun b hb => ?_).trans hn
    rw [exponents, List.mem_toFinset] at hb
    obtain ⟨p, hp, rfl⟩ := List.mem_map.1 hb
    rw [List.mem_toFinset, List.mem_append]
    rcases List.mem_append.1 hp with hp | hp
    · exact Or.inl (mem_zip_right hp)
    · obtain ⟨q, hq, rfl⟩ := List.mem_map.1 hp
      exact Or.inr (mem_zip_right (p := q) hq)
  · intro l hl
    rw [List.map_append, List.sum_append, h l (hT' l hl).1, List.map_map]
    simp only [Function.comp_def, ogdenCurve_neg]
    rw [← List.sum_map_add]
    simp

theorem mat_eq {mu alpha mu' alpha' : List ℝ} (ha : ∀ a ∈ alpha, a ≠ 0) (ha' : ∀ a ∈ alpha', a ≠ 0)
    (h : ∀ a, ogdenCoef (mu.zip alpha) a = ogdenCoef (mu'.zip alpha') a) :
    (Ogden.mat ⟨mu, alpha⟩ : StrMat Z Unit) = Ogden.mat ⟨mu', alpha'⟩ := by
  have key : ∀ g : ℝ → ℝ, ((mu.zip alpha).map fun p => 2 * p.1 / p.2 * g p.2).sum =
      ((mu'.zip alpha').map fun p => 2 * p.1 / p.2 * g p.2).sum := by
    intro g
    rw [sum_terms _ g (exponents (mu.zip alpha) ∪ exponents (mu'.zip alpha')) Finset.subset_union_left,
      sum_terms _ g (exponents (mu.zip alpha) ∪ exponents (mu'.zip alpha')) Finset.subset_union_right]
    exact Finset.sum_congr rfl fun a _ => by rw [h a]
  have h1 : ∀ p ∈ mu.zip alpha, p.2 ≠ 0 := fun p hp => ha _ (mem_zip_right hp)
  have h2 : ∀ p ∈ mu'.zip alpha', p.2 ≠ 0 := fun p hp => ha' _ (mem_zip_right hp)
  unfold Ogden.mat
  congr 1
  · funext l z
    rw [Ogden.gradient_eq, Ogden.gradient_eq, if_pos h1, if_pos h2]
    congr 3
    funext a
    exact key fun e => l a ^ (e - 1)
  · funext l z
    rw [Ogden.hessian_eq, Ogden.hessian_eq, if_pos h1, if_pos h2]
    have k2 : ∀ x : ℝ, sumOver (mu.zip alpha) (fun p x => 2 * p.1 / p.2 * (p.2 - 1) * x ^ (p.2 - 2)) x =
        sumOver (mu'.zip alpha') (fun p x => 2 * p.1 / p.2 * (p.2 - 1) * x ^ (p.2 - 2)) x := by
      intro x
      have := key fun e => (e - 1) * x ^ (e - 2)
      simpa only [sumOver, mul_assoc] using this
    simp only [k2]

/-- The curves of two simulations. -/
theorem curve_points {lapack : Eigh} (hl : EighValid lapack) {mu alpha mu' alpha' : List ℝ}
    (ha : ∀ a ∈ alpha, a ≠ 0) (ha' : ∀ a ∈ alpha', a ≠ 0) {sim sim' : Simulation Z} {k : LoadKind} {lab lab' : Option String}
    (hk : sim.loadcase = k.case lab) (hk' : sim'.loadcase = k.case lab') {p p' : List ℝ}
    (hm : sim.material (Kwargs.ofList (sim.labels.zip p)) = .ok (ogdenDeformation lapack mu alpha) ∨
      sim.material (Kwargs.ofList (sim.labels.zip p)) = .ok (ogdenDistortional lapack mu alpha))
    (hm' : sim'.material (Kwargs.ofList (sim'.labels.zip p')) = .ok (ogdenDeformation lapack mu' alpha') ∨
      sim'.material (Kwargs.ofList (sim'.labels.zip p')) = .ok (ogdenDistortional lapack mu' alpha'))
    {x : List ℝ} (hx : ∀ l ∈ x, 0 < l) (hne : x ≠ []) : sim.stressCurveFit x p = sim'.stressCurveFit x p' ↔
    ∀ l ∈ x, ((mu.zip alpha).map fun p => ogdenCurve k p.1 p.2 l).sum =
      ((mu'.zip alpha').map fun p => ogdenCurve k p.1 p.2 l).sum := by
  rw [C42_ogden lapack hl mu alpha ha sim k lab hk p hm x hne hx,
    C42_ogden lapack hl mu' alpha' ha' sim' k lab' hk' p' hm' x hne hx, Except.ok.injEq]
  exact List.map_inj_left

theorem same_of_mat {m m' : Ogden} (h : (m.mat : StrMat Unit Unit) = m'.mat) : SameResponse m m' := by
  intro sp cfg lapack F z s
  rw [h]
  exact ⟨rfl, rfl⟩

/-- One uniaxial or equi-biaxial test identifies the material. -/
theorem C82_same_material (lapack : Eigh) (hl : EighValid lapack) (mu alpha mu' alpha' : List ℝ)
    (ha : ∀ a ∈ alpha, a ≠ 0) (ha' : ∀ a ∈ alpha', a ≠ 0) (sim sim' : Simulation Z) (k : LoadKind)
    (hb : k = .uniaxial ∨ k = .biaxial) (lab lab' : Option String)
    (hk : sim.loadcase = k.case lab) (hk' : sim'.loadcase = k.case lab') (p p' : List ℝ)
    (hm : sim.material (Kwargs.ofList (sim.labels.zip p)) = .ok (ogdenDeformation lapack mu alpha) ∨
      sim.material (Kwargs.ofList (sim.labels.zip p)) = .ok (ogdenDistortional lapack mu alpha))
    (hm' : sim'.material (Kwargs.ofList (sim'.labels.zip p')) = .ok (ogdenDeformation lapack mu' alpha') ∨
      sim'.material (Kwargs.ofList (sim'.labels.zip p')) = .ok (ogdenDistortional lapack mu' alpha'))
    (x : List ℝ) (hx : ∀ l ∈ x, 0 < l) (n : ℕ) (hn : (alpha ++ alpha').toFinset.card ≤ n)
    (hS : DistinctStretches (2 * n - 1) x) (h : sim.stressCurveFit x p = sim'.stressCurveFit x p') :
    SameResponse ⟨mu, alpha⟩ ⟨mu', alpha'⟩ := by
  refine same_of_mat (mat_eq ha ha' (coef_eq hb ha ha' hn hx hS ?_))
  by_cases hne : x = []
  · subst hne
    simp
  · exact (curve_points hl ha ha' hk hk' hm hm' hx hne).1 h

theorem ogdenCoef_mem {L : List (ℝ × ℝ)} (hL : (L.map Prod.snd).Nodup) {p : ℝ × ℝ} (hp : p ∈ L) :
    ogdenCoef L p.2 = 2 * p.1 / p.2 := by
  induction L with
  | nil => simp at hp
  | cons q L ih =>
    rw [List.map_cons, List.nodup_cons] at hL
    rw [ogdenCoef, List.map_cons, List.sum_cons]
    rcases List.mem_cons.1 hp with rfl | hp
    · have := ogdenCoef_of_notMem (L := L) (a := p.2) (by rw [exponents, List.mem_toFinset]; exact hL.1)
      rw [ogdenCoef] at this
      rw [this, if_pos rfl, add_zero]
    · have : q.2 ≠ p.2 := fun h => hL.1 (h ▸ List.mem_map.2 ⟨p, hp, rfl⟩)
      rw [if_neg this, zero_add]
      exact ih hL.2 hp

theorem zip_nodup {mu alpha : List ℝ} (hlen : mu.length = alpha.length) (h : alpha.Nodup) :
    ((mu.zip alpha).map Prod.snd).Nodup := by
  rwa [List.map_snd_zip hlen.ge]

theorem zip_subset {mu alpha mu' alpha' : List ℝ} (hp : ProperOgden mu alpha) (hp' : ProperOgden mu' alpha')
    (h : ∀ a, ogdenCoef (mu.zip alpha) a = ogdenCoef (mu'.zip alpha') a) {q : ℝ × ℝ} (hq : q ∈ mu.zip alpha) :
    q ∈ mu'.zip alpha' := by
  have hm := hp.2.1 q.1 (List.of_mem_zip (a := q.1) (b := q.2) hq).1
  have ha := hp.2.2.1 q.2 (mem_zip_right hq)
  have e1 := ogdenCoef_mem (zip_nodup hp.1 hp.2.2.2) hq
  by_cases hmem : q.2 ∈ exponents (mu'.zip alpha')
  · rw [exponents, List.mem_toFinset] at hmem
    obtain ⟨r, hr, hrq⟩ := List.mem_map.1 hmem
    have e2 := ogdenCoef_mem (zip_nodup hp'.1 hp'.2.2.2) hr
    rw [hrq, ← h, e1] at e2
    have e3 : q.1 = r.1 := by
      field_simp at e2
      exact e2
    rw [show q = r from Prod.ext e3 hrq.symm]
    exact hr
  · rw [h, ogdenCoef_of_notMem hmem] at e1
    refine absurd e1.symm ?_
    have : (2 : ℝ) ≠ 0 := two_ne_zero
    positivity

theorem zip_perm {mu alpha mu' alpha' : List ℝ} (hp : ProperOgden mu alpha) (hp' : ProperOgden mu' alpha')
    (h : ∀ a, ogdenCoef (mu.zip alpha) a = ogdenCoef (mu'.zip alpha') a) : (mu.zip alpha).Perm (mu'.zip alpha') :=
  (List.perm_ext_iff_of_nodup ((zip_nodup hp.1 hp.2.2.2).of_map _) ((zip_nodup hp'.1 hp'.2.2.2).of_map _)).2
    fun _ => ⟨zip_subset hp hp' h, zip_subset hp' hp fun a => (h a).symm⟩

/-- The moduli and the exponents are identified, up to the order of the terms. -/
theorem C82_parameters (lapack : Eigh) (hl : EighValid lapack) (mu alpha mu' alpha' : List ℝ)
    (hp : ProperOgden mu alpha) (hp' : ProperOgden mu' alpha') (sim sim' : Simulation Z) (k : LoadKind)
    (hb : k = .uniaxial ∨ k = .biaxial) (lab lab' : Option String)
    (hk : sim.loadcase = k.case lab) (hk' : sim'.loadcase = k.case lab') (p p' : List ℝ)
    (hm : sim.material (Kwargs.ofList (sim.labels.zip p)) = .ok (ogdenDeformation lapack mu alpha) ∨
      sim.material (Kwargs.ofList (sim.labels.zip p)) = .ok (ogdenDistortional lapack mu alpha))
    (hm' : sim'.material (Kwargs.ofList (sim'.labels.zip p')) = .ok (ogdenDeformation lapack mu' alpha') ∨
      sim'.material (Kwargs.ofList (sim'.labels.zip p')) = .ok (ogdenDistortional lapack mu' alpha'))
    (x : List ℝ) (hx : ∀ l ∈ x, 0 < l) (n : ℕ) (hn : (alpha ++ alpha').toFinset.card ≤ n)
    (hS : DistinctStretches (2 * n - 1) x) (h : sim.stressCurveFit x p = sim'.stressCurveFit x p') :
    (mu.zip alpha).Perm (mu'.zip alpha') := by
  refine zip_perm hp hp' (coef_eq hb hp.2.2.1 hp'.2.2.1 hn hx hS ?_)
  by_cases hne : x = []
  · subst hne
    simp
  · exact (curve_points hl hp.2.2.1 hp'.2.2.1 hk hk' hm hm' hx hne).1 h

/-! ### fits with given exponents -/

theorem moduli_eq {alpha : List ℝ} (ha : ∀ a ∈ alpha, a ≠ 0) (hn : alpha.Nodup) {mu mu' : List ℝ}
    (h1 : mu.length = alpha.length) (h2 : mu'.length = alpha.length)
    (h : ∀ a, ogdenCoef (mu.zip alpha) a = ogdenCoef (mu'.zip alpha) a) : mu = mu' := by
  refine List.ext_getElem (h1.trans h2.symm) fun i hi hi' => ?_
  have hia : i < alpha.length := h1 ▸ hi
  have m1 : (mu[i], alpha[i]) ∈ mu.zip alpha :=
    List.mem_iff_getElem.2 ⟨i, by simp; omega, List.getElem_zip⟩
  have m2 : (mu'[i], alpha[i]) ∈ mu'.zip alpha :=
    List.mem_iff_getElem.2 ⟨i, by simp; omega, List.getElem_zip⟩
  have e1 := ogdenCoef_mem (zip_nodup h1 hn) m1
  have e2 := ogdenCoef_mem (zip_nodup h2 hn) m2
  have h0 := ha _ (List.getElem_mem hia)
  simp only at e1 e2
  rw [h, e2] at e1
  field_simp at e1
  exact e1.symm

theorem params_of_names {labels names : List String} (hn : labels.Nodup) (hmem : ∀ name ∈ labels, name ∈ names)
    {p q : List ℝ} (hp : p.length = labels.length) (hq : q.length = labels.length)
    (h : names.map (coef labels p) = names.map (coef labels q)) : p = q := by
  refine List.ext_getElem (hp.trans hq.symm) fun i h1 h2 => ?_
  have hi : i < labels.length := by omega
  have := List.map_inj_left.1 h labels[i] (hmem _ (List.getElem_mem hi))
  unfold coef at this
  rw [(assigned_zip hn).1 i hi h1, (assigned_zip hn).1 i hi h2] at this
  exact this

theorem curves_entry {w : World Z} {op : Optimizer} {xs : List (List ℝ)} {p q : List ℝ} {vs : List (List ℝ)}
    (hp : Curves w op xs p vs) (hq : Curves w op xs q vs) {s : ℕ} {x : List ℝ} (hs : (s, x) ∈ op.simulations.zip xs) :
    (w.sims s).sim.stressCurveFit x p = (w.sims s).sim.stressCurveFit x q := by
  unfold Curves at hp hq
  obtain ⟨i, hi, he⟩ := List.getElem_of_mem hs
  have h1 := (List.forall₂_iff_get.1 hp).2 i hi (hp.length_eq ▸ hi)
  have h2 := (List.forall₂_iff_get.1 hq).2 i hi (hp.length_eq ▸ hi)
  simp only [List.get_eq_getElem, he] at h1 h2
  rw [h1, h2]

/-- The moduli of Ogden's model with given exponents have exactly one best fit, if one of the tests
is a uniaxial or equi-biaxial one with enough different stretches. -/
theorem C82_unique (w : World Z) (op : Optimizer) (hm : Matched op) (xs ys : List (List ℝ)) (hd : FitData op xs ys)
    (hlin : LinearTests w op xs) (lapack : Eigh) (hl : EighValid lapack) (s : ℕ) (x : List ℝ)
    (hs : (s, x) ∈ op.simulations.zip xs) (hx : ∀ l ∈ x, 0 < l) (k : LoadKind) (hb : k = .uniaxial ∨ k = .biaxial)
    (lab : Option String) (hk : (w.sims s).sim.loadcase = k.case lab) (names : List String) (alpha : List ℝ)
    (ha : ∀ a ∈ alpha, a ≠ 0) (hn : alpha.Nodup) (hlen : names.length = alpha.length)
    (hnl : (w.sims s).sim.labels.Nodup) (hmem : ∀ name ∈ (w.sims s).sim.labels, name ∈ names)
    (hmat : ∀ p, (w.sims s).sim.material (Kwargs.ofList ((w.sims s).sim.labels.zip p)) =
        .ok (ogdenDeformation lapack (names.map (coef (w.sims s).sim.labels p)) alpha) ∨
      (w.sims s).sim.material (Kwargs.ofList ((w.sims s).sim.labels.zip p)) =
        .ok (ogdenDistortional lapack (names.map (coef (w.sims s).sim.labels p)) alpha))
    (hS : DistinctStretches (2 * alpha.length - 1) x) : UniqueFit w op xs ys (w.sims s).sim.labels.length := by
  obtain ⟨p, hp, hbp⟩ := C76_exists w op xs ys hlin (w.sims s).sim.labels.length
  refine ⟨p, ⟨hp, hbp⟩, fun q ⟨hq, hbq⟩ => ?_⟩
  have hsame := C76_same_curves w op hm xs ys hlin hd q p (hq.trans hp.symm) hbq hbp
  obtain ⟨E, ⟨vs, hc, -⟩, -⟩ := hbp
  have hcur := curves_entry ((hsame vs).2 hc) hc hs
  refine params_of_names hnl hmem hq hp (moduli_eq ha hn (by simpa using hlen) (by simpa using hlen) ?_)
  refine coef_eq hb ha ha (n := alpha.length) ?_ hx hS ?_
  · rw [List.toFinset_append, Finset.union_self]
    exact List.toFinset_card_le _
  · by_cases hne : x = []
    · subst hne
      simp
    · exact (curve_points hl ha ha hk hk (hmat q) (hmat p) hx hne).1 hcur

/-- The moduli are recovered from exact measurements, from any initial guess, by every solver which
stops at a local minimum. -/
theorem C82_recover (w w' : World Z) (o : ℕ) (hm : Matched (w.opts o))
    (hlin : ∀ xs ys, FitData (w.opts o) xs ys → LinearTests w (w.opts o) xs) (solver : Solver) (hs : Solver.WellFormed solver)
    (hmin : Solver.StopsAtMinimum solver) (hw : Writable (w.params (w.opts o).parameters).kind) (r : ℕ)
    (pcov : List (List Num)) (h : curveFit o solver w = (.ok (r, pcov), w')) (p : List ℝ)
    (hlen : (w.params (w.opts o).parameters).vals.length = p.length) (lapack : Eigh) (hl : EighValid lapack) (s : ℕ)
    (k : LoadKind) (hb : k = .uniaxial ∨ k = .biaxial) (lab : Option String)
    (hk : (w.sims s).sim.loadcase = k.case lab) (names : List String) (alpha : List ℝ)
    (ha : ∀ a ∈ alpha, a ≠ 0) (hn : alpha.Nodup) (hnames : names.length = alpha.length)
    (hnl : (w.sims s).sim.labels.Nodup) (hmem : ∀ name ∈ (w.sims s).sim.labels, name ∈ names)
    (hpl : (w.sims s).sim.labels.length = p.length)
    (hmat : ∀ p, (w.sims s).sim.material (Kwargs.ofList ((w.sims s).sim.labels.zip p)) =
        .ok (ogdenDeformation lapack (names.map (coef (w.sims s).sim.labels p)) alpha) ∨
      (w.sims s).sim.material (Kwargs.ofList ((w.sims s).sim.labels.zip p)) =
        .ok (ogdenDistortional lapack (names.map (coef (w.sims s).sim.labels p)) alpha))
    (hp : ∀ xs ys, FitData (w.opts o) xs ys → Curves w (w.opts o) xs p ys ∧
      ∃ x, (s, x) ∈ (w.opts o).simulations.zip xs ∧ (∀ l ∈ x, 0 < l) ∧ DistinctStretches (2 * alpha.length - 1) x) :
    (w'.params r).vals = p := by
  obtain ⟨xs, ys, hd, hbest, hlw, -⟩ := C76_curve_fit w w' o hlin solver hs hmin hw r pcov h
  obtain ⟨hc, x, h1, h2, h3⟩ := hp xs ys hd
  have hu := C82_unique w _ hm xs ys hd (hlin xs ys hd) lapack hl s x h1 h2 k hb lab hk names alpha ha hn hnames hnl hmem hmat h3
  rw [hpl] at hu
  have hr : r = (w.opts o).parameters := by
    obtain ⟨_, _, _, _, _, _, _, hr, -⟩ := C47_coherent_partial w w' o solver hs hw r pcov h
    exact hr
  refine hu.unique ⟨?_, hbest⟩ ⟨rfl, C76_exact w _ xs ys p hc⟩
  rw [hlw, hr, hlen]

/-! ### planar tests -/

theorem ogdenCurve_planar_neg (m a l : ℝ) : ogdenCurve .planar m (-a) l = ogdenCurve .planar m a l := by
  simp only [ogdenCurve, neg_neg, mul_div_assoc, div_neg]
  ring

/-- Planar tests do not distinguish an exponent from its negative. -/
theorem C82_planar (lapack : Eigh) (hl : EighValid lapack) (mu alpha : List ℝ)
    (ha : ∀ a ∈ alpha, a ≠ 0) (sim sim' : Simulation Z) (lab lab' : Option String)
    (hk : sim.loadcase = LoadKind.planar.case lab) (hk' : sim'.loadcase = LoadKind.planar.case lab') (p p' : List ℝ)
    (hm : sim.material (Kwargs.ofList (sim.labels.zip p)) = .ok (ogdenDeformation lapack mu alpha) ∨
      sim.material (Kwargs.ofList (sim.labels.zip p)) = .ok (ogdenDistortional lapack mu alpha))
    (hm' : sim'.material (Kwargs.ofList (sim'.labels.zip p')) = .ok (ogdenDeformation lapack mu (alpha.map (-·))) ∨
      sim'.material (Kwargs.ofList (sim'.labels.zip p')) = .ok (ogdenDistortional lapack mu (alpha.map (-·))))
    (x : List ℝ) (hx : ∀ l ∈ x, 0 < l) (hne : x ≠ []) : sim.stressCurveFit x p = sim'.stressCurveFit x p' := by
  have ha' : ∀ a ∈ alpha.map (-·), a ≠ 0 := by
    intro a h
    obtain ⟨b, hb, rfl⟩ := List.mem_map.1 h
    exact neg_ne_zero.2 (ha b hb)
  refine (curve_points hl ha ha' hk hk' hm hm' hx hne).2 fun l _ => ?_
  rw [List.zip_map_right, List.map_map]
  congr 1
  refine List.map_congr_left fun q _ => ?_
  exact (ogdenCurve_planar_neg q.1 q.2 l).symm

/-- The two materials are different. -/
theorem C82_planar_differ (m a : ℝ) (hm : m ≠ 0) (ha : a ≠ 0) : ¬ SameResponse ⟨[m], [a]⟩ ⟨[m], [-a]⟩ := by
  intro h
  obtain ⟨lapack, hl⟩ := exists_eigh
  have hpos : Positive (fun _ : Fin 3 => (2 : ℝ)) := fun _ => two_pos
  have h1 := C52_ogden lapack hl [m] [a] (by simpa using ha) () { material := { material := () } } hpos orthogonal_one orthogonal_one
  have h2 := C52_ogden lapack hl [m] [-a] (by simpa using ha) () { material := { material := () } } hpos orthogonal_one orthogonal_one
  simp only [Matrix.one_mul, Matrix.transpose_one, Matrix.mul_one] at h1 h2
  have h3 := (h .deformation {} lapack (Matrix.diagonal fun _ => 2) () { material := { material := () } }).1
  have h4 := h1.symm.trans ((congrArg Prod.fst h3).trans h2)
  simp only [Prod.mk.injEq, Except.ok.injEq, Stress.full.injEq, Matrix.mul_one] at h4
  have h5 := congrFun (congrFun (((Matrix.mul_one _).symm.trans h4.1).trans (Matrix.mul_one _)) 0) 0
  simp only [Matrix.mul_one, Matrix.diagonal_apply_eq, List.zip_cons_cons, List.zip_nil_left, List.map_cons, List.map_nil, List.sum_cons,
    List.sum_nil, add_zero, div_neg, neg_mul] at h5
  have p1 : (0 : ℝ) < 2 ^ (a - 1) := by positivity
  have p2 : (0 : ℝ) < 2 ^ (-a - 1) := by positivity
  have h6 : 2 * m / a * (2 ^ (a - 1) + 2 ^ (-a - 1)) = 0 := by linarith
  have h7 : 2 * m / a ≠ 0 := div_ne_zero (mul_ne_zero two_ne_zero hm) ha
  exact (mul_ne_zero h7 (add_pos p1 p2).ne') h6

/-- The hypotheses are met: two terms whose moduli are fitted to three stretches of a uniaxial test. -/
noncomputable def ogdenSession (lapack : Eigh) : World Unit where
  params _ := { kind := .floatArray, vals := [1, 1] }
  sims _ := ⟨⟨uniaxial none, [], ["a", "b"], fun kw =>
    .ok (ogdenDeformation lapack [(kw.get "a").getD 0, (kw.get "b").getD 0] [2, -2])⟩, 0⟩
  opts _ := Optimizer.init [Experiment.init "" [1, 2, 3] [1, 2, 4]] [0] 7

example : ∃ lapack, Matched ((ogdenSession lapack).opts 0) ∧ ∃ xs ys, FitData ((ogdenSession lapack).opts 0) xs ys ∧
    UniqueFit (ogdenSession lapack) ((ogdenSession lapack).opts 0) xs ys 2 := by
  obtain ⟨lapack, hl⟩ := exists_eigh
  have hm : Matched ((ogdenSession lapack).opts 0) := by
    refine ⟨rfl, rfl, fun e he => ?_⟩
    simp only [ogdenSession, Optimizer.init, List.mem_cons, List.not_mem_nil, or_false] at he
    rw [he]
    rfl
  have hd : FitData ((ogdenSession lapack).opts 0) [[2, 3, 4]] [[1, 2, 4]] := by
    refine ⟨.cons ((selected_all _ _).2 ?_) .nil, .cons ((selected_all _ _).2 ?_) .nil⟩ <;>
    · simp [Experiment.init]
      try norm_num
  have hpos : ∀ l ∈ [2, 3, (4 : ℝ)], 0 < l := by
    intro l hl
    simp only [List.mem_cons, List.not_mem_nil, or_false] at hl
    rcases hl with rfl | rfl | rfl <;> norm_num
  have hmat : ∀ p, ((ogdenSession lapack).sims 0).sim.material
      (Kwargs.ofList (((ogdenSession lapack).sims 0).sim.labels.zip p)) =
      .ok (ogdenDeformation lapack (["a", "b"].map (coef ((ogdenSession lapack).sims 0).sim.labels p)) [2, -2]) := by
    intro p
    simp only [ogdenSession, Kwargs.get_ofList, List.map_cons, List.map_nil, coef]
  have hlin : LinearTests (ogdenSession lapack) ((ogdenSession lapack).opts 0) [[2, 3, 4]] := by
    intro e he
    have he2 : e = (0, [2, 3, 4]) := List.mem_singleton.1 he
    subst he2
    exact C76_ogden_linear lapack hl _ .uniaxial none rfl ["a", "b"] [2, -2] (by simp) (fun p => Or.inl (hmat p)) _
      (by simp) hpos
  refine ⟨lapack, hm, _, _, hd, C82_unique _ _ hm _ _ hd hlin lapack hl 0 [2, 3, 4] (List.mem_cons_self ..) hpos .uniaxial
    (Or.inl rfl) none rfl ["a", "b"] [2, -2] (by simp) (by norm_num) rfl (by simp [ogdenSession]) (fun n h => h)
    (fun p => Or.inl (hmat p)) ⟨{2, 3, 4}, ?_, ?_⟩⟩
  · norm_num
  · intro l hl
    simp only [Finset.mem_insert, Finset.mem_singleton] at hl
    rcases hl with rfl | rfl | rfl <;> norm_num

/-- The hypotheses about the terms are met. -/
example : ProperOgden [3, -1] [2, -2] ∧ ([2, -2] ++ [2, (5 : ℝ)]).toFinset.card ≤ 3 ∧
    DistinctStretches (2 * 3 - 1) [1, 2, 3, 4, 5, (6 : ℝ)] := by
  refine ⟨⟨rfl, by simp, by simp, by norm_num⟩, ?_, {2, 3, 4, 5, 6}, by norm_num, ?_⟩
  · rw [show (([2, -2] : List ℝ) ++ [2, (5 : ℝ)]).toFinset = ({-2, 2, 5} : Finset ℝ) by ext; simp]
    exact Finset.card_le_three
  · intro l hl
    simp only [Finset.mem_insert, Finset.mem_singleton] at hl
    rcases hl with rfl | rfl | rfl | rfl | rfl <;> norm_num

end Props
