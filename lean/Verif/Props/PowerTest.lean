import Verif.Spec.PowerTest
import Verif.Props.MooneyOgden
import Verif.Props.Identify

/-! # Property C101: which tests identify a two-term material of generalized invariants -/

namespace Props
open Spec Hel

variable {Z : Type}

/-- A simulation of a material of generalized invariants with the deformation measure of the exponent `e`, on the
deformation or the distortional space, whose parameters are `C10` and `C01`. -/
def PowerTest (e : ℝ) (sim : Simulation Z) (k : LoadKind) : Prop :=
  (∃ lab, sim.loadcase = k.case lab) ∧ sim.labels = ["C10", "C01"] ∧ ∃ lapack g, EighValid lapack ∧
    GenInv.init (deformationFun e) = .ok g ∧ ∀ p,
    sim.material (Kwargs.ofList (sim.labels.zip p)) =
      .ok (genDeformation lapack g ![coef sim.labels p "C10", coef sim.labels p "C01", 0, 0, 0] false) ∨
    sim.material (Kwargs.ofList (sim.labels.zip p)) =
      .ok (genDistortional lapack g ![coef sim.labels p "C10", coef sim.labels p "C01", 0, 0, 0] false)

/-- All simulations of the optimizer are such tests. -/
def PowerTests (e : ℝ) (w : World Z) (op : Optimizer) : Prop := ∀ s ∈ op.simulations, ∃ k, PowerTest e (w.sims s).sim k

/-- A stretch at which the optimizer compares the load case `k` with a measured stress. -/
def PowerPoint (e : ℝ) (w : World Z) (op : Optimizer) (xs : List (List ℝ)) (k : LoadKind) (l : ℝ) : Prop :=
  ∃ s x, (s, x) ∈ op.simulations.zip xs ∧ PowerTest e (w.sims s).sim k ∧ l ∈ x

theorem ogdenCurve_smul (k : LoadKind) (a e l : ℝ) : ogdenCurve k (2 * a) e l = a * ogdenCurve k 2 e l := by
  cases k <;> simp only [ogdenCurve] <;> ring

theorem ogdenCurve_neg_exponent (k : LoadKind) (e : ℝ) {l : ℝ} (hl : 0 < l) :
    ogdenCurve k 2 (-e) l = k.powerWeight e l * ogdenCurve k 2 e l := by
  cases k
  · have h : (1 / √l) ^ e = l ^ (-e / 2) := by
      rw [one_div, Real.sqrt_eq_rpow, ← Real.rpow_neg hl.le, ← Real.rpow_mul hl.le]
      congr 1; ring
    simp only [ogdenCurve, LoadKind.powerWeight, h]
    rw [mul_left_comm, mul_sub (l ^ (-e / 2)), ← Real.rpow_add hl, ← Real.rpow_add hl, div_neg, neg_mul, ← mul_neg, neg_sub]
    congr 3 <;> ring
  · rw [ogdenCurve_planar_neg, LoadKind.powerWeight, one_mul]
  · simp only [ogdenCurve, LoadKind.powerWeight]
    rw [mul_left_comm, mul_sub (l ^ _), ← Real.rpow_add hl, ← Real.rpow_add hl, div_neg, neg_mul, ← mul_neg, neg_sub]
    congr 3 <;> ring

theorem ogdenCurve_ne (k : LoadKind) {e : ℝ} (he : e ≠ 0) {l : ℝ} (hl : 0 < l) (h1 : l ≠ 1) : ogdenCurve k 2 e l ≠ 0 := by
  have key : ∀ {a b : ℝ}, a ≠ b → l ^ a - l ^ b ≠ 0 := by
    intro a b hab h
    rw [sub_eq_zero, Real.rpow_def_of_pos hl, Real.rpow_def_of_pos hl, Real.exp_eq_exp] at h
    exact hab (mul_left_cancel₀ (Real.log_ne_zero_of_pos_of_ne_one hl h1) h)
  cases k <;> simp only [ogdenCurve] <;> refine mul_ne_zero (div_ne_zero (by norm_num) he) (key fun h => he ?_) <;> linarith

theorem ogdenCurve_one (k : LoadKind) (m e : ℝ) : ogdenCurve k m e 1 = 0 := by
  cases k <;> simp [ogdenCurve]

theorem coef_two (a b : ℝ) : coef ["C10", "C01"] [a, b] "C10" = a ∧ coef ["C10", "C01"] [a, b] "C01" = b := by
  simp [coef, assigned]

theorem coef_rest (p : List ℝ) : coef ["C10", "C01"] p "C11" = 0 ∧ coef ["C10", "C01"] p "C20" = 0 ∧
    coef ["C10", "C01"] p "C30" = 0 := by
  rcases p with _ | ⟨a, _ | ⟨b, p⟩⟩ <;> simp [coef, assigned]

/-- The plot of Mooney, for any exponent: divided by the factor, which vanishes at stretch one only, the normal force is a
straight line in the weight, whose intercept and slope are the two coefficients. -/
theorem C101_curve {e : ℝ} (he : e ≠ 0) (sim : Simulation Z) (k : LoadKind) (ht : PowerTest e sim k) (x : List ℝ)
    (hne : x ≠ []) (hx : ∀ l ∈ x, 0 < l) (a b : ℝ) :
    sim.stressCurveFit x [a, b] = .ok (x.map fun l => ogdenCurve k 2 e l * (a + k.powerWeight e l * b)) ∧
      ∀ l ∈ x, (ogdenCurve k 2 e l = 0 ↔ l = 1) := by
  obtain ⟨⟨lab, hk⟩, hlab, lapack, g, hl, hg, hm⟩ := ht
  replace hm := hm [a, b]
  rw [hlab, (coef_two a b).1, (coef_two a b).2] at hm
  rw [← hlab] at hm
  refine ⟨?_, fun l h => ⟨fun h0 => ?_, fun h => h ▸ ogdenCurve_one k 2 e⟩⟩
  · rw [C100_curve lapack hl he g hg a b sim k lab hk [a, b] hm x hne hx]
    congr 1
    refine List.map_congr_left fun l h => ?_
    rw [ogdenCurve_smul, ogdenCurve_smul, ogdenCurve_neg_exponent k e (hx l h)]
    ring
  · by_contra h1
    exact ogdenCurve_ne k he (hx l h) h1 h0

/-- Data: lists of positive stretches which are not empty. -/
def ProperData (xs : List (List ℝ)) : Prop := ∀ x ∈ xs, x ≠ [] ∧ ∀ l ∈ x, 0 < l

theorem power_curve {e : ℝ} (he : e ≠ 0) {sim : Simulation Z} {k : LoadKind} (ht : PowerTest e sim k) {x : List ℝ}
    (hx : x ≠ [] ∧ ∀ l ∈ x, 0 < l) (a b : ℝ) :
    sim.stressCurveFit x [a, b] = .ok (x.map fun l => ogdenCurve k 2 e l * (a + k.powerWeight e l * b)) :=
  (C101_curve he sim k ht x hx.1 hx.2 a b).1

/-- Everything about linear fits (properties C76 and C97) holds for these tests. -/
theorem C101_linear (e : ℝ) (w : World Z) (op : Optimizer) (ht : PowerTests e w op) (xs : List (List ℝ))
    (hx : ProperData xs) : LinearTests w op xs := by
  rintro ⟨s, x⟩ he
  obtain ⟨h1, h2⟩ := List.of_mem_zip he
  obtain ⟨k, ⟨lab, hk⟩, hlab, lapack, g, hl, hg, hm⟩ := ht s h1
  refine C98_linear lapack hl _ _ (measures_deformation e) g hg false _ k lab hk ![ "C10", "C01", "C11", "C20", "C30"]
    (fun p => ?_) x (hx x h2).1 (hx x h2).2
  have h : (fun i => coef (w.sims s).sim.labels p (![ "C10", "C01", "C11", "C20", "C30"] i)) =
      ![coef (w.sims s).sim.labels p "C10", coef (w.sims s).sim.labels p "C01", 0, 0, 0] := by
    funext i
    rw [hlab]
    fin_cases i <;> simp [coef_rest p]
  rw [h]
  exact hm p

theorem power_same {e : ℝ} (he : e ≠ 0) {w : World Z} {op : Optimizer} {xs : List (List ℝ)} (hx : ProperData xs)
    {a b a' b' : ℝ} {vs : List (List ℝ)} (h1 : Curves w op xs [a, b] vs) (h2 : Curves w op xs [a', b'] vs) {k : LoadKind}
    {l : ℝ} (hp : PowerPoint e w op xs k l) (hl : l ≠ 1) : (a - a') + k.powerWeight e l * (b - b') = 0 := by
  obtain ⟨s, x, hs, hk, hlx⟩ := hp
  have hxx := hx x (List.of_mem_zip hs).2
  have := curves_entry h1 h2 hs
  rw [power_curve he hk hxx, power_curve he hk hxx, Except.ok.injEq, List.map_inj_left] at this
  have := mul_left_cancel₀ (ogdenCurve_ne k he (hxx.2 l hlx) hl) (this l hlx)
  linarith

theorem curves_of_entries {w : World Z} {op : Optimizer} {xs : List (List ℝ)} {p q : List ℝ}
    (h : ∀ s ∈ op.simulations.zip xs, (w.sims s.1).sim.stressCurveFit s.2 p = (w.sims s.1).sim.stressCurveFit s.2 q)
    (vs : List (List ℝ)) : Curves w op xs p vs ↔ Curves w op xs q vs := by
  unfold Curves
  generalize op.simulations.zip xs = L at h
  induction L generalizing vs with
  | nil => simp
  | cons s L ih =>
    rw [List.forall₂_cons_left_iff, List.forall₂_cons_left_iff]
    simp only [ih _ (fun s hs => h s (List.mem_cons_of_mem _ hs)), h s List.mem_cons_self]

/-- There is exactly one best fit if and only if there are two data points, away from stretch one, which weigh the two
parameters differently. -/
theorem C101_unique {e : ℝ} (he : e ≠ 0) (w : World Z) (op : Optimizer) (hm : Matched op) (ht : PowerTests e w op)
    (xs ys : List (List ℝ)) (hd : FitData op xs ys) (hx : ProperData xs) : UniqueFit w op xs ys 2 ↔
    ∃ k l k' l', PowerPoint e w op xs k l ∧ PowerPoint e w op xs k' l' ∧ l ≠ 1 ∧ l' ≠ 1 ∧
      k.powerWeight e l ≠ k'.powerWeight e l' := by
  have hlin := C101_linear e w op ht xs hx
  constructor
  · intro hu
    by_contra hno
    push Not at hno
    obtain ⟨m, hm'⟩ : ∃ m, ∀ k l, PowerPoint e w op xs k l → l ≠ 1 → k.powerWeight e l = m := by
      by_cases h : ∃ k l, PowerPoint e w op xs k l ∧ l ≠ 1
      · obtain ⟨k, l, h1, h2⟩ := h
        exact ⟨k.powerWeight e l, fun k' l' h3 h4 => hno k' l' k l h3 h1 h4 h2⟩
      · push Not at h
        exact ⟨0, fun k l h1 h2 => absurd (h k l h1) h2⟩
    obtain ⟨p, ⟨hp, hb⟩, huniq⟩ := hu
    obtain ⟨a, b, rfl⟩ := List.length_eq_two.1 hp
    have hcur : ∀ s ∈ op.simulations.zip xs, (w.sims s.1).sim.stressCurveFit s.2 [a, b] =
        (w.sims s.1).sim.stressCurveFit s.2 [a + m, b - 1] := by
      rintro ⟨s, x⟩ hs
      obtain ⟨h1, h2⟩ := List.of_mem_zip hs
      obtain ⟨k, hk⟩ := ht s h1
      simp only
      rw [power_curve he hk (hx x h2), power_curve he hk (hx x h2)]
      congr 1
      refine List.map_congr_left fun l hlx => ?_
      by_cases h1 : l = 1
      · rw [h1, ogdenCurve_one]; ring
      · rw [hm' k l ⟨s, x, hs, hk, hlx⟩ h1]; ring
    have := huniq [a + m, b - 1] ⟨rfl, (bestFit_congr (p := [a, b]) (q := [a + m, b - 1]) rfl fun vs => ?_).1 hb⟩
    · simp at this
    · exact curves_of_entries hcur vs
  · rintro ⟨k, l, k', l', hp1, hp2, h1, h2, hne⟩
    obtain ⟨p, hp, hb⟩ := C76_exists w op xs ys hlin 2
    refine ⟨p, ⟨hp, hb⟩, fun q ⟨hq, hb'⟩ => ?_⟩
    have hsame := C76_same_curves w op hm xs ys hlin hd q p (hq.trans hp.symm) hb' hb
    obtain ⟨E, ⟨vs, hc, -⟩, -⟩ := hb
    have hc' := (hsame vs).2 hc
    obtain ⟨a, b, rfl⟩ := List.length_eq_two.1 hp
    obtain ⟨a', b', rfl⟩ := List.length_eq_two.1 hq
    have e1 := power_same he hx hc hc' hp1 h1
    have e2 := power_same he hx hc hc' hp2 h2
    have e3 : (k.powerWeight e l - k'.powerWeight e l') * (b - b') = 0 := by linarith
    have e4 : b - b' = 0 := (mul_eq_zero.1 e3).resolve_left (sub_ne_zero.2 hne)
    rw [e4] at e1
    rw [show a' = a by linarith, show b' = b by linarith]

theorem powerWeight_inj {k : LoadKind} (hk : k = .uniaxial ∨ k = .biaxial) {e : ℝ} (he : e ≠ 0) {l l' : ℝ} (hl : 0 < l)
    (hl' : 0 < l') (h : k.powerWeight e l = k.powerWeight e l') : l = l' := by
  have key : ∀ {a b : ℝ}, 0 < a → 0 < b → a ^ e = b ^ e → a = b := fun ha hb hab =>
    (Real.rpow_left_inj ha.le hb.le he).1 hab
  rcases hk with rfl | rfl
  · have := key (one_div_pos.2 (Real.sqrt_pos.2 hl)) (one_div_pos.2 (Real.sqrt_pos.2 hl')) h
    rw [one_div, one_div, inv_inj] at this
    exact (Real.sqrt_inj hl.le hl'.le).1 this
  · exact key hl hl' h

/-- Two different stretches, other than one, of a single uniaxial or equi-biaxial test suffice. -/
theorem C101_one_test {e : ℝ} (he : e ≠ 0) (w : World Z) (op : Optimizer) (hm : Matched op) (ht : PowerTests e w op)
    (xs ys : List (List ℝ)) (hd : FitData op xs ys) (hx : ProperData xs) (s : ℕ) (x : List ℝ)
    (hs : (s, x) ∈ op.simulations.zip xs) (k : LoadKind) (hk : k = .uniaxial ∨ k = .biaxial)
    (hsim : PowerTest e (w.sims s).sim k) (hS : DistinctStretches 2 x) : UniqueFit w op xs ys 2 := by
  obtain ⟨S, hS, hmem⟩ := hS
  obtain ⟨l, l', hne, rfl⟩ := Finset.card_eq_two.1 hS
  have h1 := hmem l (by simp)
  have h2 := hmem l' (by simp)
  have hxx := (hx x (List.of_mem_zip hs).2).2
  exact (C101_unique he w op hm ht xs ys hd hx).2 ⟨k, l, k, l', ⟨s, x, hs, hsim, h1.1⟩, ⟨s, x, hs, hsim, h2.1⟩, h1.2, h2.2,
    fun h => hne (powerWeight_inj hk he (hxx l h1.1) (hxx l' h2.1) h)⟩

/-- One stretch of each of two different load cases suffices as well. -/
theorem C101_two_tests {e : ℝ} (he : e ≠ 0) (w : World Z) (op : Optimizer) (hm : Matched op) (ht : PowerTests e w op)
    (xs ys : List (List ℝ)) (hd : FitData op xs ys) (hx : ProperData xs) (k : LoadKind) (hk : k = .uniaxial ∨ k = .biaxial)
    (l l' : ℝ) (h1 : PowerPoint e w op xs k l) (h2 : PowerPoint e w op xs .planar l') (hl : l ≠ 1) (hl' : l' ≠ 1) :
    UniqueFit w op xs ys 2 := by
  refine (C101_unique he w op hm ht xs ys hd hx).2 ⟨k, l, .planar, l', h1, h2, hl, hl', fun h => hl ?_⟩
  obtain ⟨s, x, hs, -, hlx⟩ := h1
  refine powerWeight_inj hk he ((hx x (List.of_mem_zip hs).2).2 l hlx) one_pos (h.trans ?_)
  rcases hk with rfl | rfl <;> simp [LoadKind.powerWeight]

/-- Planar tests alone never have exactly one best fit. -/
theorem C101_planar {e : ℝ} (he : e ≠ 0) (w : World Z) (op : Optimizer) (hm : Matched op)
    (ht : ∀ s ∈ op.simulations, PowerTest e (w.sims s).sim .planar) (xs ys : List (List ℝ)) (hd : FitData op xs ys)
    (hx : ProperData xs) : ¬ UniqueFit w op xs ys 2 := by
  rw [C101_unique he w op hm (fun s hs => ⟨_, ht s hs⟩) xs ys hd hx]
  rintro ⟨k, l, k', l', h1, h2, -, -, hne⟩
  have key : ∀ {k l}, PowerPoint e w op xs k l → k.powerWeight e l = 1 := by
    rintro k l ⟨s, x, hs, ⟨⟨lab, hk⟩, -⟩, -⟩
    obtain ⟨⟨lab', hk'⟩, -⟩ := ht s (List.of_mem_zip hs).1
    have : k = .planar := by
      have h := congrArg LoadCase.defgrad (hk.symm.trans hk')
      have h2 := congrFun (congrFun (congrFun (congrFun (congrFun h 1) fun _ => (4 : ℝ)) 1) 1) 0
      cases k
      · simp [LoadKind.case, uniaxial, planar, uniaxialDefgrad, planarDefgrad, Arr.sqrt] at h2
      · rfl
      · simp [LoadKind.case, biaxial, planar, biaxialDefgrad, planarDefgrad] at h2
    rw [this, LoadKind.powerWeight]
  exact hne ((key h1).trans (key h2).symm)

/-- The two coefficients are recovered from exact measurements, from any initial guess, by every solver which stops at a
local minimum, if two stretches of one uniaxial or equi-biaxial test differ. -/
theorem C101_recover {e : ℝ} (he : e ≠ 0) (w w' : World Z) (o : ℕ) (hm : Matched (w.opts o))
    (ht : PowerTests e w (w.opts o)) (hx : ∀ xs ys, FitData (w.opts o) xs ys → ProperData xs) (solver : Solver)
    (hs : Solver.WellFormed solver) (hmin : Solver.StopsAtMinimum solver)
    (hw : Writable (w.params (w.opts o).parameters).kind) (r : ℕ) (pcov : List (List Num))
    (h : curveFit o solver w = (.ok (r, pcov), w')) (a b : ℝ)
    (hlen : (w.params (w.opts o).parameters).vals.length = 2) (s : ℕ) (k : LoadKind)
    (hb : k = .uniaxial ∨ k = .biaxial) (hsim : PowerTest e (w.sims s).sim k)
    (hp : ∀ xs ys, FitData (w.opts o) xs ys → Curves w (w.opts o) xs [a, b] ys ∧
      ∃ x, (s, x) ∈ (w.opts o).simulations.zip xs ∧ DistinctStretches 2 x) :
    (w'.params r).vals = [a, b] := by
  obtain ⟨xs, ys, hd, hbest, hlw, -⟩ := C76_curve_fit w w' o
    (fun xs ys hd => C101_linear e w _ ht xs (hx xs ys hd)) solver hs hmin hw r pcov h
  obtain ⟨hc, x, h1, h2⟩ := hp xs ys hd
  have hu := C101_one_test he w _ hm ht xs ys hd (hx xs ys hd) s x h1 k hb hsim h2
  have hr : r = (w.opts o).parameters := by
    obtain ⟨_, _, _, _, _, _, _, hr, -⟩ := C47_coherent_partial w w' o solver hs hw r pcov h
    exact hr
  refine hu.unique ⟨?_, hbest⟩ ⟨rfl, C76_exact w _ xs ys [a, b] hc⟩
  rw [hlw, hr, hlen]

/-- The exponent is identified as well: if two such materials, whose exponents may differ, have the same curve of a
uniaxial or equi-biaxial test with seven different stretches, then the exponents and the coefficients are the same, or the
exponents are opposite and the coefficients are swapped (which is the same material, by property C100). -/
theorem C101_exponent {e e' : ℝ} (he : e ≠ 0) (he' : e' ≠ 0) (sim sim' : Simulation Z) (k : LoadKind)
    (hk : k = .uniaxial ∨ k = .biaxial) (ht : PowerTest e sim k) (ht' : PowerTest e' sim' k) (x : List ℝ)
    (hx : ∀ l ∈ x, 0 < l) (hS : DistinctStretches 7 x) (a b a' b' : ℝ) (ha : a ≠ 0) (hb : b ≠ 0) (ha' : a' ≠ 0)
    (hb' : b' ≠ 0) : sim.stressCurveFit x [a, b] = sim'.stressCurveFit x [a', b'] ↔
      (e = e' ∧ a = a' ∧ b = b') ∨ (e = -e' ∧ a = b' ∧ b = a') := by
  have hne : x ≠ [] := by
    rintro rfl
    obtain ⟨S, hS, hmem⟩ := hS
    obtain ⟨l, hl⟩ := Finset.card_pos.1 (by omega : 0 < S.card)
    simpa using (hmem l hl).1
  have h1 : ∀ {e : ℝ} (l a b : ℝ), 0 < l → ogdenCurve k 2 e l * (a + k.powerWeight e l * b) =
      (([2 * a, 2 * b].zip [e, -e]).map fun p => ogdenCurve k p.1 p.2 l).sum := by
    intro e l a b hl
    simp only [List.zip_cons_cons, List.zip_nil_left, List.map_cons, List.map_nil, List.sum_cons, List.sum_nil, add_zero]
    rw [ogdenCurve_smul, ogdenCurve_smul, ogdenCurve_neg_exponent k e hl]
    ring
  rw [power_curve he ht ⟨hne, hx⟩, power_curve he' ht' ⟨hne, hx⟩, Except.ok.injEq, List.map_inj_left]
  constructor
  · intro h
    have hprop : ∀ {e a b : ℝ}, e ≠ 0 → a ≠ 0 → b ≠ 0 → ProperOgden [2 * a, 2 * b] [e, -e] := by
      intro e a b he ha hb
      refine ⟨rfl, by simp [ha, hb], by simp [he], ?_⟩
      simp only [List.nodup_cons, List.mem_cons, List.not_mem_nil, or_false, not_false_eq_true, List.nodup_nil, and_self,
        and_true]
      intro h
      exact he (by linarith)
    have hperm := zip_perm (hprop he ha hb) (hprop he' ha' hb') (coef_eq (n := 4) hk (by simp [he]) (by simp [he'])
      (by
        refine (List.toFinset_card_le _).trans ?_
        simp) hx hS fun l hl => by rw [← h1 l a b (hx l hl), ← h1 l a' b' (hx l hl)]; exact h l hl)
    have hm := hperm.subset (a := (2 * a, e)) (by simp)
    have hm2 := hperm.subset (a := (2 * b, -e)) (by simp)
    simp only [List.zip_cons_cons, List.zip_nil_left, List.mem_cons, List.not_mem_nil, or_false, Prod.mk.injEq] at hm hm2
    rcases hm with ⟨h2, h3⟩ | ⟨h2, h3⟩
    · refine Or.inl ⟨h3, by linarith, ?_⟩
      rcases hm2 with ⟨-, h5⟩ | ⟨h4, -⟩
      · exact absurd (by linarith) he
      · linarith
    · refine Or.inr ⟨h3, by linarith, ?_⟩
      rcases hm2 with ⟨h4, -⟩ | ⟨-, h5⟩
      · linarith
      · exact absurd (by linarith) he
  · rintro (⟨rfl, rfl, rfl⟩ | ⟨rfl, rfl, rfl⟩) l hl
    · rfl
    · rw [h1 l _ _ (hx l hl), h1 l _ _ (hx l hl)]
      simp [add_comm]

/-- The hypotheses are met: the exponent of the test of the package. -/
noncomputable def powerSession (lapack : Eigh) (g : GenInv) : World Unit where
  params _ := { kind := .floatArray, vals := [1, 1] }
  sims _ := ⟨⟨uniaxial none, [], ["C10", "C01"], fun kw =>
    .ok (genDeformation lapack g ![(kw.get "C10").getD 0, (kw.get "C01").getD 0, 0, 0, 0] false)⟩, 0⟩
  opts _ := Optimizer.init [Experiment.init "" [1, 2] [1, 2]] [0] 7

example : ∃ lapack g, GenInv.init (deformationFun 0.001) = .ok g ∧ Matched ((powerSession lapack g).opts 0) ∧
    ∃ xs ys, FitData ((powerSession lapack g).opts 0) xs ys ∧
    UniqueFit (powerSession lapack g) ((powerSession lapack g).opts 0) xs ys 2 := by
  obtain ⟨lapack, hl⟩ := exists_eigh
  obtain ⟨⟨g, hg⟩, -, -⟩ := C13_init_deformation (k := 0.001) (by norm_num)
  have hm : Matched ((powerSession lapack g).opts 0) := by
    refine ⟨rfl, rfl, fun e he => ?_⟩
    simp only [powerSession, Optimizer.init, List.mem_cons, List.not_mem_nil, or_false] at he
    rw [he]
    rfl
  have hd : FitData ((powerSession lapack g).opts 0) [[2, 3]] [[1, 2]] := by
    refine ⟨.cons ((selected_all _ _).2 ?_) .nil, .cons ((selected_all _ _).2 ?_) .nil⟩ <;>
    · simp [Experiment.init]
      try norm_num
  have ht : PowerTest 0.001 ((powerSession lapack g).sims 0).sim .uniaxial :=
    ⟨⟨none, rfl⟩, rfl, lapack, g, hl, hg, fun p => Or.inl (by
      simp only [powerSession, Kwargs.get_ofList, coef])⟩
  refine ⟨lapack, g, hg, hm, _, _, hd, C101_one_test (by norm_num) _ _ hm (fun _ _ => ⟨_, ht⟩) _ _ hd ?_ 0 [2, 3]
    (List.mem_cons_self ..) .uniaxial (Or.inl rfl) ht ⟨{2, 3}, by norm_num, ?_⟩⟩
  · intro x hx
    rw [List.mem_singleton.1 hx]
    simp
  · intro l hl
    simp only [Finset.mem_insert, Finset.mem_singleton] at hl
    rcases hl with rfl | rfl <;> norm_num

end Props
