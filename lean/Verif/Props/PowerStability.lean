import Verif.Props.PowerTest
import Verif.Props.Monotone
import Verif.Props.Polyconvex
import Verif.Props.EndToEnd

/-! # Property C102: increasing curves and stability of two-term materials of generalized invariants -/

namespace Props
open Spec Hel Matrix

variable {Z : Type}

/-- The curves of a simulation with a two-term material (deformation measure with the exponent `e`) are strictly increasing
if the coefficients are not negative, not both zero, and the exponents of the terms which are present are admissible
for the load case. -/
theorem C102_increasing (lapack : Eigh) (hl : EighValid lapack) {e : ℝ} (he : e ≠ 0) (g : GenInv)
    (hg : GenInv.init (deformationFun e) = .ok g) (C10 C01 : ℝ) (h10 : 0 ≤ C10) (h01 : 0 ≤ C01) (hpos : 0 < C10 + C01)
    (sim : Simulation Z) (k : LoadKind) (lab : Option String) (hk : sim.loadcase = k.case lab)
    (ha : 0 < C10 → k.Admits e) (hb : 0 < C01 → k.Admits (-e)) (p : List ℝ)
    (hm : sim.material (Kwargs.ofList (sim.labels.zip p)) = .ok (genDeformation lapack g ![C10, C01, 0, 0, 0] false) ∨
      sim.material (Kwargs.ofList (sim.labels.zip p)) = .ok (genDistortional lapack g ![C10, C01, 0, 0, 0] false)) :
    IncreasingCurve sim p := by
  refine increasing_of_map ?_ fun x hne hx => C100_curve lapack hl he g hg C10 C01 sim k lab hk p hm x hne hx
  rcases h10.eq_or_lt with rfl | h10
  · have h : 0 < C01 := by linarith
    refine (ogdenCurve_mono k (mu := 2 * C01) (by linarith) (hb h)).congr fun l _ => ?_
    rw [ogdenCurve_smul k 0, zero_mul, zero_add]
  · rcases h01.eq_or_lt with rfl | h01
    · refine (ogdenCurve_mono k (mu := 2 * C10) (by linarith) (ha h10)).congr fun l _ => ?_
      rw [ogdenCurve_smul k 0, zero_mul, add_zero]
    · exact (ogdenCurve_mono k (mu := 2 * C10) (by linarith) (ha h10)).add
        (ogdenCurve_mono k (mu := 2 * C01) (by linarith) (hb h01))

/-- For a single term with a positive coefficient the condition is necessary. -/
theorem C102_increasing_iff (lapack : Eigh) (hl : EighValid lapack) {e : ℝ} (he : e ≠ 0) (g : GenInv)
    (hg : GenInv.init (deformationFun e) = .ok g) (C : ℝ) (hC : 0 < C) (sim : Simulation Z) (k : LoadKind) (lab : Option String)
    (hk : sim.loadcase = k.case lab) (p : List ℝ) :
    ((sim.material (Kwargs.ofList (sim.labels.zip p)) = .ok (genDeformation lapack g ![C, 0, 0, 0, 0] false) ∨
      sim.material (Kwargs.ofList (sim.labels.zip p)) = .ok (genDistortional lapack g ![C, 0, 0, 0, 0] false)) →
      (IncreasingCurve sim p ↔ k.Admits e)) ∧
    ((sim.material (Kwargs.ofList (sim.labels.zip p)) = .ok (genDeformation lapack g ![0, C, 0, 0, 0] false) ∨
      sim.material (Kwargs.ofList (sim.labels.zip p)) = .ok (genDistortional lapack g ![0, C, 0, 0, 0] false)) →
      (IncreasingCurve sim p ↔ k.Admits (-e))) := by
  have key : ∀ a : ℝ, a ≠ 0 → (∀ x : List ℝ, x ≠ [] → (∀ l ∈ x, 0 < l) →
      sim.stressCurveFit x p = .ok (x.map fun l => ogdenCurve k (2 * C) a l)) → (IncreasingCurve sim p ↔ k.Admits a) := by
    intro a ha h
    let sim' : Simulation Z := { sim with material := fun _ => .ok (ogdenDeformation lapack [2 * C] [a]) }
    rw [← C77_ogden_exponents lapack hl (2 * C) a (by linarith) ha sim' k lab hk p (Or.inl rfl)]
    have h' : ∀ x : List ℝ, x ≠ [] → (∀ l ∈ x, 0 < l) → sim'.stressCurveFit x p = sim.stressCurveFit x p := by
      intro x hne hx
      rw [h x hne hx, C42_ogden lapack hl [2 * C] [a] (by simpa using ha) sim' k lab hk p (Or.inl rfl) x hne hx]
      simp
    constructor <;> intro hi x hne hx
    · obtain ⟨y, hy, r⟩ := hi x hne hx
      exact ⟨y, (h' x hne hx).trans hy, r⟩
    · obtain ⟨y, hy, r⟩ := hi x hne hx
      exact ⟨y, (h' x hne hx).symm.trans hy, r⟩
  constructor
  · intro hm
    refine key e he fun x hne hx => ?_
    rw [C100_curve lapack hl he g hg C 0 sim k lab hk p hm x hne hx]
    congr 1
    refine List.map_congr_left fun l _ => ?_
    rw [ogdenCurve_smul k 0 (-e), zero_mul, add_zero]
  · intro hm
    refine key (-e) (neg_ne_zero.2 he) fun x hne hx => ?_
    rw [C100_curve lapack hl he g hg 0 C sim k lab hk p hm x hne hx]
    congr 1
    refine List.map_congr_left fun l _ => ?_
    rw [ogdenCurve_smul k 0 e, zero_mul, zero_add]

/-- Positive forces in tension, negative forces in compression, none in the undeformed state, for every exponent: coefficients
which are not negative and not both zero. -/
theorem C102_sign (lapack : Eigh) (hl : EighValid lapack) {e : ℝ} (he : e ≠ 0) (g : GenInv)
    (hg : GenInv.init (deformationFun e) = .ok g) (C10 C01 : ℝ) (h10 : 0 ≤ C10) (h01 : 0 ≤ C01) (hpos : 0 < C10 + C01)
    (sim : Simulation Z) (k : LoadKind) (lab : Option String) (hk : sim.loadcase = k.case lab) (p : List ℝ)
    (hm : sim.material (Kwargs.ofList (sim.labels.zip p)) = .ok (genDeformation lapack g ![C10, C01, 0, 0, 0] false) ∨
      sim.material (Kwargs.ofList (sim.labels.zip p)) = .ok (genDistortional lapack g ![C10, C01, 0, 0, 0] false))
    (x : List ℝ) (hne : x ≠ []) (hx : ∀ l ∈ x, 0 < l) :
    ∃ y, sim.stressCurveFit x p = .ok y ∧ y.length = x.length ∧ ∀ i (hi : i < x.length),
      (1 < x[i] → 0 < y.getD i 0) ∧ (x[i] < 1 → y.getD i 0 < 0) ∧ (x[i] = 1 → y.getD i 0 = 0) := by
  refine ⟨_, C100_curve lapack hl he g hg C10 C01 sim k lab hk p hm x hne hx, by simp, fun i hi => ?_⟩
  have hp : 0 < x[i] := hx _ (List.getElem_mem hi)
  simp only [List.getD_eq_getElem?_getD, List.getElem?_map, List.getElem?_eq_getElem hi, Option.map_some, Option.getD_some]
  rw [ogdenCurve_smul, ogdenCurve_smul]
  obtain ⟨a1, a3, a2⟩ := ogdenCurve_sign k two_pos he hp
  obtain ⟨b1, b3, b2⟩ := ogdenCurve_sign k two_pos (neg_ne_zero.2 he) hp
  refine ⟨fun h => ?_, fun h => ?_, fun h => by rw [a3 h, b3 h]; ring⟩
  · have := a1 h; have := b1 h
    rcases h10.eq_or_lt with rfl | h10
    · have h : 0 < C01 := by linarith
      rw [zero_mul, zero_add]; positivity
    · positivity
  · have ha := a2 h; have hb := b2 h
    rcases h10.eq_or_lt with rfl | h10
    · have h : 0 < C01 := by linarith
      rw [zero_mul, zero_add]; exact mul_neg_of_pos_of_neg h hb
    · have := mul_neg_of_pos_of_neg h10 ha
      have := mul_nonpos_of_nonneg_of_nonpos h01 hb.le
      linarith

/-- The stresses on the distortional space are exactly those of Ogden's model. -/
theorem gen_grad_iff (lapack : Eigh) (hl : EighValid lapack) {e : ℝ} (he : e ≠ 0) (g : GenInv)
    (hg : GenInv.init (deformationFun e) = .ok g) (C10 C01 : ℝ) (z : Z) {F : Ten2 ℝ} (hF : F.det ≠ 0) (P : Ten2 ℝ) :
    SpaceObj.Grad (Distortional.obj {} (generalizedFramework lapack g (TOD.init C10 C01 0 0 0 false).mat)) z F P ↔
      SpaceObj.Grad (Distortional.obj {} (Stretches.material lapack (Ogden.mat ⟨[2 * C10, 2 * C01], [e, -e]⟩))) z F P := by
  obtain ⟨P', h1, h2⟩ := C100_stress lapack hl he g hg C10 C01 z F hF
  constructor
  · rintro ⟨s, z', h⟩
    have := (h1 s).symm.trans h
    simp only [Except.ok.injEq, Prod.mk.injEq, Stress.full.injEq] at this
    exact ⟨{ material := { material := () } }, z, this.1 ▸ h2 _⟩
  · rintro ⟨s, z', h⟩
    have := (h2 s).symm.trans h
    simp only [Except.ok.injEq, Prod.mk.injEq, Stress.full.injEq] at this
    exact ⟨{ material := { material := { material := () } } }, z, this.1 ▸ h1 _⟩

theorem inv_grad_iff (lapack : Eigh) (hl : EighValid lapack) (C10 C01 : ℝ) (z : Z) {F : Ten2 ℝ} (hF : F.det ≠ 0) (P : Ten2 ℝ) :
    SpaceObj.Grad (Distortional.obj {} (Invariants.material (TOD.init C10 C01 0 0 0 false).mat)) z F P ↔
      SpaceObj.Grad (Distortional.obj {} (Stretches.material lapack (Ogden.mat ⟨[2 * C10, 2 * C01], [2, -2]⟩))) z F P := by
  obtain ⟨P', h1, h2⟩ := C100_invariants lapack hl C10 C01 z F hF
  constructor
  · rintro ⟨s, z', h⟩
    have := (h1 s).symm.trans h
    simp only [Except.ok.injEq, Prod.mk.injEq, Stress.full.injEq] at this
    exact ⟨{ material := { material := () } }, z, this.1 ▸ h2 _⟩
  · rintro ⟨s, z', h⟩
    have := (h2 s).symm.trans h
    simp only [Except.ok.injEq, Prod.mk.injEq, Stress.full.injEq] at this
    exact ⟨{ material := { material := () } }, z, this.1 ▸ h1 _⟩

theorem RankOneMonotoneStress.congr {r r' : Ten2 ℝ → Ten2 ℝ → Prop} (h : ∀ F, F.det ≠ 0 → ∀ P, r F P ↔ r' F P) :
    RankOneMonotoneStress r ↔ RankOneMonotoneStress r' := by
  refine ⟨fun hr F a b P P' hd h1 h2 => ?_, fun hr F a b P P' hd h1 h2 => ?_⟩ <;>
  have d1 : F.det ≠ 0 := fun h => by simp [h] at hd
  all_goals have d2 : (F + vecMulVec a b).det ≠ 0 := fun h => by simp [h] at hd
  · exact hr F a b P P' hd ((h _ d1 _).2 h1) ((h _ d2 _).2 h2)
  · exact hr F a b P P' hd ((h _ d1 _).1 h1) ((h _ d2 _).1 h2)

/-- The exponent of a term which is absent does not matter. -/
theorem ogden_absent {a b e f e' f' : ℝ} (he : e ≠ 0) (hf : f ≠ 0) (he' : e' ≠ 0) (hf' : f' ≠ 0) (h1 : a ≠ 0 → e = e')
    (h2 : b ≠ 0 → f = f') : (Ogden.mat ⟨[a, b], [e, f]⟩ : StrMat Z Unit) = Ogden.mat ⟨[a, b], [e', f']⟩ := by
  refine mat_eq (by simp [he, hf]) (by simp [he', hf']) fun x => ?_
  simp only [List.zip_cons_cons, List.zip_nil_left, ogdenCoef, List.map_cons, List.map_nil, List.sum_cons, List.sum_nil, add_zero]
  congr 1
  · by_cases h : a = 0
    · simp [h]
    · rw [h1 h]
  · by_cases h : b = 0
    · simp [h]
    · rw [h2 h]

/-- On the distortional space the traction does not decrease along dyads if the coefficients are not negative and the
exponent is at least `3` in absolute value (only the conditions of the terms which are present are needed: `e ≥ 3/2` or
`e ≤ -3` for the first, `e ≤ -3/2` or `e ≥ 3` for the second). -/
theorem C102_traction (lapack : Eigh) (hl : EighValid lapack) {e : ℝ} (he : e ≠ 0) (g : GenInv)
    (hg : GenInv.init (deformationFun e) = .ok g) (C10 C01 : ℝ) (h10 : 0 ≤ C10) (h01 : 0 ≤ C01)
    (ha : 0 < C10 → 3 / 2 ≤ e ∨ e ≤ -3) (hb : 0 < C01 → e ≤ -(3 / 2) ∨ 3 ≤ e) (z : Z) :
    RankOneMonotoneStress (SpaceObj.Grad (Distortional.obj {} (generalizedFramework lapack g
      (TOD.init C10 C01 0 0 0 false).mat)) z) := by
  classical
  rw [RankOneMonotoneStress.congr fun F hF => gen_grad_iff lapack hl he g hg C10 C01 z hF,
    ogden_absent (e' := if C10 = 0 then 3 else e) (f' := if C01 = 0 then 3 else -e) he (neg_ne_zero.2 he)
      (by split_ifs <;> simp [he]) (by split_ifs <;> simp [he]) (fun h => by rw [if_neg]; rintro rfl; simp at h)
      (fun h => by rw [if_neg]; rintro rfl; simp at h)]
  refine C78_ogden_distortional lapack hl _ _ (by simp [h10, h01]) ?_ z
  intro a h
  simp only [List.mem_cons, List.not_mem_nil, or_false] at h
  rcases h with rfl | rfl
  · split_ifs with h
    · norm_num
    · exact ha (lt_of_le_of_ne h10 (Ne.symm h))
  · split_ifs with h
    · norm_num
    · rcases hb (lt_of_le_of_ne h01 (Ne.symm h)) with h | h
      · left; linarith
      · right; linarith

/-- For a single term with a positive coefficient the conditions are necessary. -/
theorem C102_traction_first (lapack : Eigh) (hl : EighValid lapack) {e : ℝ} (he : e ≠ 0) (g : GenInv)
    (hg : GenInv.init (deformationFun e) = .ok g) (C10 : ℝ) (h : 0 < C10) (z : Z) :
    RankOneMonotoneStress (SpaceObj.Grad (Distortional.obj {} (generalizedFramework lapack g
      (TOD.init C10 0 0 0 0 false).mat)) z) ↔ 3 / 2 ≤ e ∨ e ≤ -3 := by
  rw [RankOneMonotoneStress.congr fun F hF => gen_grad_iff lapack hl he g hg C10 0 z hF,
    show (Ogden.mat ⟨[2 * C10, 2 * 0], [e, -e]⟩ : StrMat Z Unit) = Ogden.mat ⟨[2 * C10], [e]⟩ from
      mat_eq (by simp [he]) (by simp [he]) fun x => by simp [ogdenCoef]]
  exact C78_ogden_distortional_iff lapack hl (by linarith) he z

theorem C102_traction_second (lapack : Eigh) (hl : EighValid lapack) {e : ℝ} (he : e ≠ 0) (g : GenInv)
    (hg : GenInv.init (deformationFun e) = .ok g) (C01 : ℝ) (h : 0 < C01) (z : Z) :
    RankOneMonotoneStress (SpaceObj.Grad (Distortional.obj {} (generalizedFramework lapack g
      (TOD.init 0 C01 0 0 0 false).mat)) z) ↔ e ≤ -(3 / 2) ∨ 3 ≤ e := by
  rw [RankOneMonotoneStress.congr fun F hF => gen_grad_iff lapack hl he g hg 0 C01 z hF,
    show (Ogden.mat ⟨[2 * 0, 2 * C01], [e, -e]⟩ : StrMat Z Unit) = Ogden.mat ⟨[2 * C01], [-e]⟩ from
      mat_eq (by simp [he]) (by simp [he]) fun x => by simp [ogdenCoef]]
  rw [C78_ogden_distortional_iff lapack hl (by linarith) (neg_ne_zero.2 he) z]
  constructor <;> rintro (h | h)
  · left; linarith
  · right; linarith
  · left; linarith
  · right; linarith

/-- In the invariants framework (Mooney-Rivlin): the neo-Hookean material is stable in this sense, the term with the second
invariant alone is not. -/
theorem C102_invariants (z : Z) (C : ℝ) (h : 0 < C) :
    RankOneMonotoneStress (SpaceObj.Grad (Distortional.obj {} (Invariants.material (TOD.init C 0 0 0 0 false).mat)) z) ∧
    ¬ RankOneMonotoneStress (SpaceObj.Grad (Distortional.obj {} (Invariants.material (TOD.init 0 C 0 0 0 false).mat)) z) := by
  obtain ⟨lapack, hl⟩ := exists_eigh
  obtain ⟨⟨g, hg⟩, -, -⟩ := C13_init_deformation (k := 2) two_ne_zero
  have key : ∀ C10 C01 : ℝ,
      RankOneMonotoneStress (SpaceObj.Grad (Distortional.obj {} (Invariants.material (TOD.init C10 C01 0 0 0 false).mat)) z) ↔
      RankOneMonotoneStress (SpaceObj.Grad (Distortional.obj {} (generalizedFramework lapack g
        (TOD.init C10 C01 0 0 0 false).mat)) z) := fun C10 C01 => RankOneMonotoneStress.congr fun F hF P =>
    (inv_grad_iff lapack hl C10 C01 z hF P).trans (gen_grad_iff lapack hl two_ne_zero g hg C10 C01 z hF P).symm
  rw [key, key, C102_traction_first lapack hl two_ne_zero g hg C h z, C102_traction_second lapack hl two_ne_zero g hg C h z]
  norm_num

/-- The elasticity tensor is elliptic, at every deformation gradient with equal or clearly different stretches, above the
tolerance of `np.allclose`. -/
theorem C102_elliptic (lapack : Eigh) (hl : EighValid lapack) {e : ℝ} (he : e ≠ 0) (g : GenInv)
    (hg : GenInv.init (deformationFun e) = .ok g) (C10 C01 : ℝ) (h10 : 0 ≤ C10) (h01 : 0 ≤ C01)
    (ha : 0 < C10 → 3 / 2 ≤ e ∨ e ≤ -3) (hb : 0 < C01 → e ≤ -(3 / 2) ∨ 3 ≤ e) (z : Z) {F : Ten2 ℝ} (hF : F.det ≠ 0)
    (hs : Separated (unimodular (cauchyGreen F)))
    (ht : ∀ H, Material.Hess (generalizedFramework lapack g (TOD.init C10 C01 0 0 0 false).mat) z (unimodular (cauchyGreen F)) H →
      H = 0 ∨ ∃ i j k l, 1 / 10 ^ 8 < |4 * (cauchyGreen F).det ^ (-2 / 3 : ℝ) * H i j k l|) {A : Ten4 ℝ}
    (hA : SpaceObj.Hess (Distortional.obj {} (generalizedFramework lapack g (TOD.init C10 C01 0 0 0 false).mat)) z F A) :
    LegendreHadamard A := by
  have h := C28_hessian_at_partial _ z _ _
    (C20_generalized lapack hl z _ _ (measures_deformation e) g hg C10 C01 0 0 0 false)
  have hh : IsHessian (fun F => F.det ≠ 0)
      (SpaceObj.Grad (Distortional.obj {} (generalizedFramework lapack g (TOD.init C10 C01 0 0 0 false).mat)) z)
      (fun F A => (Separated (unimodular (cauchyGreen F)) ∧
        ∀ H, Material.Hess (generalizedFramework lapack g (TOD.init C10 C01 0 0 0 false).mat) z (unimodular (cauchyGreen F)) H →
          H = 0 ∨ ∃ i j k l, 1 / 10 ^ 8 < |4 * (cauchyGreen F).det ^ (-2 / 3 : ℝ) * H i j k l|) ∧
        SpaceObj.Hess (Distortional.obj {} (generalizedFramework lapack g (TOD.init C10 C01 0 0 0 false).mat)) z F A) := fun F F' t₀ P A hF hm hP hA =>
    h F F' t₀ P A (hF.mono fun t ht => ⟨ht, (posDef_cauchyGreen ht).smul
      (Real.rpow_pos_of_pos (det_cauchyGreen_pos ht) _)⟩) hm hP hA
  exact RankOneMonotoneStress.elliptic (C102_traction lapack hl he g hg C10 C01 h10 h01 ha hb z) hh
    (fun F hF => by
      obtain ⟨P, h1, -⟩ := C100_stress lapack hl he g hg C10 C01 z F hF
      exact ⟨P, _, _, h1 { material := { material := { material := () } } }⟩) hF ⟨⟨hs, ht⟩, hA⟩

/-- On the deformation space the first term alone is even monotone (a convex energy of the deformation gradient) for
exponents of at least one. -/
theorem C102_deformation (lapack : Eigh) (hl : EighValid lapack) {e : ℝ} (he : 1 ≤ e) (g : GenInv)
    (hg : GenInv.init (deformationFun e) = .ok g) (C10 : ℝ) (h : 0 ≤ C10) (z : Z) :
    MonotoneStress (SpaceObj.Grad (Deformation.obj {} (generalizedFramework lapack g (TOD.init C10 0 0 0 0 false).mat)) z) := by
  have key : ∀ F : Ten2 ℝ, F.det ≠ 0 → ∀ P,
      SpaceObj.Grad (Deformation.obj {} (generalizedFramework lapack g (TOD.init C10 0 0 0 0 false).mat)) z F P →
      SpaceObj.Grad (Deformation.obj {} (Stretches.material lapack (Ogden.mat ⟨[2 * C10], [e]⟩))) z F P := by
    intro F hF P
    obtain ⟨⟨P', h1, h2⟩, -⟩ := C100_neoHooke lapack hl (by linarith : e ≠ 0) g hg C10 z .deformation F hF
    rintro ⟨s, z', h⟩
    have := (h1 s).symm.trans h
    simp only [Except.ok.injEq, Prod.mk.injEq, Stress.full.injEq] at this
    exact ⟨{ material := { material := () } }, z, this.1 ▸ h2 _⟩
  have hm := C78_ogden lapack hl [2 * C10] [e] (by simpa using h) (by simpa using he) z
  intro F F' P P' hF hF' h1 h2
  exact hm F F' P P' hF hF' (key F hF P h1) (key F' hF' P' h2)

/-! The hypotheses are met. -/

/-- both terms with the exponent `3`: the conditions hold for every load case and on the distortional space -/
example : (3 : ℝ) ≠ 0 ∧ (∃ g, GenInv.init (deformationFun 3) = .ok g) ∧
    (∀ k : LoadKind, k.Admits (3 : ℝ) ∧ k.Admits (-3 : ℝ)) ∧ (3 / 2 ≤ (3 : ℝ) ∨ (3 : ℝ) ≤ -3) ∧ ((3 : ℝ) ≤ -(3 / 2) ∨ 3 ≤ (3 : ℝ)) := by
  refine ⟨by norm_num, (C13_init_deformation (k := 3) (by norm_num)).1, fun k => ?_, by norm_num, by norm_num⟩
  cases k <;> simp only [LoadKind.Admits] <;> norm_num

/-- the conditions of `C102_elliptic` on the deformation gradient hold in the undeformed state -/
example (lapack : Eigh) (hl : EighValid lapack) (z : Z) : ∃ g, GenInv.init (deformationFun 3) = .ok g ∧
    Separated (unimodular (cauchyGreen 1)) ∧
    (∀ H, Material.Hess (generalizedFramework lapack g (TOD.init 1 1 0 0 0 false).mat) z (unimodular (cauchyGreen 1)) H →
      H = 0 ∨ ∃ i j k l, 1 / 10 ^ 8 < |4 * (cauchyGreen 1).det ^ (-2 / 3 : ℝ) * H i j k l|) ∧
    (∃ A, SpaceObj.Hess (Distortional.obj {} (generalizedFramework lapack g (TOD.init 1 1 0 0 0 false).mat)) z 1 A) := by
  obtain ⟨⟨g, hg⟩, -, -⟩ := C13_init_deformation (k := 3) (by norm_num)
  refine ⟨g, hg, ?_, ?_, C54_generalized_returns lapack g ![1, 1, 0, 0, 0] z⟩
  all_goals rw [cauchyGreen_one]
  · rw [unimodular_one]; exact separated_one
  · obtain ⟨d, p, o, hd, hh, h20, hsym, htot, hkeep, eo, ep, em⟩ :=
      generalized_initial (by norm_num : (3 : ℝ) ≠ 0) ![1, 1, 0, 0, 0] z hg
    rw [unimodular_one, det_one, Real.one_rpow]
    intro H hH
    rw [mul_one]
    refine stretches_tol d p o (.inr (.inr ?_)) (stretches_hess_one lapack hl _ z hsym htot hkeep h20 d p o hd hh H hH)
    rw [eo]
    norm_num [show (![1, 1, 0, 0, 0] : Fin 5 → ℝ) 2 = 0 from rfl, show (![1, 1, 0, 0, 0] : Fin 5 → ℝ) 3 = 0 from rfl]

end Props
