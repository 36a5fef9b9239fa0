import Verif.Model.LabGeneralized
import Verif.Props.LabOgden
import Verif.Props.FitOgden
import Verif.Props.BatchGeneralized
import Verif.Props.EndToEnd
import Verif.Props.FitNoise

/-! # Property C98: curves and fits of generalized-invariants materials -/

namespace Props
open Spec Hel Matrix

variable {Z : Type}

theorem Stress.at_last {n : ℕ} (i : Fin n) (r : Batch.Stress (Fin 1 × Fin n)) :
    Stress.at i r.last = Stress.at (0, i) r := by cases r <;> rfl

open Classical in
theorem genFramework_agrees (lapack : Eigh) (g : GenInv) (c : Fin 5 → ℝ) (b : Bool) {n : ℕ} (i : Fin n) :
    Material.AgreesAt ((0 : Fin 1), i) id (genFramework (Z := Z) lapack g c b n)
      (generalizedFramework lapack g (TOD.init (c 0) (c 1) (c 2) (c 3) (c 4) b).mat) :=
  C39_stretches lapack ((0 : Fin 1), i) id _ _ (C39_generalized_tod g (c 0) (c 1) (c 2) (c 3) (c 4) b ((0 : Fin 1), i) id)

theorem genDeformation_acts (lapack : Eigh) (g : GenInv) (c : Fin 5 → ℝ) (b : Bool) (s : DefSt (StrSt (GenSt Unit))) :
    MatObj.ActsAs (genDeformation (Z := Z) lapack g c b) (Deformation.obj {}
      (generalizedFramework lapack g (TOD.init (c 0) (c 1) (c 2) (c 3) (c 4) b).mat)) s := fun n i F z => by
  have h := C39_deformation_gradient {} ((0 : Fin 1), i) id _ _ (genFramework_agrees lapack g c b i)
    (fun a b j => F a b j.2) z { material := { material := { material := () } } } s
  refine Eq.trans ?_ h
  simp only [genDeformation, MatObj.of1]
  generalize ((Batch.Deformation.obj {} (genFramework lapack g c b n)).gradient _ _ _).1 = r
  rcases r with e | ⟨r, z⟩
  · rfl
  · simp only [Except.map, Stress.at_last, id]

theorem genDistortional_acts (lapack : Eigh) (g : GenInv) (c : Fin 5 → ℝ) (b : Bool) (s : DistSt (StrSt (GenSt Unit))) :
    MatObj.ActsAs (genDistortional (Z := Z) lapack g c b) (Distortional.obj {}
      (generalizedFramework lapack g (TOD.init (c 0) (c 1) (c 2) (c 3) (c 4) b).mat)) s := fun n i F z => by
  have h := C39_distortional_gradient {} ((0 : Fin 1), i) id _ _ (genFramework_agrees lapack g c b i)
    (fun a b j => F a b j.2) z { material := { material := { material := () } } } s
  refine Eq.trans ?_ h
  simp only [genDistortional, MatObj.of1]
  generalize ((Batch.Distortional.obj {} (genFramework lapack g c b n)).gradient _ _ _).1 = r
  rcases r with e | ⟨r, z⟩
  · rfl
  · simp only [Except.map, Stress.at_last, id]

theorem gen_point (lapack : Eigh) (hl : EighValid lapack) (g : GenInv) (c : Fin 5 → ℝ) (b : Bool) (k : LoadKind)
    {l : ℝ} (hp : 0 < l) (z : Z) (s : DefSt (StrSt (GenSt Unit))) :
    ∃ P, Returns ((Deformation.obj {} (generalizedFramework lapack g
      (TOD.init (c 0) (c 1) (c 2) (c 3) (c 4) b).mat)).gradient (k.F l) z) s (.full P, z) := by
  have h := C52_deformation (z := z) (s := s) lapack hl _ (GenInv.symmetric g
    (TOD.init (c 0) (c 1) (c 2) (c 3) (c 4) b).mat) (loadStretches_pos k hp) orthogonal_one orthogonal_one
    ((GenInv.returns_gradient ..).2 ⟨_, TOD.gradient_eq (I3 := GenInv.J3 (g.ev (loadStretches k l))) .., rfl, rfl⟩)
  simp only [Matrix.one_mul, transpose_one, Matrix.mul_one] at h
  rw [← loadF_eq] at h
  exact ⟨_, h⟩

/-- The coefficients `C10, C01, C11, C20, C30` as the energy in the stretches along the load. -/
noncomputable def loadEnergy (S : StrainFun) (f : ℝ → ℝ) (c : Fin 5 → ℝ) (b : Bool) (k : LoadKind) (t : ℝ) : ℝ :=
  todEnergy (c 0) (c 1) (c 2) (c 3) (c 4) (if b then 0 else 3)
    (genInvariants f (coef1 S) (coef2 S) (loadStretches k t))

/-- The curve of a simulation with a generalized-invariants material, on the deformation or on the
distortional space: every strain measure, every load case, every non-empty list of positive stretches. -/
theorem C98_curve (lapack : Eigh) (hl : EighValid lapack) (S : StrainFun) (f : ℝ → ℝ) (hS : Measures S f)
    (g : GenInv) (hg : GenInv.init S = .ok g) (c : Fin 5 → ℝ) (b : Bool) (sim : Simulation Z) (k : LoadKind)
    (lab : Option String) (hk : sim.loadcase = k.case lab) (p : List ℝ)
    (hm : sim.material (Kwargs.ofList (sim.labels.zip p)) = .ok (genDeformation lapack g c b) ∨
      sim.material (Kwargs.ofList (sim.labels.zip p)) = .ok (genDistortional lapack g c b))
    (x : List ℝ) (hne : x ≠ []) (hx : ∀ l ∈ x, 0 < l) :
    sim.stressCurveFit x p = .ok (x.map fun l => deriv (loadEnergy S f c b k) l / k.axes) ∧
      ∀ l ∈ x, DifferentiableAt ℝ (loadEnergy S f c b k) l := by
  set mat := generalizedFramework (Z := Option Z) lapack g (TOD.init (c 0) (c 1) (c 2) (c 3) (c 4) b).mat with hmat
  obtain ⟨Ψ, hΨ⟩ := generalized_energy f (coef1 S) (coef2 S) (todEnergy (c 0) (c 1) (c 2) (c 3) (c 4) (if b then 0 else 3))
  have hgrad : IsGradient PosDef Ψ (Material.Grad mat none) :=
    C19_generalized lapack hl none S f hS g hg _ _ (C10_gradient _ _ _ _ _ _ _) Ψ hΨ
  have hiso : Material.Isotropic mat none := C36_stretches lapack hl _ (GenInv.symmetric g _) none
  have e : ∀ t, 0 < t → Ψ (cauchyGreen (k.F t)) = loadEnergy S f c b k t := by
    intro t ht
    have hpos := loadStretches_pos k ht
    have hc : cauchyGreen (k.F t) = diagonal fun a => loadStretches k t a ^ 2 := by
      rw [loadF_eq, cauchyGreen, diagonal_transpose, diagonal_mul_diagonal]
      congr 1; funext a; ring
    rw [hΨ _ _ _ (posDef_cauchyGreen (by rw [loadF_det k ht]; exact one_ne_zero)) (hc ▸ spectral_diagonal _), loadEnergy]
    congr 2
    funext a
    exact Real.sqrt_sq (hpos a).le
  have hax : (k.axes : ℝ) ≠ 0 := by cases k <;> simp [LoadKind.axes]
  have hw : ∀ y, sim.stressCurveFit x p = .ok y →
      List.Forall₂ (fun l f' => HasDerivAt (loadEnergy S f c b k) (k.axes * f') l) x y := by
    intro y hy
    have h1 : List.Forall₂ (fun l f' => HasDerivAt (fun t => Ψ (cauchyGreen (k.F t))) (k.axes * f') l) x y := by
      rcases hm with hm | hm
      · exact C43_work sim k lab hk p _ hm .deformation (Or.inl rfl) mat hiso Ψ hgrad
          { material := { material := { material := () } } } (genDeformation_acts lapack g c b _) x y hx hy
      · exact C43_work sim k lab hk p _ hm .distortional (Or.inr rfl) mat hiso Ψ hgrad
          { material := { material := { material := () } } } (genDistortional_acts lapack g c b _) x y hx hy
    refine forall₂_imp_pos ?_ hx h1
    intro l f' hl h
    refine h.congr_of_eventuallyEq ?_
    filter_upwards [lt_mem_nhds hl] with t ht
    exact (e t ht).symm
  have hex : ∃ y, sim.stressCurveFit x p = .ok y := by
    choose! P hP using fun (l : ℝ) (hp : 0 < l) =>
      gen_point (Z := Option Z) lapack hl g c b k hp none { material := { material := { material := () } } }
    refine ⟨x.map fun l => normalForce (k.F l) (P l), ?_⟩
    rcases hm with hm | hm
    · refine curve_of_returns hk hm (genDeformation_acts lapack g c b { material := { material := { material := () } } }) hne ?_
      rw [List.forall₂_map_right_iff, List.forall₂_same]
      exact fun l hl => ⟨P l, none, hP l (hx l hl), rfl⟩
    · refine curve_of_returns hk hm (genDistortional_acts lapack g c b { material := { material := { material := () } } }) hne ?_
      rw [List.forall₂_map_right_iff, List.forall₂_same]
      intro l hl
      obtain ⟨P', h1', h2'⟩ := (same_point k (hx l hl) _ none none _ { material := { material := { material := () } } } rfl _).1
        ⟨P l, hP l (hx l hl), rfl⟩
      exact ⟨P', none, h1', h2'⟩
  obtain ⟨y, hy⟩ := hex
  have h2 := hw y hy
  have h3 : y = x.map fun l => deriv (loadEnergy S f c b k) l / k.axes := by
    clear hy hw hne hx
    induction h2 with
    | nil => rfl
    | cons h _ ih => rw [List.map_cons, ← ih, h.deriv, mul_div_cancel_left₀ _ hax]
  refine ⟨h3 ▸ hy, ?_⟩
  clear hy hw hne hx h3
  induction h2 with
  | nil => simp
  | cons h _ ih => rintro l (_ | ⟨_, hl⟩); exacts [h.differentiableAt, ih l hl]

/-- The curves with the built-in deformation measure of any non-zero exponent. -/
theorem C98_deformation (lapack : Eigh) (hl : EighValid lapack) {e : ℝ} (he : e ≠ 0) (c : Fin 5 → ℝ) (b : Bool) :
    ∃ g, GenInv.init (deformationFun e) = .ok g ∧ ∀ (sim : Simulation Z) (k : LoadKind) (lab : Option String),
      sim.loadcase = k.case lab → ∀ p : List ℝ,
      (sim.material (Kwargs.ofList (sim.labels.zip p)) = .ok (genDeformation lapack g c b) ∨
        sim.material (Kwargs.ofList (sim.labels.zip p)) = .ok (genDistortional lapack g c b)) →
      ∀ x : List ℝ, x ≠ [] → (∀ l ∈ x, 0 < l) →
        sim.stressCurveFit x p = .ok (x.map fun l => deriv (loadEnergy (deformationFun e) (fun x => x ^ e) c b k) l / k.axes) := by
  obtain ⟨⟨g, hg⟩, -, -⟩ := C13_init_deformation he
  exact ⟨g, hg, fun sim k lab hk p hm x hne hx =>
    (C98_curve lapack hl _ _ (measures_deformation e) g hg c b sim k lab hk p hm x hne hx).1⟩

/-- The curves are linear in the coefficients, for a given strain measure: for every user's function which passes the
parameters with the labels `names` as coefficients to the model (zero for labels which are not fitted). -/
theorem C98_linear (lapack : Eigh) (hl : EighValid lapack) (S : StrainFun) (f : ℝ → ℝ) (hS : Measures S f)
    (g : GenInv) (hg : GenInv.init S = .ok g) (b : Bool) (sim : Simulation Z) (k : LoadKind)
    (lab : Option String) (hk : sim.loadcase = k.case lab) (names : Fin 5 → String)
    (hm : ∀ p, sim.material (Kwargs.ofList (sim.labels.zip p)) =
        .ok (genDeformation lapack g (fun i => coef sim.labels p (names i)) b) ∨
      sim.material (Kwargs.ofList (sim.labels.zip p)) =
        .ok (genDistortional lapack g (fun i => coef sim.labels p (names i)) b))
    (x : List ℝ) (hne : x ≠ []) (hx : ∀ l ∈ x, 0 < l) : LinearCurve sim x := by
  intro p q hpq
  have hc := fun p => C98_curve lapack hl S f hS g hg _ b sim k lab hk p (hm p) x hne hx
  refine ⟨_, _, (hc p).1, (hc q).1, fun a b' => ?_⟩
  rw [(hc _).1]
  congr 1
  have hcoef : ∀ name, coef sim.labels (combine a b' p q) name =
      a * coef sim.labels p name + b' * coef sim.labels q name := by
    intro name
    obtain ⟨n, hn⟩ : ∃ n, p.length = n := ⟨_, rfl⟩
    obtain ⟨p, rfl⟩ := ofFn_of_length hn
    obtain ⟨q, rfl⟩ := ofFn_of_length (hpq.symm.trans hn)
    obtain ⟨φ, hφ⟩ := coef_linear n sim.labels name
    rw [combine_ofFn]
    simp only [hφ, map_add, map_smul, smul_eq_mul]
  rw [combine_map]
  refine List.map_congr_left fun l hl' => ?_
  have e : loadEnergy S f (fun i => coef sim.labels (combine a b' p q) (names i)) b k = fun t =>
      a * loadEnergy S f (fun i => coef sim.labels p (names i)) b k t +
      b' * loadEnergy S f (fun i => coef sim.labels q (names i)) b k t := by
    funext t
    simp only [loadEnergy, todEnergy, hcoef]
    ring
  have h1 := ((hc p).2 l hl').hasDerivAt.const_mul a
  have h2 := ((hc q).2 l hl').hasDerivAt.const_mul b'
  have h3 := (h1.add h2).deriv
  rw [e, show deriv (fun t => a * loadEnergy S f (fun i => coef sim.labels p (names i)) b k t +
      b' * loadEnergy S f (fun i => coef sim.labels q (names i)) b k t) l = _ from h3]
  ring

/-- A simulation of a generalized-invariants material, whose coefficients are parameters. -/
def GenTest (sim : Simulation Z) : Prop :=
  ∃ (lapack : Eigh) (S : StrainFun) (f : ℝ → ℝ) (g : GenInv) (b : Bool) (k : LoadKind) (lab : Option String)
    (names : Fin 5 → String), EighValid lapack ∧ Measures S f ∧ GenInv.init S = .ok g ∧ sim.loadcase = k.case lab ∧
    ∀ p, sim.material (Kwargs.ofList (sim.labels.zip p)) =
        .ok (genDeformation lapack g (fun i => coef sim.labels p (names i)) b) ∨
      sim.material (Kwargs.ofList (sim.labels.zip p)) =
        .ok (genDistortional lapack g (fun i => coef sim.labels p (names i)) b)

/-- So everything about linear fits (properties C76 and C97) holds for optimizers of such tests: here, a best fit
exists, every local minimum of the error is a global one, and noise in the measurements is not amplified in the curves. -/
theorem C98_fit (w : World Z) (op : Optimizer) (xs ys : List (List ℝ)) (ht : ∀ s ∈ op.simulations, GenTest (w.sims s).sim)
    (hx : ∀ x ∈ xs, x ≠ [] ∧ ∀ l ∈ x, 0 < l) (n : ℕ) :
    (∃ p, p.length = n ∧ BestFit w op xs ys p) ∧
    (∀ p, LocalFit w op xs ys p → BestFit w op xs ys p) ∧
    (op.simulations.length = xs.length → ∀ ys', Measured xs ys → Measured xs ys' → ∀ p p' vs vs',
      p.length = n → p'.length = n → BestFit w op xs ys p → BestFit w op xs ys' p' →
      Curves w op xs p vs → Curves w op xs p' vs' → sqErr vs.flatten vs'.flatten ≤ sqErr ys.flatten ys'.flatten) := by
  have hlin : LinearTests w op xs := by
    rintro ⟨s, x⟩ he
    obtain ⟨h1, h2⟩ := List.of_mem_zip he
    obtain ⟨lapack, S, f, g, b, k, lab, names, hl, hS, hg, hk, hm⟩ := ht s h1
    exact C98_linear lapack hl S f hS g hg b _ k lab hk names hm x (hx x h2).1 (hx x h2).2
  exact ⟨C76_exists w op xs ys hlin n, C76_local w op xs ys hlin, fun hs ys' hy hy' p p' vs vs' hp hp' hb hb' hv hv' =>
    C97_curves w op xs ys ys' hlin hs hy hy' p p' (hp.trans hp'.symm) hb hb' vs vs' hv hv'⟩

/-- The hypotheses are met: the session of the test with the exponent 0.001 and three fitted coefficients. -/
example : ∃ (lapack : Eigh) (g : GenInv) (sim : Simulation Unit), EighValid lapack ∧
    Measures (deformationFun 0.001) (fun x => x ^ (0.001 : ℝ)) ∧ GenInv.init (deformationFun 0.001) = .ok g ∧
    sim.loadcase = LoadKind.biaxial.case none ∧ GenTest sim ∧
    sim.stressCurveFit [1, 2] [3, 4, 5] = .ok ([1, 2].map fun l =>
      deriv (loadEnergy (deformationFun 0.001) (fun x => x ^ (0.001 : ℝ)) ![5, 3, 0, 4, 0] false .biaxial) l / 2) := by
  obtain ⟨lapack, hl⟩ := exists_eigh
  obtain ⟨⟨g, hg⟩, -, -⟩ := C13_init_deformation (k := 0.001) (by norm_num)
  have hn : ∀ p : List ℝ, (.ok (genDeformation lapack g ![((Kwargs.ofList (["C01", "C20", "C10"].zip p)).get "C10").getD 0,
      ((Kwargs.ofList (["C01", "C20", "C10"].zip p)).get "C01").getD 0, 0,
      ((Kwargs.ofList (["C01", "C20", "C10"].zip p)).get "C20").getD 0, 0] false) : Res (MatObj (Option Unit))) =
      .ok (genDeformation lapack g (fun i => coef ["C01", "C20", "C10"] p (![ "C10", "C01", "C11", "C20", "C30"] i)) false) := by
    intro p
    congr 2
    funext i
    fin_cases i <;> simp [Kwargs.get_ofList, coef, assigned]
    all_goals rcases p with _ | ⟨a, _ | ⟨b, _ | ⟨c, p⟩⟩⟩ <;> simp
  refine ⟨lapack, g, ⟨LoadKind.biaxial.case none, [1, 2], ["C01", "C20", "C10"], fun kw =>
    .ok (genDeformation lapack g ![(kw.get "C10").getD 0, (kw.get "C01").getD 0, 0, (kw.get "C20").getD 0, 0] false)⟩, hl,
    measures_deformation _, hg, rfl, ⟨lapack, _, _, g, false, .biaxial, none, ![ "C10", "C01", "C11", "C20", "C30"], hl,
      measures_deformation _, hg, rfl, fun p => Or.inl (hn p)⟩, ?_⟩
  have := (C98_curve lapack hl _ _ (measures_deformation 0.001) g hg ![5, 3, 0, 4, 0] false
    ⟨LoadKind.biaxial.case none, [1, 2], ["C01", "C20", "C10"], fun kw =>
    .ok (genDeformation (Z := Option Unit) lapack g ![(kw.get "C10").getD 0, (kw.get "C01").getD 0, 0, (kw.get "C20").getD 0, 0] false)⟩
    .biaxial none rfl [3, 4, 5] (Or.inl (by simp [Kwargs.ofList, Kwargs.set, Kwargs.get, List.lookup])) [1, 2] (by simp) (by simp)).1
  rw [this]
  simp [LoadKind.axes]

end Props
