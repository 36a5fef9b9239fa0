import Verif.Props.Fit
import Verif.Props.LabOgden

/-! # Property C76 for Ogden's model with given exponents -/

namespace Props
open Spec Hel

variable {Z : Type}

theorem ogdenCurve_linear (k : LoadKind) (a b m m' alpha l : ℝ) :
    ogdenCurve k (a * m + b * m') alpha l = a * ogdenCurve k m alpha l + b * ogdenCurve k m' alpha l := by
  cases k <;> simp only [ogdenCurve] <;> ring

theorem ogdenSum_linear (k : LoadKind) (l a b : ℝ) (names : List String) (alpha : List ℝ) (c c' c'' : String → ℝ)
    (h : ∀ name, c'' name = a * c name + b * c' name) :
    (((names.map c'').zip alpha).map fun q => ogdenCurve k q.1 q.2 l).sum =
      a * (((names.map c).zip alpha).map fun q => ogdenCurve k q.1 q.2 l).sum +
      b * (((names.map c').zip alpha).map fun q => ogdenCurve k q.1 q.2 l).sum := by
  induction names generalizing alpha with
  | nil => simp
  | cons name names ih =>
    cases alpha with
    | nil => simp
    | cons al alpha =>
      simp only [List.map_cons, List.zip_cons_cons, List.sum_cons, ih, h, ogdenCurve_linear]
      ring

theorem combine_map (a b : ℝ) (x : List ℝ) (f g : ℝ → ℝ) :
    combine a b (x.map f) (x.map g) = x.map fun l => a * f l + b * g l := by
  rw [combine, List.zipWith_map_left, List.zipWith_map_right, List.zipWith_self]

/-- The curves of Ogden's model are linear in the moduli: for every user's function which passes the
parameters with the labels `names` as moduli, with given exponents, to the model. -/
theorem C76_ogden_linear (lapack : Eigh) (hl : EighValid lapack) (sim : Simulation Z) (k : LoadKind)
    (lab : Option String) (hk : sim.loadcase = k.case lab) (names : List String) (alpha : List ℝ)
    (ha : ∀ a ∈ alpha, a ≠ 0)
    (hm : ∀ p, sim.material (Kwargs.ofList (sim.labels.zip p)) =
        .ok (ogdenDeformation lapack (names.map (coef sim.labels p)) alpha) ∨
      sim.material (Kwargs.ofList (sim.labels.zip p)) =
        .ok (ogdenDistortional lapack (names.map (coef sim.labels p)) alpha))
    (x : List ℝ) (hne : x ≠ []) (hx : ∀ l ∈ x, 0 < l) : LinearCurve sim x := by
  intro p q hpq
  have hc := fun p => C42_ogden lapack hl _ alpha ha sim k lab hk p (hm p) x hne hx
  refine ⟨_, _, hc p, hc q, fun a b => ?_⟩
  rw [hc]
  congr 1
  have hcoef : ∀ name, coef sim.labels (combine a b p q) name =
      a * coef sim.labels p name + b * coef sim.labels q name := by
    intro name
    obtain ⟨n, hn⟩ : ∃ n, p.length = n := ⟨_, rfl⟩
    obtain ⟨p, rfl⟩ := ofFn_of_length hn
    obtain ⟨q, rfl⟩ := ofFn_of_length (hpq.symm.trans hn)
    obtain ⟨φ, hφ⟩ := coef_linear n sim.labels name
    rw [combine_ofFn]
    simp only [hφ, map_add, map_smul, smul_eq_mul]
  rw [combine_map]
  exact List.map_congr_left fun l _ => ogdenSum_linear k l a b names alpha _ _ _ hcoef

/-- The hypotheses are met: two terms with the exponents 2 and -2, whose moduli are fitted. -/
example : ∃ (lapack : Eigh) (sim : Simulation Unit), EighValid lapack ∧
    sim.loadcase = LoadKind.planar.case none ∧ ∀ p, sim.material (Kwargs.ofList (sim.labels.zip p)) =
      .ok (ogdenDeformation lapack (["a", "b"].map (coef sim.labels p)) [2, -2]) := by
  obtain ⟨lapack, hl⟩ := exists_eigh
  refine ⟨lapack, ⟨LoadKind.planar.case none, [1, 2], ["b", "a"], fun kw =>
    .ok (ogdenDeformation lapack [(kw.get "a").getD 0, (kw.get "b").getD 0] [2, -2])⟩, hl, rfl, fun p => ?_⟩
  simp only [Kwargs.get_ofList, List.map_cons, List.map_nil, coef]

end Props
