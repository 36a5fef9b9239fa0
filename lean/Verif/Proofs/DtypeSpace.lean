import Verif.Proofs.Dtype
import Verif.Proofs.PyM
import Verif.Proofs.Space
import Verif.Spec.Dtype
import Mathlib.Tactic.LinearCombination

/-! # The Piola transformation and the spaces on arrays with a dtype -/

namespace Hel.Dt
open NArr Spec.Dtype PyM

variable {Z μ : Type}

theorem piolaStress_f64 (cfg : SpaceCfg) (F : F2) (G : Full2 ℝ) (hF : F.val = fun p => G p.1 p.2)
    (S : Vec6 ℝ) (detF : Option Num) (d : Option ℝ)
    (hd : cfg.finalize = true → cfg.area = none →
      (detF.getD (det (rightCauchyGreen F)).sqrt).val () =
        d.getD (Real.sqrt (Hel.det (Hel.rightCauchyGreen G)))) :
    piolaStress cfg F (.f64 S) detF = .ok (fltStress (Hel.piolaStress cfg G S d)) := by
  obtain ⟨fin, force, area⟩ := cfg
  unfold piolaStress Hel.piolaStress forceStress
  cases fin with
  | false => rfl
  | true =>
    replace hd := hd rfl
    cases force <;> cases area <;>
      simp only [if_true, astensor, reindex_f64, bind, Except.bind]
    · rw [einsumOut_f64 (v := fun p : (Fin 3 × Fin 3) × Fin 3 => S (tab p.2 p.1.2)) _ (by simp)]
      simp only [reindex_f64]
      rw [einsumOut_f64 _ (List.mem_cons_of_mem _ List.mem_cons_self)]
      simp [fltStress, fltArr, NArr.div, Hel.astensor, hF, hd rfl]
      cases d <;> rfl
    · rw [einsumOut_f64 (v := fun p : (Fin 3 × Fin 3) × Fin 3 => S (tab p.2 p.1.2)) _ (by simp)]
      simp [fltStress, fltArr, Hel.astensor, hF]
    · rw [einsumOut_f64 _ (List.mem_cons_of_mem _ List.mem_cons_self)]
      simp [fltStress, fltArr, NArr.div, Hel.astensor, hF, hd rfl]
      cases d <;> rfl
    · rfl

theorem piolaElasticity_f64 (cfg : SpaceCfg) (F : F2) (G : Full2 ℝ) (hF : F.val = fun p => G p.1 p.2)
    (S : Vec6 ℝ) (detF : Option Num) (d : Option ℝ) (c : Mat6 ℝ) (invC : Option (Vec6 ℝ))
    (hf : cfg.finalize = true → invC = none → cfg.force = none ∨ F = fltArr G)
    (hd : cfg.finalize = true → cfg.area = none →
      (detF.getD (det (rightCauchyGreen F)).sqrt).val () =
        d.getD (Real.sqrt (Hel.det (Hel.rightCauchyGreen G)))) :
    piolaElasticity cfg F (.f64 S) detF (.f64 fun p => c p.1 p.2) (invC.map .f64) =
      .ok (fltElasticity (Hel.piolaElasticity cfg G S d c invC)) := by
  obtain ⟨fin, force, area⟩ := cfg
  unfold piolaElasticity Hel.piolaElasticity forceElasticity
  cases fin with
  | false => rfl
  | true =>
    simp only at hf
    replace hd := hd rfl
    cases force with
    | none =>
      simp only [if_true, astensor4, reindex_f64, bind, Except.bind]
      rw [einsumOut_f64 _ (List.mem_cons_of_mem _ (List.mem_cons_of_mem _ List.mem_cons_self))]
      simp only [iadd, f64_add, store_f64, eye, cdya_ik_f64]
      cases area with
      | some a =>
        simp [fltElasticity, Hel.astensor4, hF, Fintype.sum_prod_type, mul_assoc, Hel.eye]
      | none =>
        simp only [reindex_f64]
        rw [einsumOut_f64 _ (List.mem_cons_of_mem _ (List.mem_cons_of_mem _ List.mem_cons_self))]
        simp [fltElasticity, Hel.astensor4, hF, Fintype.sum_prod_type, mul_assoc, NArr.div,
          Hel.eye, hd rfl]
        cases d <;> rfl
    | some f =>
      cases invC with
      | none =>
        have e : F = .f64 fun p => G p.1 p.2 := by simpa [fltArr] using hf
        subst e
        simp only [if_true, astensor4, reindex_f64, bind, Except.bind, Option.map_none, rcg_f64, det_f64,
          inv_f64, iadd, f64_add, store_f64, cdya_ik_f64]
        cases area with
        | some a => simp [fltElasticity, Hel.astensor4]
        | none =>
          replace hd := hd rfl
          simp only [rcg_f64, det_f64] at hd
          simp only [reindex_f64, Option.getD_some]
          rw [einsumOut_f64 _ (List.mem_cons_of_mem _ (List.mem_cons_of_mem _ List.mem_cons_self))]
          simp [fltElasticity, Hel.astensor4, Fintype.sum_prod_type, mul_assoc, NArr.div, hd]
          cases d <;> rfl
      | some invC =>
        simp only [if_true, astensor4, reindex_f64, bind, Except.bind, Option.map_some]
        simp only [iadd, f64_add, store_f64, cdya_ik_f64]
        cases area with
        | some a => simp [fltElasticity, Hel.astensor4]
        | none =>
          simp only [reindex_f64]
          rw [einsumOut_f64 _ (List.mem_cons_of_mem _ (List.mem_cons_of_mem _ List.mem_cons_self))]
          simp [fltElasticity, Hel.astensor4, hF, Fintype.sum_prod_type, mul_assoc, NArr.div, hd rfl]
          cases d <;> rfl

/-! ### runs -/

/-- Two methods (of objects whose states are related) return corresponding results. -/
def SameRun {σ τ α β : Type} (rel : σ → τ → Prop) (f : α → β) (m : PyM σ β) (n : PyM τ α) : Prop :=
  ∀ s t, rel s t → (m s).1 = (n t).1.map f ∧ rel (m s).2 (n t).2

/-- A material with dtypes which returns floats, the numbers being those of a real-number material. -/
structure Agree {σ τ : Type} (rel : σ → τ → Prop) (mt : MaterialT Z σ) (m : Material ℝ Z τ) (C : V6)
    (V : Vec6 ℝ) : Prop where
  grad : ∀ z, SameRun rel (fun r => (NArr.f64 r.1, r.2)) (mt.gradient C z) (m.gradient V z)
  hess : ∀ z, SameRun rel (fun c => NArr.f64 fun p => c p.1 p.2) (mt.hessian C z) (m.hessian V z)

variable {σ τ : Type} {rel : σ → τ → Prop} {mt : MaterialT Z σ} {m : Material ℝ Z τ}

theorem defGradient_same (cfg : SpaceCfg) (F : F2) (G : Full2 ℝ) (hF : F.val = fun p => G p.1 p.2)
    (hm : Agree rel mt m (rightCauchyGreen F) (Hel.rightCauchyGreen G))
    (hd : cfg.finalize = true → cfg.area = none →
      (det (rightCauchyGreen F)).val () = Hel.det (Hel.rightCauchyGreen G)) (z : Z) :
    SameRun (fun s t => rel s t.material) (fun r => (fltStress r.1, r.2))
      (defGradient cfg mt F z) (Deformation.gradient cfg m G z) := by
  intro s t hr
  obtain ⟨h1, h2⟩ := hm.grad z s t.material hr
  rw [Deformation.gradient_run]
  unfold defGradient
  simp only [bind_run]
  generalize mt.gradient (rightCauchyGreen F) z s = x at *
  generalize m.gradient (Hel.rightCauchyGreen G) z t.material = y at *
  obtain ⟨x1, x2⟩ := x
  obtain ⟨y1, y2⟩ := y
  cases y1 with
  | error e =>
    simp only [Except.map] at h1
    subst h1
    exact ⟨rfl, h2⟩
  | ok a =>
    simp only [Except.map] at h1
    subst h1
    obtain ⟨g, z'⟩ := a
    simp only [lift_run, intMul_f64]
    rw [piolaStress_f64 cfg F G hF _ none none (by intro a b; simp [NArr.sqrt, hd a b])]
    refine ⟨?_, h2⟩
    simp [Except.map]

theorem defHessian_same (cfg : SpaceCfg) (F : F2) (G : Full2 ℝ) (hF : F.val = fun p => G p.1 p.2)
    (hm : Agree rel mt m (rightCauchyGreen F) (Hel.rightCauchyGreen G))
    (hf : cfg.finalize = true → cfg.force = none ∨ F = fltArr G)
    (hd : cfg.finalize = true → cfg.area = none →
      (det (rightCauchyGreen F)).val () = Hel.det (Hel.rightCauchyGreen G)) (z : Z) :
    SameRun (fun s t => rel s t.material) fltElasticity
      (defHessian cfg mt F z) (Deformation.hessian cfg m G z) := by
  intro s t hr
  obtain ⟨h1, h2⟩ := hm.grad z s t.material hr
  rw [Deformation.hessian_run]
  unfold defHessian
  simp only [bind_run]
  generalize mt.gradient (rightCauchyGreen F) z s = x at *
  generalize m.gradient (Hel.rightCauchyGreen G) z t.material = y at *
  obtain ⟨x1, x2⟩ := x
  obtain ⟨y1, y2⟩ := y
  cases y1 with
  | error e =>
    simp only [Except.map] at h1
    subst h1
    exact ⟨rfl, h2⟩
  | ok a =>
    simp only [Except.map] at h1
    subst h1
    obtain ⟨g, z'⟩ := a
    have hd' : cfg.finalize = true → cfg.area = none →
      ((none : Option Num).getD (det (rightCauchyGreen F)).sqrt).val () =
        (none : Option ℝ).getD (Real.sqrt (Hel.det (Hel.rightCauchyGreen G))) := by
      intro a b; simp [NArr.sqrt, hd a b]
    simp only [lift_run, intMul_f64]
    rw [piolaStress_f64 cfg F G hF _ none none hd']
    simp only
    obtain ⟨k1, k2⟩ := hm.hess z x2 y2 h2
    generalize mt.hessian (rightCauchyGreen F) z x2 = x at *
    generalize m.hessian (Hel.rightCauchyGreen G) z y2 = y at *
    obtain ⟨x1, x2⟩ := x
    obtain ⟨y1, y2⟩ := y
    cases y1 with
    | error e =>
      simp only [Except.map] at k1
      subst k1
      exact ⟨rfl, k2⟩
    | ok c =>
      simp only [Except.map] at k1
      subst k1
      refine ⟨?_, k2⟩
      have := piolaElasticity_f64 cfg F G hF (fun a => 2 * g a) none none (fun a b => 4 * c a b) none
        (fun a _ => hf a) hd'
      simpa [Except.map] using this

end Hel.Dt
