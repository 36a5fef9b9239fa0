import Verif.Proofs.DtypeSpace

/-! # The distortional and dilatational spaces on arrays with a dtype -/

namespace Hel.Dt
open NArr Spec.Dtype PyM

variable {Z σ τ : Type} {rel : σ → τ → Prop} {mt : MaterialT Z σ} {m : Material ℝ Z τ}

/-- what the distortional space computes from the stress-like tensor returned by the material -/
theorem distGradientFull_f64 (cfg : SpaceCfg) (G : Full2 ℝ)
    (hm : Agree rel mt m (.f64 (Distortional.cu G)) (Distortional.cu G)) (z : Z) :
    SameRun (fun s t => rel s t.material)
      (fun r => ({ C := .f64 (Hel.rightCauchyGreen G),
                   I3 := .f64 fun _ => Hel.det (Hel.rightCauchyGreen G)
                   Cu := .f64 (Distortional.cu G), Sb := .f64 (Distortional.sb G r.1)
                   SbC := .f64 fun _ => Hel.ddot (Distortional.sb G r.1) (Hel.rightCauchyGreen G)
                   invC := .f64 (Distortional.ic G), S := .f64 (Distortional.st G r.1)
                   P := fltStress (Hel.piolaStress cfg G (Distortional.st G r.1)
                     (some (Real.sqrt (Hel.det (Hel.rightCauchyGreen G)))))
                   sv := r.2 } : DistOut Z))
      (distGradientFull cfg mt (fltArr G) z)
      (Distortional.callMat (m.gradient (Distortional.cu G) z)) := by
  intro s t hr
  obtain ⟨h1, h2⟩ := hm.grad z s t.material hr
  have hcu : (bc (((.f64 fun _ => Hel.det (Hel.rightCauchyGreen G)) : Num).powFloat (-1 / 3)) * NArr.f64 (Hel.rightCauchyGreen G) : V6)
      = .f64 (Distortional.cu G) := by
    simp [NArr.powFloat]; rfl
  unfold distGradientFull Distortional.callMat
  simp only [bind_run, fltArr, rcg_f64, det_f64, hcu, sub_run]
  generalize mt.gradient (.f64 (Distortional.cu G)) z s = x at *
  generalize m.gradient (Distortional.cu G) z t.material = y at *
  obtain ⟨x1, x2⟩ := x
  obtain ⟨y1, y2⟩ := y
  cases y1 with
  | error e =>
    simp only [Except.map] at h1
    subst h1
    exact ⟨rfl, h2⟩
  | ok a =>
    simp only [Except.map] at h1
    subst h1
    obtain ⟨g, z'⟩ := a
    have hsb : (bc (intMul 2 (((.f64 fun _ => Hel.det (Hel.rightCauchyGreen G)) : Num).powFloat (-1 / 3))) * NArr.f64 g : V6)
      = .f64 (Distortional.sb G g) := by
      simp [NArr.powFloat]; rfl
    simp only [hsb, lift_run, inv_f64, ddot_f64]
    have hst : (NArr.f64 (Distortional.sb G g) - bc ((NArr.f64 fun _ : Unit => Hel.ddot (Distortional.sb G g)
        (Hel.rightCauchyGreen G)).divLit 3) * NArr.f64 (Hel.inv (Hel.rightCauchyGreen G)
          ((some (NArr.f64 fun _ : Unit => Hel.det (Hel.rightCauchyGreen G))).map fun x => x.val ())) : V6)
        = .f64 (Distortional.st G g) := by
      simp [NArr.divLit]; rfl
    simp only [val_f64, hst]
    rw [piolaStress_f64 cfg _ G rfl _ _ (some (Real.sqrt (Hel.det (Hel.rightCauchyGreen G))))
      (by intro _ _; simp [NArr.sqrt])]
    exact ⟨rfl, h2⟩

theorem distGradient_f64 (cfg : SpaceCfg) (G : Full2 ℝ)
    (hm : Agree rel mt m (.f64 (Distortional.cu G)) (Distortional.cu G)) (z : Z) :
    SameRun (fun s t => rel s t.material) (fun r => (fltStress r.1, r.2))
      (distGradient cfg mt (fltArr G) z) (Distortional.gradient cfg m G z) := by
  intro s t hr
  obtain ⟨h1, h2⟩ := distGradientFull_f64 cfg G hm z s t hr
  rw [Distortional.gradient_run]
  unfold distGradient
  simp only [bind_run]
  simp only [Distortional.callMat, sub_run] at h1 h2
  generalize distGradientFull cfg mt (fltArr G) z s = x at *
  generalize m.gradient (Distortional.cu G) z t.material = y at *
  obtain ⟨x1, x2⟩ := x
  obtain ⟨y1, y2⟩ := y
  cases y1 <;> simp only [Except.map] at h1 <;> subst h1 <;> exact ⟨rfl, h2⟩

theorem distHessian_f64 (cfg : SpaceCfg) (G : Full2 ℝ)
    (hm : Agree rel mt m (.f64 (Distortional.cu G)) (Distortional.cu G)) (z : Z) :
    SameRun (fun s t => rel s t.material) fltElasticity
      (distHessian cfg mt (fltArr G) z) (Distortional.hessian cfg m G z) := by
  intro s t hr
  obtain ⟨h1, h2⟩ := distGradientFull_f64 cfg G hm z s t hr
  rw [Distortional.hessian_run]
  unfold distHessian
  simp only [bind_run]
  simp only [Distortional.callMat, sub_run] at h1 h2
  generalize distGradientFull cfg mt (fltArr G) z s = x at *
  generalize m.gradient (Distortional.cu G) z t.material = y at *
  obtain ⟨x1, x2⟩ := x
  obtain ⟨y1, y2⟩ := y
  cases y1 with
  | error e => simp only [Except.map] at h1; subst h1; exact ⟨rfl, h2⟩
  | ok a =>
    simp only [Except.map] at h1
    subst h1
    obtain ⟨g, z'⟩ := a
    simp only at h2 ⊢
    obtain ⟨k1, k2⟩ := hm.hess z x2 y2 h2
    generalize mt.hessian (.f64 (Distortional.cu G)) z x2 = x at *
    generalize m.hessian (Distortional.cu G) z y2 = y at *
    obtain ⟨x1, x2⟩ := x
    obtain ⟨y1, y2⟩ := y
    cases y1 with
    | error e => simp only [Except.map] at k1; subst k1; exact ⟨rfl, k2⟩
    | ok c =>
      simp only [Except.map] at k1
      subst k1
      refine ⟨?_, ?_⟩
      · simp only [eye, cdya_true_f64, lift_run, dya_f64, NArr.divLit, NArr.powFloat, NArr.floatMul,
          transpose_f64, intMul_f64, f64_sub, f64_mul, f64_add, val_f64, bc, reindex_f64]
        have key : distAdd
            (.f64 fun p => 2 / 3 * (Hel.ddot (Distortional.sb G g) (Hel.rightCauchyGreen G) *
              cdyaSelf (Distortional.ic G) p.1 p.2 - Hel.dya (Distortional.sb G g) (Distortional.ic G) p.1 p.2 -
              Hel.dya (Distortional.sb G g) (Distortional.ic G) p.2 p.1 +
              Hel.ddot (Distortional.sb G g) (Hel.rightCauchyGreen G) / ((3 : ℤ) : ℝ) *
                Hel.dya (Distortional.ic G) (Distortional.ic G) p.1 p.2))
            (.f64 fun p => ((4 : ℤ) : ℝ) * Hel.det (Hel.rightCauchyGreen G) ^ (-2 / 3 : ℝ) * c p.1 p.2)
            (.f64 fun p => cdyaSelf ![1, 1, 1, 0, 0, 0] p.1 p.2 -
              Hel.dya (Distortional.ic G) (Hel.rightCauchyGreen G) p.1 p.2 / ((3 : ℤ) : ℝ)) =
            .ok (.f64 fun p => Distortional.c4 G g c p.1 p.2) := by
          unfold distAdd Distortional.c4 Distortional.allclose0
          simp only [val_f64, Prod.forall, Int.cast_ofNat]
          split_ifs with h
          · rfl
          · simp only [iadd, f64_add, store_f64, ddot44_f64, transpose_f64, val_f64]
            congr 1
        rw [key]
        simp only
        have := piolaElasticity_f64 cfg (fltArr G) G rfl (Distortional.st G g)
          (some ((NArr.f64 fun _ => Hel.det (Hel.rightCauchyGreen G)) : Num).sqrt)
          (some (Real.sqrt (Hel.det (Hel.rightCauchyGreen G)))) (Distortional.c4 G g c)
          (some (Distortional.ic G)) (by simp) (by intro _ _; simp [NArr.sqrt])
        simpa [Except.map] using this
      · simp only [eye, cdya_true_f64, lift_run]
        split <;> rename_i heq <;> rw [← (Prod.mk.inj heq).2] <;> exact k2

/-! ### the dilatational space -/

theorem dilGradientFull_f64 (cfg : SpaceCfg) (G : Full2 ℝ)
    (hm : Agree rel mt m (.f64 (Dilatational.co G)) (Dilatational.co G)) (z : Z) :
    SameRun (fun s t => rel s t.material)
      (fun r => ({ C := .f64 (Hel.rightCauchyGreen G),
                   I3 := .f64 fun _ => Hel.det (Hel.rightCauchyGreen G)
                   Co := .f64 (Dilatational.co G)
                   tr_Sb := .f64 fun _ => Hel.trace (Dilatational.sb G r.1)
                   invC := .f64 (Dilatational.ic G), S := .f64 (Dilatational.st G r.1)
                   P := fltStress (Hel.piolaStress cfg G (Dilatational.st G r.1)
                     (some (Real.sqrt (Hel.det (Hel.rightCauchyGreen G)))))
                   sv := r.2 } : DilOut Z))
      (dilGradientFull cfg mt (fltArr G) z)
      (Dilatational.callMat (m.gradient (Dilatational.co G) z)) := by
  intro s t hr
  obtain ⟨h1, h2⟩ := hm.grad z s t.material hr
  have hco : (bc (((.f64 fun _ => Hel.det (Hel.rightCauchyGreen G)) : Num).powFloat (1 / 3)) * NArr.f64 (Hel.rightCauchyGreen G) : V6)
      = .f64 (Dilatational.co G) := by
    simp only [NArr.powFloat, bc_f64, f64_mul]; rfl
  unfold dilGradientFull Dilatational.callMat
  simp only [bind_run, fltArr, rcg_f64, det_f64, hco, sub_run]
  generalize mt.gradient (.f64 (Dilatational.co G)) z s = x at *
  generalize m.gradient (Dilatational.co G) z t.material = y at *
  obtain ⟨x1, x2⟩ := x
  obtain ⟨y1, y2⟩ := y
  cases y1 with
  | error e =>
    simp only [Except.map] at h1
    subst h1
    exact ⟨rfl, h2⟩
  | ok a =>
    simp only [Except.map] at h1
    subst h1
    obtain ⟨g, z'⟩ := a
    have hsb : (bc (intMul 2 (((.f64 fun _ => Hel.det (Hel.rightCauchyGreen G)) : Num).powFloat (1 / 3))) * NArr.f64 g : V6)
      = .f64 (Dilatational.sb G g) := by
      simp only [NArr.powFloat, intMul_f64, bc_f64, f64_mul, Int.cast_ofNat]; rfl
    simp only [hsb, lift_run, inv_f64, trace_f64]
    have hst : (bc ((NArr.f64 fun _ : Unit => Hel.trace (Dilatational.sb G g)).divLit 3) *
        NArr.f64 (Hel.inv (Hel.rightCauchyGreen G)
          ((some (NArr.f64 fun _ : Unit => Hel.det (Hel.rightCauchyGreen G))).map fun x => x.val ())) : V6)
        = .f64 (Dilatational.st G g) := by
      simp only [NArr.divLit, bc_f64, f64_mul, val_f64, Int.cast_ofNat]; rfl
    simp only [hst]
    rw [piolaStress_f64 cfg _ G rfl _ _ (some (Real.sqrt (Hel.det (Hel.rightCauchyGreen G))))
      (by intro _ _; simp [NArr.sqrt])]
    exact ⟨rfl, h2⟩

theorem dilGradient_f64 (cfg : SpaceCfg) (G : Full2 ℝ)
    (hm : Agree rel mt m (.f64 (Dilatational.co G)) (Dilatational.co G)) (z : Z) :
    SameRun (fun s t => rel s t.material) (fun r => (fltStress r.1, r.2))
      (dilGradient cfg mt (fltArr G) z) (Dilatational.gradient cfg m G z) := by
  intro s t hr
  obtain ⟨h1, h2⟩ := dilGradientFull_f64 cfg G hm z s t hr
  rw [Dilatational.gradient_run]
  unfold dilGradient
  simp only [bind_run]
  simp only [Dilatational.callMat, sub_run] at h1 h2
  generalize dilGradientFull cfg mt (fltArr G) z s = x at *
  generalize m.gradient (Dilatational.co G) z t.material = y at *
  obtain ⟨x1, x2⟩ := x
  obtain ⟨y1, y2⟩ := y
  cases y1 <;> simp only [Except.map] at h1 <;> subst h1 <;> exact ⟨rfl, h2⟩

theorem dilHessian_f64 (cfg : SpaceCfg) (G : Full2 ℝ)
    (hm : Agree rel mt m (.f64 (Dilatational.co G)) (Dilatational.co G)) (z : Z) :
    SameRun (fun s t => rel s t.material) fltElasticity
      (dilHessian cfg mt (fltArr G) z) (Dilatational.hessian cfg m G z) := by
  intro s t hr
  obtain ⟨h1, h2⟩ := dilGradientFull_f64 cfg G hm z s t hr
  rw [Dilatational.hessian_run]
  unfold dilHessian
  simp only [bind_run]
  simp only [Dilatational.callMat, sub_run] at h1 h2
  generalize dilGradientFull cfg mt (fltArr G) z s = x at *
  generalize m.gradient (Dilatational.co G) z t.material = y at *
  obtain ⟨x1, x2⟩ := x
  obtain ⟨y1, y2⟩ := y
  cases y1 with
  | error e => simp only [Except.map] at h1; subst h1; exact ⟨rfl, h2⟩
  | ok a =>
    simp only [Except.map] at h1
    subst h1
    obtain ⟨g, z'⟩ := a
    simp only at h2 ⊢
    obtain ⟨k1, k2⟩ := hm.hess z x2 y2 h2
    generalize mt.hessian (.f64 (Dilatational.co G)) z x2 = x at *
    generalize m.hessian (Dilatational.co G) z y2 = y at *
    obtain ⟨x1, x2⟩ := x
    obtain ⟨y1, y2⟩ := y
    cases y1 with
    | error e => simp only [Except.map] at k1; subst k1; exact ⟨rfl, k2⟩
    | ok c =>
      simp only [Except.map] at k1
      subst k1
      refine ⟨?_, ?_⟩
      · have key : (bc (intMul 2 (NArr.f64 fun _ : Unit => Hel.trace (Dilatational.sb G g)) +
              ddot (ddot24 eye (bc (intMul 4 (((.f64 fun _ => Hel.det (Hel.rightCauchyGreen G)) : Num).powFloat
                (2 / 3))) * NArr.f64 fun p : Fin 6 × Fin 6 => c p.1 p.2)) eye) *
              dya (.f64 (Dilatational.ic G)) (.f64 (Dilatational.ic G)) : M6).divLit 9 -
            bc (floatMul (2 / 3) (NArr.f64 fun _ : Unit => Hel.trace (Dilatational.sb G g))) *
              (NArr.f64 fun p : Fin 6 × Fin 6 => cdyaSelf (Dilatational.ic G) p.1 p.2) =
            .f64 fun p => Dilatational.c4 G g c p.1 p.2 := by
          unfold eye
          rw [ddot24_f64, ddot_f64]
          simp only [NArr.powFloat, intMul_f64, bc_f64, f64_mul, f64_add, dya_f64, NArr.divLit, val_f64,
            NArr.floatMul, f64_sub, Int.cast_ofNat]
          rfl
        simp only [cdya_true_f64, lift_run]
        rw [key]
        have := piolaElasticity_f64 cfg (fltArr G) G rfl (Dilatational.st G g)
          (some ((NArr.f64 fun _ => Hel.det (Hel.rightCauchyGreen G)) : Num).sqrt)
          (some (Real.sqrt (Hel.det (Hel.rightCauchyGreen G)))) (Dilatational.c4 G g c)
          (some (Dilatational.ic G)) (by simp) (by intro _ _; simp [NArr.sqrt])
        simpa [Except.map] using this
      · simp only [cdya_true_f64, lift_run]
        exact k2

/-! ### integers -/

theorem distGradientFull_int (cfg : SpaceCfg) (mt : MaterialT Z σ) (w : IntTy) (F : Fin 3 → Fin 3 → ℤ)
    (z : Z) (s : σ) :
    ∃ e s', distGradientFull cfg mt (intArr w F) z s = (.error e, s') ∧
      (e = .typeError ∨ ∃ D s', mt.gradient D z s = (.error e, s')) := by
  unfold distGradientFull
  simp only [bind_run, intArr, rcg_int]
  split
  · exact ⟨_, _, rfl, .inl (by rename_i a _ _; simp [inv_int])⟩
  · rename_i h
    exact ⟨_, _, rfl, .inr ⟨_, _, h⟩⟩

theorem dilGradientFull_int (cfg : SpaceCfg) (mt : MaterialT Z σ) (w : IntTy) (F : Fin 3 → Fin 3 → ℤ)
    (z : Z) (s : σ) :
    ∃ e s', dilGradientFull cfg mt (intArr w F) z s = (.error e, s') ∧
      (e = .typeError ∨ ∃ D s', mt.gradient D z s = (.error e, s')) := by
  unfold dilGradientFull
  simp only [bind_run, intArr, rcg_int]
  split
  · exact ⟨_, _, rfl, .inl (by rename_i a _ _; simp [inv_int])⟩
  · rename_i h
    exact ⟨_, _, rfl, .inr ⟨_, _, h⟩⟩

end Hel.Dt
