import Verif.Proofs.Memory
import Verif.Proofs.BatchRun

/-! The spaces on the memory. -/

namespace Hel.Memory

noncomputable section

variable {T : Type} [Encodable T] {m : Mem}

/-- Result of a statement: a fresh array with content `v`, and the arrays of `b` are unchanged. -/
def Fresh {α : Type} [Content α] (b : Mem) (v : α) (A : Nd α) (m : Mem) : Prop :=
  Ext b m ∧ b.next ≤ A.loc ∧ A.Inj ∧ Holds m A v

theorem makes_iff {α : Type} [Content α] {p : MemM (Nd α)} {v : α} : Makes p m v ↔ wp p m (Fresh m v) := Iff.rfl

variable {b : Mem}

theorem detFOf_spec {F : Nd (Full2 (Arr T))} {f : Full2 (Arr T)} {D : Option (Nd (Arr T))} {d : Option (Arr T)}
    (hF : Holds m F f) (hD : HoldsO m D d) :
    Makes (detFOf F D) m (Arr.sqrt (d.getD (Hel.det (Batch.rightCauchyGreen f)))) := by
  have h : Makes (do det (← rightCauchyGreen F)) m (Hel.det (Batch.rightCauchyGreen f)) := by
    refine (makes_rightCauchyGreen hF).bind fun C n1 g1 _ _ k1 => ?_
    refine wp_mono (makes_det k1) fun I n2 ⟨g2, _, _, k2⟩ => ?_
    carry g2
    exact ⟨g1, by omega, by assumption, k2⟩
  refine wp_bind (wp_mono (wp_given hD h) fun B m2 ⟨e2, lB, hB⟩ => ?_)
  have := e2.next
  refine wp_rd_bind hB (wp_mono (makes_new _ _) fun R n3 ⟨g3, _, iR, kR⟩ => ?_)
  carry g3
  exact ⟨e2, by omega, iR, kR⟩

theorem piolaForce_spec (cfg : SpaceCfg) (bc : Bool) {F X : Nd (Full2 (Arr T))} {f x : Full2 (Arr T)}
    (hF : Holds b F f) (hX : Fresh b x X m) :
    wp (piolaForce cfg bc F X) m (Fresh b (match cfg.force with
      | none => fun i J => ∑ I, f i I * x I J
      | some _ => x)) := by
  obtain ⟨e0, lX, iX, hX⟩ := hX
  have hF' := hF.ext e0
  have lF := hF.loc
  unfold piolaForce
  rcases cfg with ⟨fin, force, area⟩
  cases force with
  | some _ => exact wp_pure ⟨e0, lX, iX, hX⟩
  | none =>
    have main : ∀ (Y : Nd (Full2 (Arr T))) m', Ext b m' → b.next ≤ Y.loc → Y.Inj → Holds m' Y x → Holds m' F f →
        wp (do
          let f ← rd F
          let s ← rd Y
          put Y fun i J => ∑ I, f i I * s I J
          pure Y) m' (Fresh b fun i J => ∑ I, f i I * x I J) := by
      intro Y m' e lY iY hY hF'
      refine wp_rd_bind hF' (wp_rd_bind hY (wp_put_bind hY.loc iY fun m3 w3 k => ?_))
      carryW w3
      exact wp_pure ⟨e, lY, iY, k⟩
    cases bc with
    | false => exact main X m e0 lX iX hX hF'
    | true =>
      refine (makes_copy hX).bind fun Y m1 e1 l1 i1 h1 => ?_
      carry e1
      exact main Y m1 e0 (by omega) i1 h1 hF'

theorem piolaArea_spec (cfg : SpaceCfg) {F X : Nd (Full2 (Arr T))} {f x : Full2 (Arr T)} {D : Option (Nd (Arr T))}
    {d : Option (Arr T)} (hF : Holds b F f) (hD : HoldsO b D d) (hX : Fresh b x X m) :
    wp (piolaArea cfg F D X) m (Fresh b (match cfg.area with
      | none => fun i j => (∑ J, f j J * x i J) / d.getD (Arr.sqrt (Hel.det (Batch.rightCauchyGreen f)))
      | some _ => x)) := by
  obtain ⟨e0, lX, iX, hX⟩ := hX
  have hF' := hF.ext e0
  have lF := hF.loc
  have hl := fun B => hD.loc (B := B)
  unfold piolaArea
  rcases cfg with ⟨fin, force, area⟩
  cases area with
  | some _ => exact wp_pure ⟨e0, lX, iX, hX⟩
  | none =>
    refine wp_bind (wp_mono (wp_given (hD.ext e0) (detFOf_spec (d := none) hF' trivial)) fun B m2 ⟨e2, lB, hB⟩ => ?_)
    have hBX : B.loc ≠ X.loc := by
      have := hX.loc
      rcases lB with h | h
      · have := hl _ h
        omega
      · omega
    carry e2
    refine wp_rd_bind hF' (wp_rd_bind hX (wp_put_bind hX.loc iX fun m3 w3 k => ?_))
    carryW w3
    refine wp_rd_bind k (wp_rd_bind hB (wp_mono (makes_new _ _) fun R m4 ⟨e4, l4, i4, h4⟩ => ?_))
    carry e4
    exact ⟨e0, by omega, i4, h4⟩

theorem piolaStress_spec (cfg : SpaceCfg) (bc : Bool) {F : Nd (Full2 (Arr T))} {f : Full2 (Arr T)} {S : V T}
    {s : Vec6 (Arr T)} {D : Option (Nd (Arr T))} {d : Option (Arr T)} (hF : Holds m F f) (hS : Holds m S s)
    (hD : HoldsO m D d) :
    wp (piolaStress cfg bc F S D) m fun R m' => Ext m m' ∧ (R = .voigt S ∨ m.next ≤ R.loc) ∧
      R.Is m' (Batch.piolaStress cfg f s d) := by
  unfold piolaStress Batch.piolaStress
  by_cases h : cfg.finalize = true
  · rw [if_pos h, if_pos h]
    refine wp_bind (wp_mono (makes_astensor hS) fun X m1 h1 => ?_)
    refine wp_bind (wp_mono (piolaForce_spec cfg bc hF h1) fun Y m2 h2 => ?_)
    refine wp_bind (wp_mono (piolaArea_spec cfg hF hD h2) fun R m3 h3 => ?_)
    refine wp_pure ⟨h3.1, Or.inr h3.2.1, ?_⟩
    replace h3 := h3.2.2.2
    rcases cfg with ⟨fin, force, area⟩
    cases force <;> cases area <;> cases d <;> exact h3
  · rw [if_neg h, if_neg h]
    exact wp_pure ⟨Ext.refl m, Or.inl rfl, hS⟩

theorem geometric_spec {A S : V T} {a s : Vec6 (Arr T)} {X : Nd (Full4 (Arr T))} {x : Full4 (Arr T)}
    (hA : Holds m A a) (hS : Holds m S s) (hX : Fresh b x X m) :
    wp (geometric A S X) m fun _ m' => Fresh b (fun i J k L => x i J k L + Hel.cdya_ik a s i J k L) X m' ∧
      (∀ l < m.next, l ≠ X.loc → m'.cell l = m.cell l) ∧ m.next ≤ m'.next := by
  obtain ⟨e0, lX, iX, hX⟩ := hX
  refine (makes_cdya_ik hA hS).bind fun G m1 e1 l1 i1 h1 => ?_
  have e := e1
  carry e1
  refine wp_rd_bind h1 (wp_rd_bind hX (wp_put hX.loc iX fun m2 w2 k => ?_))
  have hw := w2.next
  have hb := w2.ext e0 lX
  have he := e.next
  exact ⟨⟨hb, lX, iX, k⟩, fun l hl hne => (w2.cell l hne).trans (e.cell l hl), by omega⟩

theorem invCOf_spec {F : Nd (Full2 (Arr T))} {f : Full2 (Arr T)} {C : Option (V T)} {c : Option (Vec6 (Arr T))}
    (hF : Holds m F f) (hC : HoldsO m C c) :
    wp (invCOf F C) m fun R m' => Ext m m' ∧
      Holds m' R.1 (c.getD (Hel.inv (Batch.rightCauchyGreen f) (some (Hel.det (Batch.rightCauchyGreen f))))) ∧
      HoldsO m' R.2 (match c with
        | none => some (Hel.det (Batch.rightCauchyGreen f))
        | some _ => none) ∧ ∀ B, R.2 = some B → m.next ≤ B.loc := by
  unfold invCOf
  rcases C with _ | C <;> rcases c with _ | c <;> try exact hC.elim
  · refine (makes_rightCauchyGreen hF).bind fun C n1 g1 _ _ k1 => ?_
    refine (makes_det k1).bind fun I n2 g2 _ _ k2 => ?_
    carry g2
    refine (makes_inv k1 (D := some I) (d := some _) k2).bind fun R n3 g3 _ _ k3 => ?_
    carry g3
    exact wp_pure ⟨g1, k3, k2, fun B hB => by cases hB; omega⟩
  · exact wp_pure ⟨Ext.refl m, hC, trivial, fun B hB => by cases hB⟩

theorem piolaForce4_spec (cfg : SpaceCfg) (bc : Bool) {F : Nd (Full2 (Arr T))} {f : Full2 (Arr T)} {S : V T}
    {s : Vec6 (Arr T)} {C : Option (V T)} {c : Option (Vec6 (Arr T))} {X : Nd (Full4 (Arr T))} {x : Full4 (Arr T)}
    (hF : Holds b F f) (hS : Holds b S s) (hC : HoldsO b C c) (hX : Fresh b x X m) :
    wp (piolaForce4 cfg bc F S C X) m fun R m' => Fresh b (match cfg.force with
      | none => fun i J k L => (∑ I, ∑ K, f i I * f k K * x I J K L) + Hel.cdya_ik Hel.eye s i J k L
      | some _ => fun i J k L => x i J k L + Hel.cdya_ik (c.getD (Hel.inv (Batch.rightCauchyGreen f)
          (some (Hel.det (Batch.rightCauchyGreen f))))) s i J k L) R.1 m' ∧
      HoldsO m' R.2 (match cfg.force, c with
        | some _, none => some (Hel.det (Batch.rightCauchyGreen f))
        | _, _ => none) ∧ ∀ B, R.2 = some B → B.loc ≠ R.1.loc := by
  obtain ⟨e0, lX, iX, hX⟩ := hX
  unfold piolaForce4
  rcases cfg with ⟨fin, force, area⟩
  have lF := hF.loc
  have lS := hS.loc
  cases force with
  | some _ =>
    refine wp_bind (wp_mono (invCOf_spec (hF.ext e0) (hC.ext e0)) fun R m1 ⟨e1, h1, h2, h3⟩ => ?_)
    carry e1
    refine wp_bind (wp_mono (geometric_spec h1 (hS.ext e0) ⟨e0, lX, iX, hX⟩) fun _ m2 ⟨k1, k2, k3⟩ => ?_)
    refine wp_pure ⟨k1, ?_, fun B hB => ?_⟩
    · have : ∀ v, HoldsO m1 R.2 v → HoldsO m2 R.2 v := by
        intro v hv
        rcases hR : R.2 with _ | D <;> rw [hR] at hv <;> rcases v with _ | d <;> try exact hv
        have hloc : D.loc < m1.next := hv.loc rfl
        have := h3 D hR
        refine ⟨by omega, ?_⟩
        rw [← show m1.read D = d from hv.read]
        unfold Mem.read
        rw [k2 D.loc hloc (by omega)]
      rcases c with _ | c <;> exact this _ h2
    · have := h3 B hB
      show B.loc ≠ X.loc
      omega
  | none =>
    have main : ∀ (Y : Nd (Full4 (Arr T))) m', Ext b m' → b.next ≤ Y.loc → Y.Inj → Holds m' Y x →
        wp (do
          let f ← rd F
          let e ← rd Y
          put Y fun i J k L => ∑ I, ∑ K, f i I * f k K * e I J K L
          let I ← eye
          geometric I S Y
          pure (Y, (none : Option (Nd (Arr T))))) m' fun R m' =>
            Fresh b (fun i J k L => (∑ I, ∑ K, f i I * f k K * x I J K L) + Hel.cdya_ik Hel.eye s i J k L) R.1 m' ∧
            HoldsO m' R.2 none ∧ ∀ B, R.2 = some B → B.loc ≠ R.1.loc := by
      intro Y m' e lY iY hY
      refine wp_rd_bind (hF.ext e) (wp_rd_bind hY (wp_put_bind hY.loc iY fun m3 w3 k => ?_))
      carryW w3
      refine makes_eye.bind fun I m4 e4 l4 i4 h4 => ?_
      carry e4
      refine wp_bind (wp_mono (geometric_spec h4 (hS.ext e) ⟨e, lY, iY, k⟩) fun _ m2 ⟨k1, k2, k3⟩ => ?_)
      exact wp_pure ⟨k1, trivial, fun B hB => by cases hB⟩
    cases bc with
    | false => exact main X m e0 lX iX hX
    | true =>
      refine (makes_copy hX).bind fun Y m1 e1 l1 i1 h1 => ?_
      carry e1
      exact main Y m1 e0 (by omega) i1 h1

theorem piolaArea4_spec (cfg : SpaceCfg) {F : Nd (Full2 (Arr T))} {f : Full2 (Arr T)} {D I : Option (Nd (Arr T))}
    {d i3 : Option (Arr T)} {X : Nd (Full4 (Arr T))} {x : Full4 (Arr T)} (hF : Holds b F f) (hD : HoldsO b D d)
    (hI : HoldsO m I i3) (hne : ∀ B, I = some B → B.loc ≠ X.loc) (hX : Fresh b x X m) :
    wp (piolaArea4 cfg F D I X) m (Fresh b (match cfg.area with
      | none => fun i j k l => (∑ J, ∑ L, f j J * f l L * x i J k L) /
          d.getD (Arr.sqrt (i3.getD (Hel.det (Batch.rightCauchyGreen f))))
      | some _ => x)) := by
  obtain ⟨e0, lX, iX, hX⟩ := hX
  have hF' := hF.ext e0
  have lF := hF.loc
  have hl := fun B => hD.loc (B := B)
  unfold piolaArea4
  rcases cfg with ⟨fin, force, area⟩
  cases area with
  | some _ => exact wp_pure ⟨e0, lX, iX, hX⟩
  | none =>
    refine wp_bind (wp_mono (wp_given (hD.ext e0) (detFOf_spec hF' hI)) fun B m2 ⟨e2, lB, hB⟩ => ?_)
    have hBX : B.loc ≠ X.loc := by
      have := hX.loc
      rcases lB with h | h
      · have := hl _ h
        omega
      · omega
    carry e2
    refine wp_rd_bind hF' (wp_rd_bind hX (wp_put_bind hX.loc iX fun m3 w3 k => ?_))
    carryW w3
    refine wp_rd_bind k (wp_rd_bind hB (wp_mono (makes_new _ _) fun R m4 ⟨e4, l4, i4, h4⟩ => ?_))
    carry e4
    exact ⟨e0, by omega, i4, h4⟩

theorem piolaElasticity_spec (cfg : SpaceCfg) (bc : Bool) {F : Nd (Full2 (Arr T))} {f : Full2 (Arr T)} {S : V T}
    {s : Vec6 (Arr T)} {D : Option (Nd (Arr T))} {d : Option (Arr T)} {C4 : M T} {c4 : Mat6 (Arr T)}
    {C : Option (V T)} {c : Option (Vec6 (Arr T))} (hF : Holds m F f) (hS : Holds m S s)
    (hD : HoldsO m D d) (hC4 : Holds m C4 c4) (hC : HoldsO m C c) :
    wp (piolaElasticity cfg bc F S D C4 C) m fun R m' => Ext m m' ∧ (R = .voigt C4 ∨ m.next ≤ R.loc) ∧
      R.Is m' (Batch.piolaElasticity cfg f s d c4 c) := by
  unfold piolaElasticity Batch.piolaElasticity
  by_cases h : cfg.finalize = true
  · rw [if_pos h, if_pos h]
    refine wp_bind (wp_mono (makes_astensor4 hC4) fun X m1 h1 => ?_)
    refine wp_bind (wp_mono (piolaForce4_spec cfg bc hF hS hC h1) fun Y m2 ⟨h2, h2', h2''⟩ => ?_)
    refine wp_bind (wp_mono (piolaArea4_spec cfg hF hD h2' h2'' h2) fun R m3 h3 => ?_)
    refine wp_pure ⟨h3.1, Or.inr h3.2.1, ?_⟩
    replace h3 := h3.2.2.2
    rcases cfg with ⟨fin, force, area⟩
    cases force <;> cases area <;> cases d <;> cases c <;> exact h3
  · rw [if_neg h, if_neg h]
    exact wp_pure ⟨Ext.refl m, Or.inl rfl, hC4⟩

/-! ### methods -/

variable {σ μ ν Z Zv τ τ' : Type}

/-- What holds after a method call. -/
def wpP (p : PyM (Mem × σ) τ) (m : Mem) (s : σ) (Q : Res τ → Mem → σ → Prop) : Prop :=
  Q (p (m, s)).1 (p (m, s)).2.1 (p (m, s)).2.2

theorem wpP_mono {p : PyM (Mem × σ) τ} {m : Mem} {s : σ} {Q Q' : Res τ → Mem → σ → Prop} (h : wpP p m s Q)
    (hQ : ∀ r m' s', Q r m' s' → Q' r m' s') : wpP p m s Q' := hQ _ _ _ h

theorem wpP_pure {a : τ} {m : Mem} {s : σ} {Q : Res τ → Mem → σ → Prop} (h : Q (.ok a) m s) : wpP (pure a) m s Q := h

theorem wpP_mem {p : MemM τ} {m : Mem} {s : σ} {Q : Res τ → Mem → σ → Prop}
    (h : wp p m fun a m' => Q (.ok a) m' s) : wpP (mem p) m s Q := h

theorem wpP_mem_bind {p : MemM τ} {f : τ → PyM (Mem × σ) τ'} {m : Mem} {s : σ} {Q : Res τ' → Mem → σ → Prop}
    (h : wp p m fun a m' => wpP (f a) m' s Q) : wpP (mem p >>= f) m s Q := h

/-- `x = <new array>` in a method. -/
theorem wpP_makes {α : Type} [Content α] {p : MemM (Nd α)} {v : α} {f : Nd α → PyM (Mem × σ) τ'} {m : Mem} {s : σ}
    {Q : Res τ' → Mem → σ → Prop} (hp : Makes p m v)
    (h : ∀ A m', Ext m m' → m.next ≤ A.loc → A.Inj → Holds m' A v → wpP (f A) m' s Q) : wpP (mem p >>= f) m s Q :=
  wpP_mem_bind (wp_mono hp fun A m' hA => h A m' hA.1 hA.2.1 hA.2.2.1 hA.2.2.2)

theorem wpP_set_bind {g : σ → σ} {f : Unit → PyM (Mem × σ) τ'} {m : Mem} {s : σ} {Q : Res τ' → Mem → σ → Prop}
    (h : wpP (f ()) m (g s) Q) : wpP (set' g >>= f) m s Q := h

theorem wpP_at_bind {g : σ → Option τ} {a : τ} {f : τ → PyM (Mem × σ) τ'} {m : Mem} {s : σ}
    {Q : Res τ' → Mem → σ → Prop} (hg : g s = some a) (h : wpP (f a) m s Q) : wpP (at' g >>= f) m s Q := by
  unfold wpP at' at *
  rw [PyM.bind_run, PyM.attr_run]
  simpa [hg] using h

theorem wpP_bind {p : PyM (Mem × σ) τ} {f : τ → PyM (Mem × σ) τ'} {m : Mem} {s : σ} {Q : Res τ' → Mem → σ → Prop}
    (h : wpP p m s fun r m' s' => match r with
      | .ok a => wpP (f a) m' s' Q
      | .error e => Q (.error e) m' s') : wpP (p >>= f) m s Q := by
  unfold wpP at *
  rw [PyM.bind_run]
  rcases hp : p (m, s) with ⟨_ | a, m', s'⟩ <;> rw [hp] at h <;> exact h

theorem wpP_call {p : PyM (Mem × μ) τ} {get : σ → μ} {put : μ → σ → σ} {m : Mem} {s : σ} {Q : Res τ → Mem → σ → Prop}
    (h : wpP p m (get s) fun r m' u => Q r m' (put u s)) : wpP (call get put p) m s Q := h

theorem Mat.Implements.grad {sv : SV Z Zv} {M : Mat T Z μ} {mat : Material (Arr T) Zv ν} (h : M.Implements sv mat)
    {m : Mem} {s : μ} (t : ν) {C : V T} {c : Vec6 (Arr T)} {z : Z} {zv : Zv} (hC : Holds m C c) (hz : sv.Is m z zv) :
    wpP (M.gradient C z) m s fun r m' _ => Ext m m' ∧
      Agree (fun a v => Holds m' a.1 v.1 ∧ sv.Is m' a.2 v.2) r (mat.gradient c zv t).1 :=
  h.gradient m s t C c z zv hC hz

theorem Mat.Implements.hess {sv : SV Z Zv} {M : Mat T Z μ} {mat : Material (Arr T) Zv ν} (h : M.Implements sv mat)
    {m : Mem} {s : μ} (t : ν) {C : V T} {c : Vec6 (Arr T)} {z : Z} {zv : Zv} (hC : Holds m C c) (hz : sv.Is m z zv) :
    wpP (M.hessian C z) m s fun r m' _ => Ext m m' ∧
      Agree (fun a v => Holds m' a v) r (mat.hessian c zv t).1 :=
  h.hessian m s t C c z zv hC hz

theorem Agree.ok {α β : Type} {R : α → β → Prop} {r : Res α} {b : β} (h : Agree R r (.ok b)) : ∃ a, r = .ok a ∧ R a b := by
  rcases r with e | a
  · exact h.elim
  · exact ⟨a, rfl, h⟩

theorem Agree.error {α β : Type} {R : α → β → Prop} {r : Res α} {e : PyErr} (h : Agree R r (.error e)) :
    r = .error e := by
  rcases r with e' | a
  · exact congrArg _ h
  · exact h.elim

namespace Deformation

theorem gradient_spec {sv : SV Z Zv} {M : Mat T Z μ} {mat : Material (Arr T) Zv ν} (hM : M.Implements sv mat)
    (cfg : SpaceCfg) (bc : Bool) {m : Mem} {s : DefSt T μ} (t : ν) {F : Nd (Full2 (Arr T))} {f : Full2 (Arr T)} {z : Z}
    {zv : Zv} (hF : Holds m F f) (hz : sv.Is m z zv) :
    wpP (gradient cfg bc M F z) m s fun r m' s' => Ext m m' ∧
      match (mat.gradient (Batch.rightCauchyGreen f) zv t).1 with
      | .error e => r = .error e
      | .ok (g, zv') => ∃ R z' C S, r = .ok (R, z') ∧ m.next ≤ R.loc ∧
          R.Is m' (Batch.piolaStress cfg f (fun a => 2 * g a) none) ∧ sv.Is m' z' zv' ∧ s'.C = some C ∧ s'.S = some S ∧
          m.next ≤ S.loc ∧ Holds m' C (Batch.rightCauchyGreen f) ∧ Holds m' S (fun a => 2 * g a) := by
  unfold gradient callMat
  have e0 := Ext.refl m
  refine wpP_makes (makes_rightCauchyGreen hF) fun C m1 e1 l1 i1 h1 => wpP_set_bind ?_
  replace hz := sv.ext e1 hz
  replace e0 := e1
  carry e1
  refine wpP_at_bind rfl (wpP_bind (wpP_call (wpP_mono (hM.grad t h1 hz) fun r m2 u ⟨e2, hr⟩ => ?_)))
  rcases hg : (mat.gradient (Batch.rightCauchyGreen f) zv t).1 with e | ⟨g, zv'⟩ <;> rw [hg] at hr
  · rw [hr.error]
    exact ⟨e0.trans e2, rfl⟩
  · obtain ⟨⟨A, z'⟩, rfl, hA, hz'⟩ := hr.ok
    clear hr
    carry e2
    have hS : Makes (do
        let g ← rd A
        new (fun a => 2 * g a : Vec6 (Arr T))) m2 fun a => 2 * g a := wp_rd_bind hA (makes_new _ _)
    refine wpP_makes hS fun S m3 e3 l3 i3 h3 => wpP_set_bind (wpP_at_bind rfl ?_)
    replace hz' := sv.ext e3 hz'
    have := e3.next
    carry e3
    refine wpP_mem_bind (wp_mono (piolaStress_spec cfg bc hF h3 (D := none) (d := none) trivial) ?_)
    rintro R m4 ⟨e4, l4, k⟩
    replace hz' := sv.ext e4 hz'
    carry e4
    refine wpP_pure ⟨e0, R, z', C, S, rfl, ?_, k, hz', rfl, rfl, by omega, h1, h3⟩
    rcases l4 with rfl | l4
    · show m.next ≤ S.loc
      omega
    · omega

theorem hessian_spec {sv : SV Z Zv} {M : Mat T Z μ} {mat : Material (Arr T) Zv ν} (hM : M.Implements sv mat)
    (cfg : SpaceCfg) (bc bc4 : Bool) {m : Mem} {s : DefSt T μ} (t : ν) {F : Nd (Full2 (Arr T))} {f : Full2 (Arr T)}
    {z : Z} {zv : Zv} (hF : Holds m F f) (hz : sv.Is m z zv) :
    wpP (hessian cfg bc bc4 M F z) m s fun r m' _ => Ext m m' ∧
      match mat.gradient (Batch.rightCauchyGreen f) zv t with
      | (.error e, _) => r = .error e
      | (.ok (g, _), t') => match (mat.hessian (Batch.rightCauchyGreen f) zv t').1 with
        | .error e => r = .error e
        | .ok h => ∃ R, r = .ok R ∧ m.next ≤ R.loc ∧
          R.Is m' (Batch.piolaElasticity cfg f (fun a => 2 * g a) none (fun a b => 4 * h a b) none) := by
  unfold hessian callMat
  refine wpP_bind (wpP_mono (gradient_spec hM cfg bc t hF hz) ?_)
  rintro r m1 s1 ⟨e1, hr⟩
  rcases hg : mat.gradient (Batch.rightCauchyGreen f) zv t with ⟨e | ⟨g, zv'⟩, t'⟩ <;> rw [hg] at hr
  · subst hr
    exact ⟨e1, rfl⟩
  obtain ⟨R, z', C, S, rfl, -, -, -, hsC, hsS, lS, hC, hS⟩ := hr
  have e0 := e1
  replace hz := sv.ext e1 hz
  have hz1 := hz
  carry e1
  clear e1
  refine wpP_at_bind hsC (wpP_bind (wpP_call (wpP_mono (hM.hess t' hC hz) fun r m2 u ⟨e2, hr⟩ => ?_)))
  dsimp only
  rcases hh : (mat.hessian (Batch.rightCauchyGreen f) zv t').1 with e | h <;> rw [hh] at hr
  · rw [hr.error]
    exact ⟨e0.trans e2, rfl⟩
  obtain ⟨H, rfl, hH⟩ := hr.ok
  clear hr hz hz1
  carry e2
  refine wpP_at_bind hsS ?_
  have h4 : Makes (do
      let h ← rd H
      new (fun a b => 4 * h a b : Mat6 (Arr T))) m2 fun a b => 4 * h a b := wp_rd_bind hH (makes_new _ _)
  refine wpP_makes h4 fun C4 m3 e3 l3 i3 h3 => ?_
  carry e3
  refine wpP_mem (wp_mono (piolaElasticity_spec cfg bc4 hF hS (D := none) (d := none) trivial h3 (C := none)
    (c := none) trivial) ?_)
  rintro R m4 ⟨e4, l4, k⟩
  carry e4
  refine ⟨e0, R, rfl, ?_, k⟩
  rcases l4 with rfl | l4
  · show m.next ≤ C4.loc
    omega
  · omega

theorem obj_implements {sv : SV Z Zv} {M : Mat T Z μ} {mat : Material (Arr T) Zv ν} (hM : M.Implements sv mat)
    (cfg : SpaceCfg) (bc bc4 : Bool) : (obj cfg bc bc4 M).Implements sv (Batch.Deformation.obj cfg mat) where
  gradient m s t F f z zv hF hz := by
    have h := gradient_spec hM cfg bc (s := s) t.material hF hz
    refine ⟨h.1, ?_⟩
    have h2 := h.2
    change Agree _ _ (Batch.Deformation.gradient cfg mat f zv t).1
    rw [Batch.Deformation.gradient_run]
    rcases hg : mat.gradient (Batch.rightCauchyGreen f) zv t.material with ⟨e | ⟨g, zv'⟩, t'⟩ <;> rw [hg] at h2
    · change Agree _ (gradient cfg bc M F z (m, s)).1 _
      rw [h2]; rfl
    · obtain ⟨R, z', C, S, hr, h3, h4, h5, -⟩ := h2
      change Agree _ (gradient cfg bc M F z (m, s)).1 _
      rw [hr]
      exact ⟨h3, h4, h5⟩
  hessian m s t F f z zv hF hz := by
    have h := hessian_spec hM cfg bc bc4 (s := s) t.material hF hz
    refine ⟨h.1, ?_⟩
    have h2 := h.2
    change Agree _ (hessian cfg bc bc4 M F z (m, s)).1 (Batch.Deformation.hessian cfg mat f zv t).1
    rw [Batch.Deformation.hessian_run]
    rcases hg : mat.gradient (Batch.rightCauchyGreen f) zv t.material with ⟨e | ⟨g, zv'⟩, t'⟩ <;> rw [hg] at h2
    · rw [h2]; rfl
    · dsimp only at h2 ⊢
      rcases hh : mat.hessian (Batch.rightCauchyGreen f) zv t' with ⟨e | h, t''⟩ <;> rw [hh] at h2
      · rw [h2]; rfl
      · obtain ⟨R, hr, h3, h4⟩ := h2
        rw [hr]
        exact ⟨h3, h4⟩

end Deformation

namespace Distortional

open Batch.Distortional in
theorem gradient_spec {sv : SV Z Zv} {M : Mat T Z μ} {mat : Material (Arr T) Zv ν} (hM : M.Implements sv mat)
    (cfg : SpaceCfg) (bc : Bool) {m : Mem} {s : DistSt T μ} (t : ν) {F : Nd (Full2 (Arr T))} {f : Full2 (Arr T)} {z : Z}
    {zv : Zv} (hF : Holds m F f) (hz : sv.Is m z zv) :
    wpP (gradient cfg bc M F z) m s fun r m' s' => Ext m m' ∧
      match (mat.gradient (cu f) zv t).1 with
      | .error e => r = .error e
      | .ok (g, zv') => ∃ R z' C I3 Cu Sb SbC invC S, r = .ok (R, z') ∧ m.next ≤ R.loc ∧
          R.Is m' (Batch.piolaStress cfg f (st f g) (some (Arr.sqrt (Hel.det (Batch.rightCauchyGreen f))))) ∧
          sv.Is m' z' zv' ∧ s'.C = some C ∧ s'.I3 = some I3 ∧ s'.Cu = some Cu ∧ s'.Sb = some Sb ∧ s'.SbC = some SbC ∧
          s'.invC = some invC ∧ s'.S = some S ∧
          Holds m' C (Batch.rightCauchyGreen f) ∧ Holds m' I3 (Hel.det (Batch.rightCauchyGreen f)) ∧
          Holds m' Cu (cu f) ∧ Holds m' Sb (sb f g) ∧ Holds m' SbC (Hel.ddot (sb f g) (Batch.rightCauchyGreen f)) ∧
          Holds m' invC (ic f) ∧ Holds m' S (st f g) := by
  unfold gradient callMat
  refine wpP_makes (makes_rightCauchyGreen hF) fun C m1 e1 l1 i1 h1 => wpP_set_bind ?_
  have e0 := e1
  replace hz := sv.ext e1 hz
  carry e1
  refine wpP_makes (makes_det h1) fun I3 m2 e2 l2 i2 h2 => wpP_set_bind ?_
  replace hz := sv.ext e2 hz
  carry e2
  have q : Makes (do
      let i ← rd I3
      let c ← rd C
      new (fun a => i.pow (-1 / 3 : ℝ) * c a : Vec6 (Arr T))) m2 (cu f) := wp_rd_bind h2 (wp_rd_bind h1 (makes_new _ _))
  refine wpP_makes q fun Cu m3 e3 l3 i3 h3 => wpP_set_bind (wpP_at_bind rfl ?_)
  replace hz := sv.ext e3 hz
  clear q
  carry e3
  refine wpP_bind (wpP_call (wpP_mono (hM.grad t h3 hz) fun r m4 u ⟨e4, hr⟩ => ?_))
  rcases hg : (mat.gradient (cu f) zv t).1 with e | ⟨g, zv'⟩ <;> rw [hg] at hr
  · rw [hr.error]
    exact ⟨e0.trans e4, rfl⟩
  obtain ⟨⟨A, z'⟩, rfl, hA, hz'⟩ := hr.ok
  clear hr hz
  carry e4
  have q : Makes (do
      let i ← rd I3
      let g ← rd A
      new (fun a => 2 * i.pow (-1 / 3 : ℝ) * g a : Vec6 (Arr T))) m4 (sb f g) := wp_rd_bind h2 (wp_rd_bind hA (makes_new _ _))
  refine wpP_makes q fun Sb m5 e5 l5 i5 h5 => wpP_set_bind ?_
  replace hz' := sv.ext e5 hz'
  clear q
  carry e5
  refine wpP_makes (makes_ddot h5 h1) fun SbC m6 e6 l6 i6 h6 => wpP_set_bind ?_
  replace hz' := sv.ext e6 hz'
  carry e6
  refine wpP_makes (makes_inv h1 (D := some I3) (d := some _) h2) fun iC m7 e7 l7 i7 h7 => wpP_set_bind ?_
  replace hz' := sv.ext e7 hz'
  carry e7
  have q : Makes (do
      let x ← rd Sb
      let y ← rd SbC
      let z ← rd iC
      new (fun a => x a - y / 3 * z a : Vec6 (Arr T))) m7 (st f g) :=
    wp_rd_bind h5 (wp_rd_bind h6 (wp_rd_bind h7 (makes_new _ _)))
  refine wpP_makes q fun S m8 e8 l8 i8 h8 => wpP_set_bind (wpP_at_bind rfl (wpP_at_bind rfl ?_))
  replace hz' := sv.ext e8 hz'
  clear q
  carry e8
  have q : Makes (do
      let i ← rd I3
      new i.sqrt) m8 (Arr.sqrt (Hel.det (Batch.rightCauchyGreen f))) := wp_rd_bind h2 (makes_new _ _)
  refine wpP_makes q fun D m9 e9 l9 i9 h9 => ?_
  replace hz' := sv.ext e9 hz'
  clear q
  carry e9
  refine wpP_mem_bind (wp_mono (piolaStress_spec cfg bc hF h8 (D := some D) (d := some _) h9) ?_)
  rintro R m10 ⟨e10, l10, k⟩
  replace hz' := sv.ext e10 hz'
  carry e10
  refine wpP_pure ⟨e0, R, z', C, I3, Cu, Sb, SbC, iC, S, rfl, ?_, k, hz', rfl, rfl, rfl, rfl, rfl, rfl, rfl,
    h1, h2, h3, h5, h6, h7, h8⟩
  rcases l10 with rfl | l10
  · show m.next ≤ S.loc
    omega
  · omega

open Batch.Distortional in
theorem hessian_spec {sv : SV Z Zv} {M : Mat T Z μ} {mat : Material (Arr T) Zv ν} (hM : M.Implements sv mat)
    (cfg : SpaceCfg) (bc bc4 : Bool) {m : Mem} {s : DistSt T μ} (t : ν) {F : Nd (Full2 (Arr T))} {f : Full2 (Arr T)}
    {z : Z} {zv : Zv} (hF : Holds m F f) (hz : sv.Is m z zv) :
    wpP (hessian cfg bc bc4 M F z) m s fun r m' _ => Ext m m' ∧
      match mat.gradient (cu f) zv t with
      | (.error e, _) => r = .error e
      | (.ok (g, _), t') => match (mat.hessian (cu f) zv t').1 with
        | .error e => r = .error e
        | .ok h => ∃ R, r = .ok R ∧ m.next ≤ R.loc ∧
          R.Is m' (Batch.piolaElasticity cfg f (st f g)
            (some (Arr.sqrt (Hel.det (Batch.rightCauchyGreen f)))) (c4 f g h) (some (ic f))) := by
  unfold hessian callMat
  refine wpP_bind (wpP_mono (gradient_spec hM cfg bc t hF hz) ?_)
  rintro r m1 s1 ⟨e1, hr⟩
  rcases hg : mat.gradient (cu f) zv t with ⟨e | ⟨g, zv'⟩, t'⟩ <;> rw [hg] at hr
  · subst hr
    exact ⟨e1, rfl⟩
  obtain ⟨R, z', C, I3, Cu, Sb, SbC, iC, S, rfl, -, -, -, aC, aI3, aCu, aSb, aSbC, aiC, aS,
    hC, hI3, hCu, hSb, hSbC, hiC, hS⟩ := hr
  have e0 := e1
  replace hz := sv.ext e1 hz
  carry e1
  clear e1
  refine wpP_makes makes_eye fun I m2 e2 l2 i2 hI => ?_
  replace hz := sv.ext e2 hz
  carry e2
  refine wpP_at_bind aCu (wpP_bind (wpP_call (wpP_mono (hM.hess t' hCu hz) fun r m3 u ⟨e3, hr⟩ => ?_)))
  dsimp only
  rcases hh : (mat.hessian (cu f) zv t').1 with e | h <;> rw [hh] at hr
  · rw [hr.error]
    exact ⟨e0.trans e3, rfl⟩
  obtain ⟨H, rfl, hH⟩ := hr.ok
  clear hr hz
  carry e3
  refine wpP_at_bind aI3 ?_
  have q : Makes (do
      let i ← rd I3
      let h ← rd H
      new (fun a b => 4 * i.pow (-2 / 3 : ℝ) * h a b : Mat6 (Arr T))) m3 _ :=
    wp_rd_bind hI3 (wp_rd_bind hH (makes_new _ _))
  refine wpP_makes q fun C4b m4 e4 l4 i4 hC4b => wpP_at_bind aiC (wpP_at_bind aC ?_)
  clear q
  carry e4
  have q : Makes (do
      let x ← rd (← cdya true I I none)
      let y ← rd (← dya iC C none)
      new (fun a b => x a b - y a b / 3 : Mat6 (Arr T))) m4
        fun a b => Hel.cdyaSelf Hel.eye a b - Hel.dya (ic f) (Batch.rightCauchyGreen f) a b / 3 := by
    refine (makes_cdyaSelf hI).bind fun X n1 g1 _ _ x1 => ?_
    have b := g1
    carry g1
    refine wp_rd_bind x1 ((makes_dya hiC hC).bind fun Y n2 g2 _ _ x2 => ?_)
    carry g2
    refine wp_rd_bind x2 (wp_mono (makes_new _ _) ?_)
    rintro R n3 ⟨g3, _, i, k⟩
    carry g3
    exact ⟨b, by omega, i, k⟩
  refine wpP_makes q fun P4 m5 e5 l5 i5 hP4 => ?_
  clear q
  carry e5
  refine wpP_makes (makes_cdyaSelf hiC) fun I4 m6 e6 l6 i6 hI4 => wpP_at_bind aSb ?_
  carry e6
  refine wpP_makes (makes_dya hSb hiC) fun SbiC m7 e7 l7 i7 hSbiC => ?_
  carry e7
  dsimp only
  refine wpP_makes (makes_dya hiC hiC) fun iCiC m8 e8 l8 i8 hiCiC => wpP_at_bind aSbC ?_
  carry e8
  have q : Makes (do
      let s ← rd SbC
      let w ← rd I4
      let x ← rd SbiC
      let y ← rd (transpose SbiC)
      let z ← rd iCiC
      new (fun a b => 2 / 3 * (s * w a b - x a b - y a b + s / 3 * z a b) : Mat6 (Arr T))) m8 _ :=
    wp_rd_bind hSbC (wp_rd_bind hI4 (wp_rd_bind hSbiC (wp_rd_bind hSbiC.swap01 (wp_rd_bind hiCiC (makes_new _ _)))))
  refine wpP_makes q fun C4 m9 e9 l9 i9 hC4 => ?_
  clear q
  carry e9
  clear e2 e3 e4 e5 e6 e7 e8 e9
  have fin : ∀ m' s', Ext m m' → s'.S = some S → Holds m' F f → Holds m' S (st f g) →
      Holds m' I3 (Hel.det (Batch.rightCauchyGreen f)) → Holds m' iC (ic f) → Holds m' C4 (c4 f g h) →
      wpP (do
        let S ← at' (·.S)
        let detF ← mem do
          let i ← rd I3
          new i.sqrt
        mem (piolaElasticity cfg bc4 F S (some detF) C4 (some iC))) m' (s' : DistSt T μ) fun r m' _ => Ext m m' ∧
          ∃ R, r = .ok R ∧ m.next ≤ R.loc ∧ R.Is m' (Batch.piolaElasticity cfg f (st f g)
            (some (Arr.sqrt (Hel.det (Batch.rightCauchyGreen f)))) (c4 f g h) (some (ic f))) := by
    intro m' s' e aS hF hS hI3 hiC hC4
    refine wpP_at_bind aS ?_
    have q : Makes (do
        let i ← rd I3
        new i.sqrt) m' (Arr.sqrt (Hel.det (Batch.rightCauchyGreen f))) := wp_rd_bind hI3 (makes_new _ _)
    refine wpP_makes q fun D n1 g1 _ _ hD => ?_
    clear q
    carry g1
    refine wpP_mem (wp_mono (piolaElasticity_spec cfg bc4 hF hS (D := some D) (d := some _) hD hC4 (C := some iC)
      (c := some _) hiC) ?_)
    rintro R n2 ⟨g2, l4, k⟩
    carry g2
    refine ⟨e, R, rfl, ?_, k⟩
    rcases l4 with rfl | l4
    · show m.next ≤ C4.loc
      omega
    · omega
  refine wpP_mem_bind (wp_rd_bind hC4b ?_)
  by_cases hc : ¬ allclose0 (fun a b => 4 * Arr.pow (Hel.det (Batch.rightCauchyGreen f)) (-2 / 3 : ℝ) * h a b : Mat6 (Arr T))
  · rw [if_pos hc]
    refine (makes_ddot44 hP4 hC4b).bind fun X n1 g1 _ _ x1 => ?_
    carry g1
    refine (makes_ddot44 x1 hP4.swap01).bind fun Y n2 g2 _ _ x2 => ?_
    carry g2
    refine wp_rd_bind x2 (wp_rd_bind hC4 (wp_put hC4.loc i9 fun n3 w3 k => ?_))
    carryW w3
    refine fin _ _ e0 aS hF hS hI3 hiC ?_
    have : c4 f g h = _ := if_pos hc
    rw [this]
    exact k
  · rw [if_neg hc]
    refine fin _ _ e0 aS hF hS hI3 hiC ?_
    have : c4 f g h = _ := if_neg hc
    rw [this]
    exact hC4

theorem obj_implements {sv : SV Z Zv} {M : Mat T Z μ} {mat : Material (Arr T) Zv ν} (hM : M.Implements sv mat)
    (cfg : SpaceCfg) (bc bc4 : Bool) : (obj cfg bc bc4 M).Implements sv (Batch.Distortional.obj cfg mat) where
  gradient m s t F f z zv hF hz := by
    have h := gradient_spec hM cfg bc (s := s) t.material hF hz
    refine ⟨h.1, ?_⟩
    have h2 := h.2
    change Agree _ (gradient cfg bc M F z (m, s)).1 (Batch.Distortional.gradient cfg mat f zv t).1
    rw [Batch.Distortional.gradient_run]
    rcases hg : mat.gradient (Batch.Distortional.cu f) zv t.material with ⟨e | ⟨g, zv'⟩, t'⟩ <;> rw [hg] at h2
    · rw [h2]; rfl
    · obtain ⟨R, z', C, I3, Cu, Sb, SbC, iC, S, hr, h3, h4, h5, -⟩ := h2
      rw [hr]
      exact ⟨h3, h4, h5⟩
  hessian m s t F f z zv hF hz := by
    have h := hessian_spec hM cfg bc bc4 (s := s) t.material hF hz
    refine ⟨h.1, ?_⟩
    have h2 := h.2
    change Agree _ (hessian cfg bc bc4 M F z (m, s)).1 (Batch.Distortional.hessian cfg mat f zv t).1
    rw [Batch.Distortional.hessian_run]
    rcases hg : mat.gradient (Batch.Distortional.cu f) zv t.material with ⟨e | ⟨g, zv'⟩, t'⟩ <;> rw [hg] at h2
    · rw [h2]; rfl
    · dsimp only at h2 ⊢
      rcases hh : mat.hessian (Batch.Distortional.cu f) zv t' with ⟨e | h, t''⟩ <;> rw [hh] at h2
      · rw [h2]; rfl
      · obtain ⟨R, hr, h3, h4⟩ := h2
        rw [hr]
        exact ⟨h3, h4⟩

end Distortional

namespace Dilatational

open Batch.Dilatational in
theorem gradient_spec {sv : SV Z Zv} {M : Mat T Z μ} {mat : Material (Arr T) Zv ν} (hM : M.Implements sv mat)
    (cfg : SpaceCfg) (bc : Bool) {m : Mem} {s : DilSt T μ} (t : ν) {F : Nd (Full2 (Arr T))} {f : Full2 (Arr T)} {z : Z}
    {zv : Zv} (hF : Holds m F f) (hz : sv.Is m z zv) :
    wpP (gradient cfg bc M F z) m s fun r m' s' => Ext m m' ∧
      match (mat.gradient (co f) zv t).1 with
      | .error e => r = .error e
      | .ok (g, zv') => ∃ R z' C I3 Co tS invC S, r = .ok (R, z') ∧ m.next ≤ R.loc ∧
          R.Is m' (Batch.piolaStress cfg f (st f g) (some (Arr.sqrt (Hel.det (Batch.rightCauchyGreen f))))) ∧
          sv.Is m' z' zv' ∧ s'.C = some C ∧ s'.I3 = some I3 ∧ s'.Co = some Co ∧ s'.tr_Sb = some tS ∧
          s'.invC = some invC ∧ s'.S = some S ∧
          Holds m' C (Batch.rightCauchyGreen f) ∧ Holds m' I3 (Hel.det (Batch.rightCauchyGreen f)) ∧
          Holds m' Co (co f) ∧ Holds m' tS (Hel.trace (sb f g)) ∧
          Holds m' invC (ic f) ∧ Holds m' S (st f g) := by
  unfold gradient callMat
  refine wpP_makes (makes_rightCauchyGreen hF) fun C m1 e1 l1 i1 h1 => wpP_set_bind (wpP_at_bind rfl ?_)
  have e0 := e1
  replace hz := sv.ext e1 hz
  carry e1
  refine wpP_makes (makes_det h1) fun I3 m2 e2 l2 i2 h2 => wpP_set_bind (wpP_at_bind rfl ?_)
  replace hz := sv.ext e2 hz
  carry e2
  have q : Makes (do
      let i ← rd I3
      let c ← rd C
      new (fun a => i.pow (1 / 3 : ℝ) * c a : Vec6 (Arr T))) m2 (co f) := wp_rd_bind h2 (wp_rd_bind h1 (makes_new _ _))
  refine wpP_makes q fun Co m3 e3 l3 i3 h3 => wpP_set_bind (wpP_at_bind rfl ?_)
  replace hz := sv.ext e3 hz
  clear q
  carry e3
  refine wpP_bind (wpP_call (wpP_mono (hM.grad t h3 hz) fun r m4 u ⟨e4, hr⟩ => ?_))
  rcases hg : (mat.gradient (co f) zv t).1 with e | ⟨g, zv'⟩ <;> rw [hg] at hr
  · rw [hr.error]
    exact ⟨e0.trans e4, rfl⟩
  obtain ⟨⟨A, z'⟩, rfl, hA, hz'⟩ := hr.ok
  clear hr hz
  carry e4
  have q : Makes (do
      let i ← rd I3
      let g ← rd A
      new (fun a => 2 * i.pow (1 / 3 : ℝ) * g a : Vec6 (Arr T))) m4 (sb f g) := wp_rd_bind h2 (wp_rd_bind hA (makes_new _ _))
  refine wpP_makes q fun Sb m5 e5 l5 i5 h5 => wpP_set_bind (wpP_at_bind rfl ?_)
  replace hz' := sv.ext e5 hz'
  clear q
  carry e5
  refine wpP_makes (makes_trace h5) fun tS m6 e6 l6 i6 h6 => wpP_set_bind ?_
  replace hz' := sv.ext e6 hz'
  carry e6
  refine wpP_makes (makes_inv h1 (D := some I3) (d := some _) h2) fun iC m7 e7 l7 i7 h7 =>
    wpP_set_bind (wpP_at_bind rfl (wpP_at_bind rfl ?_))
  replace hz' := sv.ext e7 hz'
  carry e7
  have q : Makes (do
      let y ← rd tS
      let z ← rd iC
      new (fun a => y / 3 * z a : Vec6 (Arr T))) m7 (st f g) := wp_rd_bind h6 (wp_rd_bind h7 (makes_new _ _))
  refine wpP_makes q fun S m8 e8 l8 i8 h8 => wpP_set_bind (wpP_at_bind rfl ?_)
  replace hz' := sv.ext e8 hz'
  clear q
  carry e8
  have q : Makes (do
      let i ← rd I3
      new i.sqrt) m8 (Arr.sqrt (Hel.det (Batch.rightCauchyGreen f))) := wp_rd_bind h2 (makes_new _ _)
  refine wpP_makes q fun D m9 e9 l9 i9 h9 => ?_
  replace hz' := sv.ext e9 hz'
  clear q
  carry e9
  refine wpP_mem_bind (wp_mono (piolaStress_spec cfg bc hF h8 (D := some D) (d := some _) h9) ?_)
  rintro R m10 ⟨e10, l10, k⟩
  replace hz' := sv.ext e10 hz'
  carry e10
  refine wpP_pure ⟨e0, R, z', C, I3, Co, tS, iC, S, rfl, ?_, k, hz', rfl, rfl, rfl, rfl, rfl, rfl,
    h1, h2, h3, h6, h7, h8⟩
  rcases l10 with rfl | l10
  · show m.next ≤ S.loc
    omega
  · omega

open Batch.Dilatational in
theorem hessian_spec {sv : SV Z Zv} {M : Mat T Z μ} {mat : Material (Arr T) Zv ν} (hM : M.Implements sv mat)
    (cfg : SpaceCfg) (bc bc4 : Bool) {m : Mem} {s : DilSt T μ} (t : ν) {F : Nd (Full2 (Arr T))} {f : Full2 (Arr T)}
    {z : Z} {zv : Zv} (hF : Holds m F f) (hz : sv.Is m z zv) :
    wpP (hessian cfg bc bc4 M F z) m s fun r m' _ => Ext m m' ∧
      match mat.gradient (co f) zv t with
      | (.error e, _) => r = .error e
      | (.ok (g, _), t') => match (mat.hessian (co f) zv t').1 with
        | .error e => r = .error e
        | .ok h => ∃ R, r = .ok R ∧ m.next ≤ R.loc ∧
          R.Is m' (Batch.piolaElasticity cfg f (st f g)
            (some (Arr.sqrt (Hel.det (Batch.rightCauchyGreen f)))) (c4 f g h) (some (ic f))) := by
  unfold hessian callMat
  refine wpP_bind (wpP_mono (gradient_spec hM cfg bc t hF hz) ?_)
  rintro r m1 s1 ⟨e1, hr⟩
  rcases hg : mat.gradient (co f) zv t with ⟨e | ⟨g, zv'⟩, t'⟩ <;> rw [hg] at hr
  · subst hr
    exact ⟨e1, rfl⟩
  obtain ⟨R, z', C, I3, Co, tS, iC, S, rfl, -, -, -, aC, aI3, aCo, atS, aiC, aS,
    hC, hI3, hCo, htS, hiC, hS⟩ := hr
  have e0 := e1
  replace hz := sv.ext e1 hz
  carry e1
  clear e1
  refine wpP_at_bind aCo (wpP_bind (wpP_call (wpP_mono (hM.hess t' hCo hz) fun r m3 u ⟨e3, hr⟩ => ?_)))
  dsimp only
  rcases hh : (mat.hessian (co f) zv t').1 with e | h <;> rw [hh] at hr
  · rw [hr.error]
    exact ⟨e0.trans e3, rfl⟩
  obtain ⟨H, rfl, hH⟩ := hr.ok
  clear hr hz
  carry e3
  refine wpP_at_bind aI3 ?_
  have q : Makes (do
      let i ← rd I3
      let h ← rd H
      new (fun a b => 4 * i.pow (2 / 3 : ℝ) * h a b : Mat6 (Arr T))) m3 _ :=
    wp_rd_bind hI3 (wp_rd_bind hH (makes_new _ _))
  refine wpP_makes q fun C4b m4 e4 l4 i4 hC4b => ?_
  clear q
  carry e4
  refine wpP_makes makes_eye fun I m5 e5 l5 i5 hI => ?_
  carry e5
  have q : Makes (do ddot (← ddot24 I C4b) I) m5
      (Hel.ddot (Hel.ddot24 Hel.eye fun a b => 4 * Arr.pow (Hel.det (Batch.rightCauchyGreen f)) (2 / 3 : ℝ) * h a b)
        Hel.eye) := by
    refine (makes_ddot24 hI hC4b).bind fun X n1 g1 _ _ x1 => ?_
    have b := g1
    carry g1
    refine wp_mono (makes_ddot x1 hI) ?_
    rintro R n3 ⟨g3, _, i, k⟩
    carry g3
    exact ⟨b, by omega, i, k⟩
  refine wpP_makes q fun tC m6 e6 l6 i6 htC => wpP_at_bind aiC ?_
  clear q
  carry e6
  refine wpP_makes (makes_cdyaSelf hiC) fun I4 m7 e7 l7 i7 hI4 => wpP_at_bind atS ?_
  carry e7
  have q : Makes (do
      let s ← rd tS
      let t ← rd tC
      let x ← rd (← dya iC iC none)
      let w ← rd I4
      new (fun a b => (2 * s + t) * x a b / 9 - 2 / 3 * s * w a b : Mat6 (Arr T))) m7 (c4 f g h) := by
    refine wp_rd_bind htS (wp_rd_bind htC ((makes_dya hiC hiC).bind fun X n1 g1 _ _ x1 => ?_))
    have b := g1
    carry g1
    refine wp_rd_bind x1 (wp_rd_bind hI4 (wp_mono (makes_new _ _) ?_))
    rintro R n3 ⟨g3, _, i, k⟩
    carry g3
    exact ⟨b, by omega, i, k⟩
  refine wpP_makes q fun C4 m8 e8 l8 i8 hC4 => wpP_at_bind aS ?_
  clear q
  carry e8
  have q : Makes (do
      let i ← rd I3
      new i.sqrt) m8 (Arr.sqrt (Hel.det (Batch.rightCauchyGreen f))) := wp_rd_bind hI3 (makes_new _ _)
  refine wpP_makes q fun D m9 e9 l9 i9 hD => ?_
  clear q
  carry e9
  refine wpP_mem (wp_mono (piolaElasticity_spec cfg bc4 hF hS (D := some D) (d := some _) hD hC4 (C := some iC)
    (c := some _) hiC) ?_)
  rintro R m10 ⟨e10, l10, k⟩
  carry e10
  refine ⟨e0, R, rfl, ?_, k⟩
  rcases l10 with rfl | l10
  · show m.next ≤ C4.loc
    omega
  · omega

theorem obj_implements {sv : SV Z Zv} {M : Mat T Z μ} {mat : Material (Arr T) Zv ν} (hM : M.Implements sv mat)
    (cfg : SpaceCfg) (bc bc4 : Bool) : (obj cfg bc bc4 M).Implements sv (Batch.Dilatational.obj cfg mat) where
  gradient m s t F f z zv hF hz := by
    have h := gradient_spec hM cfg bc (s := s) t.material hF hz
    refine ⟨h.1, ?_⟩
    have h2 := h.2
    change Agree _ (gradient cfg bc M F z (m, s)).1 (Batch.Dilatational.gradient cfg mat f zv t).1
    rw [Batch.Dilatational.gradient_run]
    rcases hg : mat.gradient (Batch.Dilatational.co f) zv t.material with ⟨e | ⟨g, zv'⟩, t'⟩ <;> rw [hg] at h2
    · rw [h2]; rfl
    · obtain ⟨R, z', C, I3, Co, tS, iC, S, hr, h3, h4, h5, -⟩ := h2
      rw [hr]
      exact ⟨h3, h4, h5⟩
  hessian m s t F f z zv hF hz := by
    have h := hessian_spec hM cfg bc bc4 (s := s) t.material hF hz
    refine ⟨h.1, ?_⟩
    have h2 := h.2
    change Agree _ (hessian cfg bc bc4 M F z (m, s)).1 (Batch.Dilatational.hessian cfg mat f zv t).1
    rw [Batch.Dilatational.hessian_run]
    rcases hg : mat.gradient (Batch.Dilatational.co f) zv t.material with ⟨e | ⟨g, zv'⟩, t'⟩ <;> rw [hg] at h2
    · rw [h2]; rfl
    · dsimp only at h2 ⊢
      rcases hh : mat.hessian (Batch.Dilatational.co f) zv t' with ⟨e | h, t''⟩ <;> rw [hh] at h2
      · rw [h2]; rfl
      · obtain ⟨R, hr, h3, h4⟩ := h2
        rw [hr]
        exact ⟨h3, h4⟩

end Dilatational

end

end Hel.Memory
