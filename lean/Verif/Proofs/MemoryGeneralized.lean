import Verif.Spec.MemoryGeneralized
import Verif.Proofs.MemoryStretches
import Verif.Proofs.BatchGeneralized

/-! The generalized-invariants model on the memory. -/

namespace Hel.Memory

noncomputable section

variable {T κ : Type} [Encodable T] [Encodable κ] {n : ℕ} {m b : Mem} {σ μ ν Z Zv τ τ' α : Type}

theorem Holds.last3 [Content α] {A : Nd (Fin 6 → α)} {v : Fin 6 → α} (h : Holds m A v) :
    Holds m A.last3 fun i => v (![3, 4, 5] i) := by
  refine ⟨h.loc, ?_⟩
  rw [← h.read]
  rfl

theorem wp_put_last3 [Content α] {A : Nd (Fin 6 → α)} {a : Fin 6 → α} {v : Fin 3 → α} {Q : Unit → Mem → Prop} (hA : Holds m A a)
    (hi : A.Inj) (h : ∀ m', Wrote A m m' → Holds m' A ![a 0, a 1, a 2, v 0, v 1, v 2] → Q () m') :
    wp (put A.last3 v) m Q := by
  refine wp_put_view (A := A) (a := a) (a' := ![a 0, a 1, a 2, v 0, v 1, v 2]) (fun x => (![3, 4, 5] x.1, x.2)) rfl
    (fun _ => rfl) ?_ hA hi ?_ ?_ h
  · rintro ⟨x, x'⟩ ⟨y, y'⟩ h
    obtain ⟨h1, h2⟩ := Prod.mk.inj h
    dsimp only at h1 h2
    subst h2
    fin_cases x <;> fin_cases y <;> first | rfl | (exact absurd h1 (by decide))
  · rintro ⟨x, y⟩
    change Content.toFun ((![a 0, a 1, a 2, v 0, v 1, v 2] : Fin 6 → α) (![3, 4, 5] x)) y = Content.toFun (v x) y
    fin_cases x <;> rfl
  · rintro ⟨x, y⟩ hne
    change Content.toFun ((![a 0, a 1, a 2, v 0, v 1, v 2] : Fin 6 → α) x) y = Content.toFun (a x) y
    fin_cases x
    · rfl
    · rfl
    · rfl
    · exact (hne ⟨(0, y), rfl⟩).elim
    · exact (hne ⟨(1, y), rfl⟩).elim
    · exact (hne ⟨(2, y), rfl⟩).elim

theorem strain_ofFun (f : StrainFun) : (Strain.ofFun f : Strain T).Implements f := by
  intro m L l hL
  have h : wp (Strain.ofFun f L) m fun r m' => Ext m m' ∧ Holds m' r.1 (fun a i => (f.eval (l a i)).E) ∧
      Holds m' r.2.1 (fun a i => (f.eval (l a i)).dE) ∧ Holds m' r.2.2 (fun a i => (f.eval (l a i)).d2E) := by
    unfold Strain.ofFun
    refine wp_rd_bind hL ((makes_new _ _).bind fun E m1 e1 l1 i1 h1 => (makes_new _ _).bind fun D m2 e2 l2 i2 h2 =>
      (makes_new _ _).bind fun D2 m3 e3 l3 i3 h3 => wp_pure ⟨e1.trans (e2.trans e3), h1.ext (e2.trans e3), h2.ext e3, h3⟩)
  exact h

theorem wpP_and {p : PyM (Mem × σ) τ} {s : σ} {Q Q' : Res τ → Mem → σ → Prop} (h : wpP p m s Q) (h' : wpP p m s Q') :
    wpP p m s fun r m s => Q r m s ∧ Q' r m s := ⟨h, h'⟩

namespace GenInv

theorem iaddVec_wp {α : Type} [Encodable α] {acc : Nd (α → Arr T)} {a : α → Arr T} {w : Option (Num T)} {v : Option (Arr T)}
    {p : MemM (α → Arr T)} {x : α → Arr T} {Q : Unit → Mem → Prop} (ha : Holds m acc a) (hw : Num.Is m w v)
    (hp : wp p m fun y m' => y = x ∧ m' = m) (hn : v = none → Q () m)
    (hs : ∀ u, v = some u → wp (put acc fun i => a i + u * x i) m Q) : wp (iaddVec acc w p) m Q := by
  unfold iaddVec
  rcases w with _ | w
  · rcases v with _ | v
    · exact wp_pure (hn rfl)
    · exact hw.elim
  · rcases v with _ | v
    · rcases w with w | w <;> exact hw.elim
    · refine wp_bind (wp_rdNum hw (wp_bind (wp_mono hp ?_)))
      rintro y m' ⟨rfl, rfl⟩
      exact wp_rd_bind ha (hs v rfl)

theorem times_wp {X Y : Nd (Vec3 (Arr T))} {x y : Vec3 (Arr T)} (hX : Holds m X x) (hY : Holds m Y y) :
    wp (times X Y) m fun z m' => (z = fun a => x a * y a) ∧ m' = m :=
  wp_rd_bind hX (wp_rd_bind hY (wp_pure ⟨rfl, rfl⟩))

theorem pick_wp {X Y : Nd (Vec3 (Arr T))} {x y : Vec3 (Arr T)} (hX : Holds m X x) (hY : Holds m Y y) :
    wp (pick X Y) m fun z m' => (z = fun a => x (Hel.GenInv.ia a) * y (Hel.GenInv.ib a)) ∧ m' = m :=
  wp_rd_bind hX (wp_rd_bind hY (wp_pure ⟨rfl, rfl⟩))

theorem pick2_wp {X Y : Nd (Vec3 (Arr T))} {x y : Vec3 (Arr T)} (hX : Holds m X x) (hY : Holds m Y y) :
    wp (pick2 X Y) m fun z m' => (z = fun a => x (Hel.GenInv.ia a) * y (Hel.GenInv.ib a) +
      y (Hel.GenInv.ia a) * x (Hel.GenInv.ib a)) ∧ m' = m :=
  wp_rd_bind hX (wp_rd_bind hY (wp_pure ⟨rfl, rfl⟩))

/-- in-place addition to a new array: the arrays of `b` are unchanged -/
theorem iaddVec_bind {k : ℕ} {s : σ} {acc : Nd (Fin k → Arr T)} {a x : Fin k → Arr T} {w : Option (Num T)} {v : Option (Arr T)}
    {p : MemM (Fin k → Arr T)} {f : Unit → PyM (Mem × σ) τ} {Q : Res τ → Mem → σ → Prop} (eb : Ext b m) (ha : Holds m acc a)
    (la : b.next ≤ acc.loc) (ia : acc.Inj) (hw : Num.Is b w v) (hp : ∀ m, Ext b m → wp p m fun y m' => y = x ∧ m' = m)
    (h : ∀ m', Ext b m' → Holds m' acc (Batch.GenInv.addVec a v x) → wpP (f ()) m' s Q) :
    wpP (mem (iaddVec acc w p) >>= f) m s Q := by
  refine wpP_mem_bind (iaddVec_wp ha (hw.ext eb) (hp m eb) ?_ ?_)
  · rintro rfl; exact h m eb ha
  · rintro u rfl
    exact wp_put ha.loc ia fun m' w h' => h m' (w.ext eb la) h'

/-- in-place addition to the last three rows, on values -/
def tailO (a : Vec6 (Arr T)) (v : Option (Arr T)) (x : Vec3 (Arr T)) : Vec6 (Arr T) :=
  match v with
  | some w => Batch.GenInv.addTail a fun i => w * x i
  | none => a

/-- in-place addition to the first three rows, on values -/
def headO (a : Vec6 (Arr T)) (v : Option (Arr T)) (x : Vec3 (Arr T)) : Vec6 (Arr T) :=
  match v with
  | some w => Batch.GenInv.addHead a fun i => w * x i
  | none => a

theorem iaddTail_bind {s : σ} {acc : V T} {a : Vec6 (Arr T)} {x : Vec3 (Arr T)} {w : Option (Num T)} {v : Option (Arr T)}
    {p : MemM (Vec3 (Arr T))} {f : Unit → PyM (Mem × σ) τ} {Q : Res τ → Mem → σ → Prop} (eb : Ext b m) (ha : Holds m acc a)
    (la : b.next ≤ acc.loc) (ia : acc.Inj) (hw : Num.Is b w v) (hp : ∀ m, Ext b m → wp p m fun y m' => y = x ∧ m' = m)
    (h : ∀ m', Ext b m' → Holds m' acc (tailO a v x) → wpP (f ()) m' s Q) :
    wpP (mem (iaddVec acc.last3 w p) >>= f) m s Q := by
  refine wpP_mem_bind (iaddVec_wp ha.last3 (hw.ext eb) (hp m eb) ?_ ?_)
  · rintro rfl; exact h m eb ha
  · rintro u rfl
    exact wp_put_last3 ha ia fun m' w h' => h m' (w.ext eb la) h'

theorem iaddHead_bind {s : σ} {acc : V T} {a : Vec6 (Arr T)} {x : Vec3 (Arr T)} {w : Option (Num T)} {v : Option (Arr T)}
    {p : MemM (Vec3 (Arr T))} {f : Unit → PyM (Mem × σ) τ} {Q : Res τ → Mem → σ → Prop} (eb : Ext b m) (ha : Holds m acc a)
    (la : b.next ≤ acc.loc) (ia : acc.Inj) (hw : Num.Is b w v) (hp : ∀ m, Ext b m → wp p m fun y m' => y = x ∧ m' = m)
    (h : ∀ m', Ext b m' → Holds m' acc (headO a v x) → wpP (f ()) m' s Q) :
    wpP (mem (iaddVec acc.first3 w p) >>= f) m s Q := by
  refine wpP_mem_bind (iaddVec_wp ha.first3 (hw.ext eb) (hp m eb) ?_ ?_)
  · rintro rfl; exact h m eb ha
  · rintro u rfl
    exact wp_put_first3 ha ia fun m' w h' => h m' (w.ext eb la) h'

/-- The attributes after a successful `gradient`. -/
structure After (m : Mem) (s : GenSt T μ) (g : Hel.GenInv) (l : Vec3 (Arr T)) (v : InvGrad (Arr T) Zv) : Prop where
  dE : ∃ A, s.dE = some A ∧ Holds m A (Batch.GenInv.dev g l)
  d2E : ∃ A, s.d2E = some A ∧ Holds m A (Batch.GenInv.d2ev g l)
  I1 : ∃ A, s.I1 = some A ∧ Holds m A (Batch.GenInv.J1 g (Batch.GenInv.ev g l))
  I2 : ∃ A, s.I2 = some A ∧ Holds m A (Batch.GenInv.J2 g (Batch.GenInv.ev g l))
  I3 : ∃ A, s.I3 = some A ∧ Holds m A (Batch.GenInv.J3 (Batch.GenInv.ev g l))
  w1 : ∃ d, s.dWdI1 = some d ∧ Num.Is m d v.d1
  w2 : ∃ d, s.dWdI2 = some d ∧ Num.Is m d v.d2
  w3 : ∃ d, s.dWdI3 = some d ∧ Num.Is m d v.d3 ∧ ∀ x, d ≠ some (.num x)
  d1 : ∃ A, s.dI1dE = some A ∧ Holds m A fun _ => Arr.const g.c1 * 1
  d2 : ∃ A, s.dI2dE = some A ∧ Holds m A (Batch.GenInv.dJ2 g (Batch.GenInv.ev g l))
  d3 : ∃ A, s.dI3dE = some A ∧ Holds m A (Batch.GenInv.dJ3 (Batch.GenInv.ev g l))

theorem gradient_spec (g : Hel.GenInv) {S : Strain T} (hS : S.Implements g.strain) {sv : SV Z Zv} {M : InvMat T Z μ}
    {mat : Hel.InvMat (Arr T) Zv ν} (hM : M.Implements sv mat) (h3 : M.ThirdArray) {s : GenSt T μ} (t : ν)
    {L : Nd (Vec3 (Arr T))} {l : Vec3 (Arr T)} {z : Z} {zv : Zv} (hL : Holds m L l) (hz : sv.Is m z zv) :
    wpP (gradient g S M L z) m s fun r m' s' => Ext m m' ∧
      match (mat.gradient (Batch.GenInv.J1 g (Batch.GenInv.ev g l)) (Batch.GenInv.J2 g (Batch.GenInv.ev g l))
          (Batch.GenInv.J3 (Batch.GenInv.ev g l)) zv t).1 with
      | .error e => r = .error e
      | .ok v => ∃ R z', r = .ok (R, z') ∧ Holds m' R (Batch.GenInv.gradPure g l v) ∧ sv.Is m' z' v.sv ∧
          After m' s' g l v := by
  unfold gradient callMat
  refine wpP_mem_bind ?_
  obtain ⟨e1, hE, hdE, hd2E⟩ := hS m L l hL
  change Holds _ _ (Batch.GenInv.ev g l) at hE
  change Holds _ _ (Batch.GenInv.dev g l) at hdE
  change Holds _ _ (Batch.GenInv.d2ev g l) at hd2E
  unfold wp
  generalize S L m = R1 at e1 hE hdE hd2E ⊢
  obtain ⟨⟨E, dE, d2E⟩, m1⟩ := R1
  dsimp only at e1 hE hdE hd2E ⊢
  replace hz := sv.ext e1 hz
  have e0 := e1
  refine wpP_set_bind (wpP_at_bind rfl ?_)
  clear hL
  refine wpP_makes (wp_rd_bind hE (makes_new _ _)) fun I1 m2 e2 _ _ hI1 => ?_
  replace hz := sv.ext e2 hz
  carry e2
  refine wpP_makes (wp_rd_bind hE (makes_new _ _)) fun I2 m3 e3 _ _ hI2 => ?_
  replace hz := sv.ext e3 hz
  carry e3
  refine wpP_makes (wp_rd_bind hE (makes_new _ _)) fun I3 m4 e4 _ _ hI3 => ?_
  replace hz := sv.ext e4 hz
  carry e4
  refine wpP_makes (wp_rd_bind hI1 (makes_new _ _)) fun J1 m5 e5 _ _ hJ1 => wpP_set_bind ?_
  replace hz := sv.ext e5 hz
  carry e5
  refine wpP_makes (wp_rd_bind hI2 (makes_new _ _)) fun J2 m6 e6 _ _ hJ2 => wpP_set_bind (wpP_set_bind ?_)
  replace hz := sv.ext e6 hz
  carry e6
  refine wpP_at_bind rfl (wpP_at_bind rfl (wpP_at_bind rfl ?_))
  refine wpP_bind (wpP_call ?_)
  dsimp only
  change Holds m6 J1 (Batch.GenInv.J1 g (Batch.GenInv.ev g l)) at hJ1
  change Holds m6 J2 (Batch.GenInv.J2 g (Batch.GenInv.ev g l)) at hJ2
  change Holds m6 I3 (Batch.GenInv.J3 (Batch.GenInv.ev g l)) at hI3
  have hg := hM.grad (s := s.material) t hJ1 hJ2 hI3 hz
  have hg3 : wpP (M.gradient J1 J2 I3 z) m6 s.material fun r _ _ => ∀ r' x, r = .ok r' → r'.d3 ≠ some (.num x) :=
    fun r' x h => h3 _ _ _ _ _ _ _ _ h
  refine wpP_mono (wpP_and hg hg3) ?_
  clear hg hg3
  rintro r m7 u ⟨⟨e7, hr⟩, hr3⟩
  rcases hg : (mat.gradient (Batch.GenInv.J1 g (Batch.GenInv.ev g l)) (Batch.GenInv.J2 g (Batch.GenInv.ev g l))
          (Batch.GenInv.J3 (Batch.GenInv.ev g l)) zv t).1 with e | v <;> rw [hg] at hr
  · rw [hr.error]
    exact ⟨e0.trans e7, rfl⟩
  obtain ⟨r, rfl, k1, k2, k3, kz⟩ := hr.ok
  clear hr hz
  replace hr3 := fun x => hr3 r x rfl
  carry e7
  have eb := e0
  refine wpP_set_bind ?_
  refine wpP_makes (wp_rd_bind hE (makes_new _ _)) fun Eb m8 e8 _ _ hEb => ?_
  carry e8
  refine wpP_makes (wp_rd_bind hE (makes_new _ _)) fun Ec m9 e9 _ _ hEc => ?_
  carry e9
  refine wpP_makes (makes_new _ _) fun d1 m10 e10 _ _ hd1 => wpP_set_bind ?_
  carry e10
  refine wpP_makes (wp_rd_bind hEb (wp_rd_bind hEc (makes_new _ _))) fun d2 m11 e11 _ _ hd2 => wpP_set_bind ?_
  carry e11
  refine wpP_makes (wp_rd_bind hEb (wp_rd_bind hEc (makes_new _ _))) fun d3 m12 e12 _ _ hd3 => wpP_set_bind ?_
  carry e12
  have ee := e8
  replace k1 := k1.ext ee
  replace k2 := k2.ext ee
  replace k3 := k3.ext ee
  replace kz := sv.ext ee kz
  clear ee
  refine wpP_makes (makes_new _ _) fun W m13 e13 lW iW hW => ?_
  refine wpP_at_bind rfl (wpP_at_bind rfl (wpP_at_bind rfl ?_))
  refine iaddVec_bind e13 hW lW iW k1 (fun m e => times_wp (hd1.ext e) (hdE.ext e)) fun m14 e14 hW => ?_
  refine wpP_at_bind rfl (wpP_at_bind rfl ?_)
  refine iaddVec_bind e14 hW lW iW k2 (fun m e => times_wp (hd2.ext e) (hdE.ext e)) fun m15 e15 hW => ?_
  refine wpP_at_bind rfl (wpP_at_bind rfl ?_)
  refine iaddVec_bind e15 hW lW iW k3 (fun m e => times_wp (hd3.ext e) (hdE.ext e)) fun m16 e16 hW => ?_
  exact wpP_pure ⟨e0.trans e16, W, r.sv, rfl, hW, sv.ext e16 kz, ⟨dE, rfl, hdE.ext e16⟩, ⟨d2E, rfl, hd2E.ext e16⟩,
    ⟨J1, rfl, hJ1.ext e16⟩, ⟨J2, rfl, hJ2.ext e16⟩, ⟨I3, rfl, hI3.ext e16⟩, ⟨r.d1, rfl, k1.ext e16⟩, ⟨r.d2, rfl, k2.ext e16⟩,
    ⟨r.d3, rfl, k3.ext e16, hr3⟩, ⟨d1, rfl, hd1.ext e16⟩, ⟨d2, rfl, hd2.ext e16⟩, ⟨d3, rfl, hd3.ext e16⟩⟩

theorem addThird_bind {s : σ} {acc : V (κ × Fin n)} {a : Vec6 (Arr (κ × Fin n))} {w : Option (Num (κ × Fin n))}
    {v : Option (Arr (κ × Fin n))} {f : Unit → PyM (Mem × σ) τ} {Q : Res τ → Mem → σ → Prop} (eb : Ext b m)
    (ha : Holds m acc a) (la : b.next ≤ acc.loc) (ia : acc.Inj) (hw : Num.Is b w v) (hn : ∀ x, w ≠ some (.num x))
    (h : match Batch.GenInv.addThird a v with
      | .error e => Q (.error e) m s
      | .ok y => ∀ m', Ext b m' → Holds m' acc y → wpP (f ()) m' s Q) :
    wpP (addThird acc w >>= f) m s Q := by
  rcases w with _ | x | W
  · rcases v with _ | v
    · exact h m eb ha
    · exact hw.elim
  · exact (hn x rfl).elim
  · rcases v with _ | v
    · exact hw.elim
    · have hW : Holds m W v := Holds.ext eb hw
      unfold addThird
      by_cases h3 : n = 3
      · simp only [Batch.GenInv.addThird, dif_pos h3] at h
        simp only [dif_pos h3]
        exact wpP_mem_bind (wp_rd_bind hW (wp_rd_bind ha.last3 (wp_put_last3 ha ia fun m' w h' => h m' (w.ext eb la) h')))
      · simp only [Batch.GenInv.addThird, dif_neg h3] at h
        simp only [dif_neg h3]
        exact h

theorem hessian_spec (g : Hel.GenInv) {S : Strain (κ × Fin n)} (hS : S.Implements g.strain) {sv : SV Z Zv}
    {M : InvMat (κ × Fin n) Z μ} {mat : Hel.InvMat (Arr (κ × Fin n)) Zv ν} (hM : M.Implements sv mat) (h3 : M.ThirdArray)
    {s : GenSt (κ × Fin n) μ} (t : ν) {L : Nd (Vec3 (Arr (κ × Fin n)))} {l : Vec3 (Arr (κ × Fin n))} {z : Z} {zv : Zv}
    (hL : Holds m L l) (hz : sv.Is m z zv) :
    wpP (hessian g S M L z) m s fun r m' _ => Ext m m' ∧
      match mat.gradient (Batch.GenInv.J1 g (Batch.GenInv.ev g l)) (Batch.GenInv.J2 g (Batch.GenInv.ev g l))
          (Batch.GenInv.J3 (Batch.GenInv.ev g l)) zv t with
      | (.error e, _) => r = .error e
      | (.ok v, t') =>
        match (mat.hessian (Batch.GenInv.J1 g (Batch.GenInv.ev g l)) (Batch.GenInv.J2 g (Batch.GenInv.ev g l))
            (Batch.GenInv.J3 (Batch.GenInv.ev g l)) zv t').1 with
        | .error e => r = .error e
        | .ok h => match Batch.GenInv.addThird (Batch.GenInv.hessA g l v h) v.d3 with
          | .error e => r = .error e
          | .ok x => ∃ R, r = .ok (.array R) ∧ Holds m' R (Batch.GenInv.hessB g l v x) := by
  unfold hessian callMat
  refine wpP_bind (wpP_mono (gradient_spec g hS hM h3 t hL hz) ?_)
  rintro r m1 s1 ⟨e1, hr⟩
  rcases hg : mat.gradient (Batch.GenInv.J1 g (Batch.GenInv.ev g l)) (Batch.GenInv.J2 g (Batch.GenInv.ev g l))
    (Batch.GenInv.J3 (Batch.GenInv.ev g l)) zv t with ⟨e | v, t'⟩ <;> rw [hg] at hr
  · subst hr
    exact ⟨e1, rfl⟩
  obtain ⟨R, z', rfl, -, -, hA⟩ := hr
  dsimp only
  replace hz := sv.ext e1 hz
  obtain ⟨dE, adE, hdE⟩ := hA.dE
  obtain ⟨d2E, ad2E, hd2E⟩ := hA.d2E
  obtain ⟨I1, aI1, hI1⟩ := hA.I1
  obtain ⟨I2, aI2, hI2⟩ := hA.I2
  obtain ⟨I3, aI3, hI3⟩ := hA.I3
  obtain ⟨w1, aw1, hw1⟩ := hA.w1
  obtain ⟨w2, aw2, hw2⟩ := hA.w2
  obtain ⟨w3, aw3, hw3, hnum⟩ := hA.w3
  obtain ⟨d1, ad1, hd1⟩ := hA.d1
  obtain ⟨d2, ad2, hd2⟩ := hA.d2
  obtain ⟨d3, ad3, hd3⟩ := hA.d3
  clear hA hL
  refine wpP_at_bind aI1 (wpP_at_bind aI2 (wpP_at_bind aI3 (wpP_bind (wpP_call (wpP_mono (hM.hess t' hI1 hI2 hI3 hz)
    fun r m2 u ⟨e2, hr⟩ => ?_)))))
  rcases hh : (mat.hessian (Batch.GenInv.J1 g (Batch.GenInv.ev g l)) (Batch.GenInv.J2 g (Batch.GenInv.ev g l))
    (Batch.GenInv.J3 (Batch.GenInv.ev g l)) zv t').1 with e | k <;> rw [hh] at hr
  · rw [hr.error]
    exact ⟨e1.trans e2, rfl⟩
  obtain ⟨h, rfl, k11, k22, k33, k12, k23, k13⟩ := hr.ok
  clear hr hz hI1 hI2 hI3
  have e0 := e1.trans e2
  replace hw1 := hw1.ext e2
  replace hw2 := hw2.ext e2
  replace hw3 := hw3.ext e2
  replace hd1 := hd1.ext e2
  replace hd2 := hd2.ext e2
  replace hd3 := hd3.ext e2
  replace hdE := hdE.ext e2
  replace hd2E := hd2E.ext e2
  refine wpP_at_bind ad1 (wpP_at_bind ad2 (wpP_at_bind ad3 (wpP_at_bind adE (wpP_at_bind ad2E ?_))))
  refine wpP_makes (makes_new _ _) fun W m3 e3 lW iW hW => ?_
  refine iaddVec_bind e3 hW lW iW k11 (fun m e => pick_wp (hd1.ext e) (hd1.ext e)) fun m3 e3 hW => ?_
  refine iaddVec_bind e3 hW lW iW k22 (fun m e => pick_wp (hd2.ext e) (hd2.ext e)) fun m3 e3 hW => ?_
  refine iaddVec_bind e3 hW lW iW k33 (fun m e => pick_wp (hd3.ext e) (hd3.ext e)) fun m3 e3 hW => ?_
  refine iaddVec_bind e3 hW lW iW k12 (fun m e => pick2_wp (hd1.ext e) (hd2.ext e)) fun m3 e3 hW => ?_
  refine iaddVec_bind e3 hW lW iW k23 (fun m e => pick2_wp (hd2.ext e) (hd3.ext e)) fun m3 e3 hW => ?_
  refine iaddVec_bind e3 hW lW iW k13 (fun m e => pick2_wp (hd1.ext e) (hd3.ext e)) fun m3 e3 hW => ?_
  refine wpP_at_bind aw1 (wpP_at_bind aw2 (wpP_at_bind aw3 ?_))
  refine iaddTail_bind e3 hW lW iW hw2 (fun m e => wp_pure ⟨rfl, rfl⟩) fun m3 e3 hW => ?_
  replace hW : Holds m3 W (Batch.GenInv.hessA g l v k) := by
    convert hW using 1
    unfold tailO Batch.GenInv.hessA
    rcases v.d2 <;> rfl
  refine addThird_bind e3 hW lW iW hw3 hnum ?_
  rcases hq : Batch.GenInv.addThird (Batch.GenInv.hessA g l v k) v.d3 with e | x
  · refine ⟨e0.trans e3, ?_⟩
    dsimp only
    rw [hq]
  dsimp only
  intro m3 e3 hW
  refine wpP_mem_bind (wp_rd_bind hW (wp_bind (wp_mono (pick_wp (hdE.ext e3) (hdE.ext e3)) ?_)))
  rintro y m' ⟨rfl, rfl⟩
  refine wp_put hW.loc iW fun m3 w hW => ?_
  replace e3 := w.ext e3 lW
  clear w
  refine iaddHead_bind e3 hW lW iW hw1 (fun m e => times_wp (hd1.ext e) (hd2E.ext e)) fun m3 e3 hW => ?_
  refine iaddHead_bind e3 hW lW iW hw2 (fun m e => times_wp (hd2.ext e) (hd2E.ext e)) fun m3 e3 hW => ?_
  refine iaddHead_bind e3 hW lW iW hw3 (fun m e => times_wp (hd3.ext e) (hd2E.ext e)) fun m3 e3 hW => ?_
  refine wpP_pure ⟨e0.trans e3, ?_⟩
  rw [hq]
  refine ⟨W, rfl, ?_⟩
  convert hW using 1
  unfold headO Batch.GenInv.hessB
  rcases v.d1 <;> rcases v.d2 <;> rcases v.d3 <;> simp only [mul_assoc]

theorem mat_implements (g : Hel.GenInv) {S : Strain (κ × Fin n)} (hS : S.Implements g.strain) {sv : SV Z Zv}
    {M : InvMat (κ × Fin n) Z μ} {m' : Hel.InvMat (Arr (κ × Fin n)) Zv ν} (hM : M.Implements sv m') (h3 : M.ThirdArray) :
    (mat g S M).Implements sv (Batch.GenInv.mat g m') where
  gradient m s t L l z zv hL hz := by
    have h := gradient_spec g hS hM h3 (s := s) t.material hL hz
    refine ⟨h.1, ?_⟩
    have h2 := h.2
    change Agree _ (gradient g S M L z (m, s)).1 (Batch.GenInv.gradient g m' l zv t).1
    rw [Batch.GenInv.gradient_run]
    rcases hg : m'.gradient (Batch.GenInv.J1 g (Batch.GenInv.ev g l)) (Batch.GenInv.J2 g (Batch.GenInv.ev g l))
      (Batch.GenInv.J3 (Batch.GenInv.ev g l)) zv t.material with ⟨e | v, t'⟩ <;> rw [hg] at h2
    · rw [h2]; rfl
    · obtain ⟨R, z', hr, h3, h4, -⟩ := h2
      rw [hr]
      exact ⟨h3, h4⟩
  hessian m s t L l z zv hL hz := by
    have h := hessian_spec g hS hM h3 (s := s) t.material hL hz
    refine ⟨h.1, ?_⟩
    have h2 := h.2
    change Agree _ (hessian g S M L z (m, s)).1 (Batch.GenInv.hessian g m' l zv t).1
    rw [Batch.GenInv.hessian_run]
    rcases hg : m'.gradient (Batch.GenInv.J1 g (Batch.GenInv.ev g l)) (Batch.GenInv.J2 g (Batch.GenInv.ev g l))
      (Batch.GenInv.J3 (Batch.GenInv.ev g l)) zv t.material with ⟨e | v, t'⟩ <;> rw [hg] at h2
    · rw [h2]; rfl
    · dsimp only at h2 ⊢
      rcases hh : m'.hessian (Batch.GenInv.J1 g (Batch.GenInv.ev g l)) (Batch.GenInv.J2 g (Batch.GenInv.ev g l))
        (Batch.GenInv.J3 (Batch.GenInv.ev g l)) zv t' with ⟨e | h, t''⟩ <;> rw [hh] at h2
      · rw [h2]; rfl
      · dsimp only at h2 ⊢
        generalize Batch.GenInv.addThird (Batch.GenInv.hessA g l v h) v.d3 = q at h2 ⊢
        rcases q with e | x
        · rw [h2]; rfl
        · obtain ⟨R, hr, h3⟩ := h2
          rw [hr]
          exact h3

end GenInv

end

end Hel.Memory
