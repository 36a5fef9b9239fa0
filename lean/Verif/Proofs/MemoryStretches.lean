import Verif.Spec.MemoryStretches
import Verif.Proofs.MemoryModels
import Verif.Proofs.BatchRun

/-! The stretch-based framework and Ogden's model on the memory. -/

namespace Hel.Memory

noncomputable section

variable {T : Type} [Encodable T] {m b : Mem} {σ μ ν Z Zv τ τ' α β : Type} [Content α] [Content β]

/-- A write to a view changes the array it is a view of. -/
theorem wp_put_view {A : Nd α} {B : Nd β} {a a' : α} {v : β} {Q : Unit → Mem → Prop} (e : Content.Ix β → Content.Ix α)
    (hl : B.loc = A.loc) (ha : ∀ x, B.addr x = A.addr (e x)) (he : Function.Injective e) (hA : Holds m A a) (hi : A.Inj)
    (h1 : ∀ x, Content.toFun a' (e x) = Content.toFun v x)
    (h2 : ∀ i, (¬ ∃ x, e x = i) → Content.toFun a' i = Content.toFun a i)
    (h : ∀ m', Wrote A m m' → Holds m' A a' → Q () m') : wp (put B v) m Q := by
  classical
  refine h _ ⟨rfl, fun l hne => ?_⟩ ⟨hA.loc, ?_⟩
  · funext k
    exact dif_neg fun h => hne (h.1.trans hl)
  · rw [← Content.left a']
    unfold Mem.read
    congr 1
    funext i
    unfold put
    dsimp only
    by_cases hx : ∃ x, e x = i
    · obtain ⟨x, rfl⟩ := hx
      have c : A.loc = B.loc ∧ ∃ j, B.addr j = A.addr (e x) := ⟨hl.symm, x, ha x⟩
      rw [dif_pos c, h1]
      congr 1
      refine he (hi ?_)
      rw [← ha]
      exact c.2.choose_spec
    · have c : ¬ (A.loc = B.loc ∧ ∃ j, B.addr j = A.addr i) := by
        rintro ⟨-, j, hj⟩
        rw [ha] at hj
        exact hx ⟨j, hi hj⟩
      rw [dif_neg c, h2 i hx, ← hA.read]
      exact (congrFun (Content.right fun i => m.cell A.loc (A.addr i)) i).symm

theorem wp_put_row {n : ℕ} {A : Nd (Fin n → α)} {a : Fin n → α} {k : Fin n} {v : α} {Q : Unit → Mem → Prop} (hA : Holds m A a)
    (hi : A.Inj) (h : ∀ m', Wrote A m m' → Holds m' A (Function.update a k v) → Q () m') : wp (put (A.row k) v) m Q := by
  refine wp_put_view (A := A) (a := a) (a' := Function.update a k v) (fun x => (k, x)) rfl (fun _ => rfl)
    (fun x y h => (Prod.mk.inj h).2) hA hi (fun x => ?_) (fun i hne => ?_) h
  · change Content.toFun (Function.update a k v k) x = _
    rw [Function.update_self]
  · change Content.toFun (Function.update a k v i.1) i.2 = Content.toFun (a i.1) i.2
    rw [Function.update_of_ne]
    rintro rfl
    exact hne ⟨i.2, rfl⟩

theorem wp_put_first3 {A : Nd (Fin 6 → α)} {a : Fin 6 → α} {v : Fin 3 → α} {Q : Unit → Mem → Prop} (hA : Holds m A a)
    (hi : A.Inj) (h : ∀ m', Wrote A m m' → Holds m' A ![v 0, v 1, v 2, a 3, a 4, a 5] → Q () m') :
    wp (put A.first3 v) m Q := by
  refine wp_put_view (A := A) (a := a) (a' := ![v 0, v 1, v 2, a 3, a 4, a 5]) (fun x => (![0, 1, 2] x.1, x.2)) rfl
    (fun _ => rfl) ?_ hA hi ?_ ?_ h
  · rintro ⟨x, x'⟩ ⟨y, y'⟩ h
    obtain ⟨h1, h2⟩ := Prod.mk.inj h
    dsimp only at h1 h2
    subst h2
    fin_cases x <;> fin_cases y <;> first | rfl | (exact absurd h1 (by decide))
  · rintro ⟨x, y⟩
    change Content.toFun ((![v 0, v 1, v 2, a 3, a 4, a 5] : Fin 6 → α) (![0, 1, 2] x)) y = Content.toFun (v x) y
    fin_cases x <;> rfl
  · rintro ⟨x, y⟩ hne
    change Content.toFun ((![v 0, v 1, v 2, a 3, a 4, a 5] : Fin 6 → α) x) y = Content.toFun (a x) y
    fin_cases x
    · exact (hne ⟨(0, y), rfl⟩).elim
    · exact (hne ⟨(1, y), rfl⟩).elim
    · exact (hne ⟨(2, y), rfl⟩).elim
    all_goals rfl

/-! ### Ogden -/

theorem ogdenLoop_spec {s : σ} (k : ℝ × ℝ → ℝ) (e : ℝ → ℝ) {L D : Nd (Vec3 (Arr T))} {l x : Vec3 (Arr T)} (eb : Ext b m)
    (hL : Holds m L l) (hLb : L.loc < b.next) (hD : Holds m D x) (lD : b.next ≤ D.loc) (iD : D.Inj) (ps : List (ℝ × ℝ)) :
    wpP (ogdenLoop k e L D ps) m s fun r m' _ => Ext b m' ∧ Agree (fun _ v => Holds m' D v) r
      (ps.foldlM (init := x) fun acc p => if p.2 = 0 then .error .zeroDivision
        else .ok fun a => acc a + Arr.const (k p) * (l a).pow (e p.2)) := by
  induction ps generalizing m x with
  | nil => exact ⟨eb, hD⟩
  | cons p ps ih =>
    unfold ogdenLoop
    rw [List.foldlM_cons]
    by_cases hp : p.2 = 0
    · rw [if_pos hp, if_pos hp]
      exact ⟨eb, rfl⟩
    · rw [if_neg hp, if_neg hp]
      refine wpP_mem_bind (wp_rd_bind hL (wp_rd_bind hD (wp_put hD.loc iD fun m' w h => ?_)))
      exact ih (w.ext eb lD) (w.holds hL (by omega)) h

theorem ogden_implements (o : Ogden) (sv : SV Z Zv) : (ogdenMat (T := T) o).Implements sv (Batch.ogdenMat o) where
  gradient m s t L l z zv hL hz := by
    have h : wpP (ogdenGradient o L z) m s fun r m' _ => Ext m m' ∧
        Agree (fun a v => Holds m' a.1 v.1 ∧ sv.Is m' a.2 v.2) r (Batch.ogdenGradient o l zv) := by
      unfold ogdenGradient Batch.ogdenGradient
      refine wpP_makes (makes_new _ _) fun D m1 e1 l1 i1 h1 => ?_
      refine wpP_bind (wpP_mono (ogdenLoop_spec (b := m) _ _ e1 (hL.ext e1) hL.loc h1 l1 i1 _) ?_)
      rintro r m2 s2 ⟨e2, h2⟩
      generalize List.foldlM (m := Res) _ _ _ = q at h2 ⊢
      rcases q with q | q
      · rw [h2.error]
        exact ⟨e2, rfl⟩
      · obtain ⟨u, rfl, hu⟩ := h2.ok
        exact ⟨e2, hu, sv.ext e2 hz⟩
    exact h
  hessian m s t L l z zv hL hz := by
    have h : wpP (ogdenHessian o L z) m s fun r m' _ => Ext m m' ∧
        Agree (fun a v => a.Is m' v) r (Batch.ogdenHessian o l zv) := by
      unfold ogdenHessian Batch.ogdenHessian
      refine wpP_makes (makes_new _ _) fun D m1 e1 l1 i1 h1 => ?_
      refine wpP_bind (wpP_mono (ogdenLoop_spec (b := m) _ _ e1 (hL.ext e1) hL.loc h1 l1 i1 _) ?_)
      rintro r m2 s2 ⟨e2, h2⟩
      generalize List.foldlM (m := Res) _ _ _ = q at h2 ⊢
      rcases q with q | q
      · rw [h2.error]
        exact ⟨e2, rfl⟩
      · obtain ⟨u, rfl, hu⟩ := h2.ok
        refine ⟨e2, fun k => ?_⟩
        fin_cases k
        exacts [Holds.row (A := D) hu 0, Holds.row (A := D) hu 1, Holds.row (A := D) hu 2, trivial, trivial, trivial]
    exact h

/-! ### Stretches -/

namespace Stretches

theorem fill_spec {A : V T} {h : Fin 6 → Option (Num T)} {v : Fin 6 → Option (Arr T)} {x : Vec6 (Arr T)} (eb : Ext b m)
    (hA : Holds m A x) (lA : b.next ≤ A.loc) (iA : A.Inj) (hh : ∀ k, Num.Is m (h k) (v k))
    (hb : ∀ k B, h k = some (.arr B) → B.loc < b.next) (as : List (Fin 6)) :
    wp (fill A h as) m fun _ m' => Ext b m' ∧ Holds m' A fun k => if k ∈ as then (v k).getD (x k) else x k := by
  induction as generalizing m x with
  | nil => exact ⟨eb, hA⟩
  | cons a as ih =>
    unfold fill
    rcases ha : h a with _ | y
    · have hv : v a = none := by
        have := hh a
        rw [ha] at this
        rcases hv : v a with _ | w
        · rfl
        · rw [hv] at this; exact this.elim
      refine wp_mono (ih eb hA hh) ?_
      rintro _ m' ⟨e, h'⟩
      refine ⟨e, ?_⟩
      convert h' using 2 with k
      by_cases hk : k = a
      · subst hk; simp [hv]
      · simp [hk]
    · obtain ⟨w, hv⟩ : ∃ w, v a = some w := by
        have := hh a
        rw [ha] at this
        rcases hv : v a with _ | w
        · rw [hv] at this; rcases y with y | y <;> exact this.elim
        · exact ⟨w, rfl⟩
      have hy : Num.Is m (some y) (some w) := by rw [← ha, ← hv]; exact hh a
      refine wp_bind (wp_rdNum hy (wp_bind (wp_put_row hA iA fun m1 w1 h1 => ?_)))
      refine wp_mono (ih (w1.ext eb lA) h1 fun k => (hh k).wrote (A := (⟨A.loc, fun _ => 0⟩ : Nd (Arr T)))
        ⟨w1.next, w1.cell⟩ fun B hB => ?_) ?_
      · have := hb k B hB
        show B.loc ≠ A.loc
        omega
      rintro _ m' ⟨e, h'⟩
      refine ⟨e, ?_⟩
      convert h' using 2 with k
      by_cases hk : k = a
      · subst hk; simp [hv]
      · simp [hk]

theorem asarray_spec {h : StrHessRef T} {v : Batch.StrHess T} (hh : h.Is m v) :
    wp (asarray h) m fun A m' => Ext m m' ∧ Holds m' A (Batch.Stretches.vec v) := by
  rcases h with A | h <;> rcases v with v | v <;> try exact hh.elim
  · exact wp_pure ⟨Ext.refl m, hh⟩
  · have hb : ∀ k B, h k = some (.arr B) → B.loc < m.next := fun k B hB => by
      have := hh k
      rw [hB] at this
      rcases hv : v k with _ | w
      · rw [hv] at this; exact this.elim
      · rw [hv] at this; exact this.loc
    refine (makes_new _ _).bind fun A m1 e1 l1 i1 h1 => wp_bind (wp_mono (fill_spec e1 h1 l1 i1
      (fun k => (hh k).ext e1) hb _) ?_)
    rintro _ m2 ⟨e2, h2⟩
    refine wp_pure ⟨e2, ?_⟩
    convert h2 using 2 with k
    simp [Batch.Stretches.vec]

theorem second_spec {H : V T} {L G : Nd (Vec3 (Arr T))} {v : Batch.StrHess T} {l g : Vec3 (Arr T)}
    (hH : Holds m H (Batch.Stretches.vec v)) (hL : Holds m L l) (hG : Holds m G (Batch.Stretches.dlC l g)) :
    Makes (second H L G) m (Batch.Stretches.d2Of l g v) := by
  refine wp_rd_bind hH (wp_rd_bind hL ((makes_new _ _).bind fun D m1 e1 l1 i1 h1 => ?_))
  have e0 := e1
  carry e1
  refine wp_rd_bind h1.first3 (wp_rd_bind hG (wp_bind (wp_put_first3 h1 i1 fun m2 w h2 => ?_)))
  exact wp_pure ⟨w.ext e0 l1, l1, i1, h2⟩

/-- one pass adds `term` -/
theorem loop_spec {L G : Nd (Vec3 (Arr T))} {M : Nd (Fin 3 → Vec6 (Arr T))} {D : V T} {A : Hel.Memory.M T} {f : Nd (Arr T)}
    {l g : Vec3 (Arr T)} {M' : Fin 3 → Vec6 (Arr T)} {d : Vec6 (Arr T)} {a : Mat6 (Arr T)} {o : Arr T} (eb : Ext b m)
    (hL : Holds m L l) (hG : Holds m G g) (hM : Holds m M M') (hD : Holds m D d) (hA : Holds m A a) (hf : Holds m f o)
    (iA : A.Inj) (jf : f.Inj) (lA : b.next ≤ A.loc) (lf : b.next ≤ f.loc) (hAf : A.loc ≠ f.loc)
    (nL : L.loc ≠ A.loc ∧ L.loc ≠ f.loc) (nG : G.loc ≠ A.loc ∧ G.loc ≠ f.loc) (nM : M.loc ≠ A.loc ∧ M.loc ≠ f.loc)
    (nD : D.loc ≠ A.loc ∧ D.loc ≠ f.loc) (ms : List (Fin 6)) :
    wp (loop L G M D A f ms) m fun _ m' => Ext b m' ∧
      Holds m' A (ms.foldl (fun acc m => fun i j => acc i j + Batch.Stretches.term l g M' d m i j) a) := by
  induction ms generalizing m a o with
  | nil => exact ⟨eb, hA⟩
  | cons k ms ih =>
    unfold loop
    rw [List.foldl_cons]
    refine (makes_dya (hM.row _) (hM.row _)).bind fun M4 m1 e1 l1 i1 h1 => ?_
    have hA0 := hA.loc
    have hf0 := hf.loc
    replace eb := eb.trans e1
    replace hL := hL.ext e1
    replace hG := hG.ext e1
    replace hM := hM.ext e1
    replace hD := hD.ext e1
    replace hA := hA.ext e1
    replace hf := hf.ext e1
    refine wp_rd_bind (hD.row _) (wp_rd_bind h1 (wp_rd_bind hA (wp_put_bind hA.loc iA fun m2 w2 h2 => ?_)))
    replace eb := w2.ext eb lA
    replace hL := w2.holds hL nL.1
    replace hG := w2.holds hG nG.1
    replace hM := w2.holds hM nM.1
    replace hD := w2.holds hD nD.1
    replace hf := w2.holds hf hAf.symm
    replace h1 := w2.holds h1 (by omega)
    clear hA
    by_cases hk : GenInv.ib k ≠ GenInv.ia k
    swap
    · rw [if_neg hk]
      refine wp_bind (wp_pure ?_)
      refine ih eb hL hG hM hD ?_ hf
      convert h2 using 2 with i j
      simp only [Batch.Stretches.term, if_neg hk]
    rw [if_pos hk]
    have hM4A : M4.loc ≠ A.loc ∧ M4.loc ≠ f.loc := ⟨by omega, by omega⟩
    have key : wp (mixed L G M D A f k M4) m2 fun _ m' => Ext b m' ∧ Holds m' L l ∧ Holds m' G g ∧ Holds m' M M' ∧
        Holds m' D d ∧ (∃ o', Holds m' f o') ∧ Holds m' A fun i j => a i j + Batch.Stretches.term l g M' d k i j := by
      clear ih
      unfold mixed
      have hA2 := h2.loc
      have hf2 := hf.loc
      have hM42 := h1.loc
      refine wp_rd_bind (hL.row _) (wp_rd_bind (hL.row _) ((makes_new _ _).bind fun v m3 e3 l3 i3 h3 => ?_))
      replace eb := eb.trans e3
      replace hL := hL.ext e3
      replace hG := hG.ext e3
      replace hM := hM.ext e3
      replace hD := hD.ext e3
      replace h2 := h2.ext e3
      replace hf := hf.ext e3
      replace h1 := h1.ext e3
      refine wp_rd_bind h3 (wp_rd_bind (hG.row _) (wp_rd_bind (hG.row _) (wp_rd_bind hf
        (wp_put_bind hf.loc jf fun m4 w4 h4 => ?_))))
      replace eb := w4.ext eb lf
      replace hL := w4.holds hL nL.2
      replace hG := w4.holds hG nG.2
      replace hM := w4.holds hM nM.2
      replace hD := w4.holds hD nD.2
      replace h2 := w4.holds h2 hAf
      replace h1 := w4.holds h1 hM4A.2
      clear hf h3 i3
      refine wp_rd_bind (hD.row _) (wp_rd_bind (hD.row _) (wp_rd_bind h4 (wp_put_bind h4.loc jf fun m5 w5 h5 => ?_)))
      replace eb := w5.ext eb lf
      replace hL := w5.holds hL nL.2
      replace hG := w5.holds hG nG.2
      replace hM := w5.holds hM nM.2
      replace hD := w5.holds hD nD.2
      replace h2 := w5.holds h2 hAf
      replace h1 := w5.holds h1 hM4A.2
      refine (makes_cdya false (hM.row _) (hM.row _)).bind fun c m6 e6 l6 i6 h6 => ?_
      replace eb := eb.trans e6
      replace hL := hL.ext e6
      replace hG := hG.ext e6
      replace hM := hM.ext e6
      replace hD := hD.ext e6
      replace h2 := h2.ext e6
      replace h5 := h5.ext e6
      replace h1 := h1.ext e6
      refine wp_rd_bind h6 (wp_rd_bind (hD.row _) (wp_rd_bind h1.swap01 (wp_rd_bind h5 (wp_rd_bind h2
        (wp_put h2.loc iA fun m7 w7 h7 => ?_)))))
      refine ⟨w7.ext eb lA, w7.holds hL nL.1, w7.holds hG nG.1, w7.holds hM nM.1, w7.holds hD nD.1,
        ⟨_, w7.holds h5 hAf.symm⟩, ?_⟩
      convert h7 using 1
      funext i j
      simp only [Batch.Stretches.term, if_pos hk]
      rw [← add_assoc]
      congr 3
      congr 1
      funext p
      unfold Batch.Stretches.divided
      split_ifs <;> rfl
    refine wp_bind (wp_mono key ?_)
    rintro _ m3 ⟨eb, hL, hG, hM, hD, ⟨o', hf⟩, hA⟩
    exact ih eb hL hG hM hD hA hf

/-- The attributes after a successful `gradient`. -/
structure After (m : Mem) (s : StrSt T μ) (x : Vec3 (Arr T)) (X : Fin 3 → Vec6 (Arr T)) (g : Vec3 (Arr T)) : Prop where
  l : ∃ A, s.l = some A ∧ Holds m A x
  M : ∃ A, s.M = some A ∧ Holds m A X
  dWdlC : ∃ A, s.dWdlC = some A ∧ Holds m A (Batch.Stretches.dlC x g)

theorem StrMat.Implements.grad {sv : SV Z Zv} {M : StrMat T Z μ} {mat : Batch.StrMat T Zv ν} (h : M.Implements sv mat)
    {s : μ} (t : ν) {L : Nd (Vec3 (Arr T))} {l : Vec3 (Arr T)} {z : Z} {zv : Zv} (hL : Holds m L l) (hz : sv.Is m z zv) :
    wpP (M.gradient L z) m s fun r m' _ => Ext m m' ∧
      Agree (fun a v => Holds m' a.1 v.1 ∧ sv.Is m' a.2 v.2) r (mat.gradient l zv t).1 :=
  h.gradient m s t L l z zv hL hz

theorem StrMat.Implements.hess {sv : SV Z Zv} {M : StrMat T Z μ} {mat : Batch.StrMat T Zv ν} (h : M.Implements sv mat)
    {s : μ} (t : ν) {L : Nd (Vec3 (Arr T))} {l : Vec3 (Arr T)} {z : Z} {zv : Zv} (hL : Holds m L l) (hz : sv.Is m z zv) :
    wpP (M.hessian L z) m s fun r m' _ => Ext m m' ∧ Agree (fun a v => a.Is m' v) r (mat.hessian l zv t).1 :=
  h.hessian m s t L l z zv hL hz

theorem gradient_spec (lapack : Eigh) {sv : SV Z Zv} {M : StrMat T Z μ} {mat : Batch.StrMat T Zv ν} (hM : M.Implements sv mat)
    {s : StrSt T μ} (t : ν) {C : V T} {c : Vec6 (Arr T)} {z : Z} {zv : Zv} (hC : Holds m C c) (hz : sv.Is m z zv) :
    wpP (gradient lapack M C z) m s fun r m' s' => Ext m m' ∧
      match (mat.gradient (Batch.eighSqrt lapack c).1 zv t).1 with
      | .error e => r = .error e
      | .ok v => ∃ R z', r = .ok (R, z') ∧
          Holds m' R (Batch.Stretches.gradPure (Batch.eighSqrt lapack c).1 (Batch.eighSqrt lapack c).2 v.1) ∧
          sv.Is m' z' v.2 ∧ After m' s' (Batch.eighSqrt lapack c).1 (Batch.eighSqrt lapack c).2 v.1 := by
  unfold gradient callMat eighSqrt
  refine wpP_mem_bind (wp_rd_bind hC ((makes_new _ _).bind fun L m1 e1 l1 i1 h1 => ?_))
  have e0 := e1
  replace hz := sv.ext e1 hz
  carry e1
  refine (makes_new _ _).bind fun X m2 e2 l2 i2 h2 => wp_pure ?_
  replace hz := sv.ext e2 hz
  carry e2
  refine wpP_set_bind (wpP_at_bind rfl ?_)
  refine wpP_bind (wpP_call (wpP_mono (StrMat.Implements.grad hM t h1 hz) fun r m5 u ⟨e5, hr⟩ => ?_))
  rcases hg : (mat.gradient (Batch.eighSqrt lapack c).1 zv t).1 with e | v <;> rw [hg] at hr
  · rw [hr.error]
    exact ⟨e0.trans e5, rfl⟩
  obtain ⟨⟨g, z'⟩, rfl, k1, hz'⟩ := hr.ok
  clear hr hz
  carry e5
  refine wpP_set_bind (wpP_at_bind rfl (wpP_at_bind rfl ?_))
  have q : Makes (do
      let g ← rd g
      let x ← rd L
      new (fun a => g a / (2 * x a) : Vec3 (Arr T))) m5 (Batch.Stretches.dlC (Batch.eighSqrt lapack c).1 v.1) :=
    wp_rd_bind k1 (wp_rd_bind h1 (makes_new _ _))
  refine wpP_makes q fun G m6 e6 l6 i6 h6 => wpP_set_bind (wpP_at_bind rfl (wpP_at_bind rfl ?_))
  clear q
  replace hz' := sv.ext e6 hz'
  carry e6
  have q : Makes (do
      let g ← rd G
      let M ← rd X
      new (fun i => ∑ a, g a * M a i : Vec6 (Arr T))) m6
      (Batch.Stretches.gradPure (Batch.eighSqrt lapack c).1 (Batch.eighSqrt lapack c).2 v.1) :=
    wp_rd_bind h6 (wp_rd_bind h2 (makes_new _ _))
  refine wpP_makes q fun R m7 e7 l7 i7 h7 => ?_
  clear q
  replace hz' := sv.ext e7 hz'
  carry e7
  exact wpP_pure ⟨e0, R, z', rfl, h7, hz', ⟨L, rfl, h1⟩, ⟨X, rfl, h2⟩, ⟨G, rfl, h6⟩⟩

theorem hessian_spec (lapack : Eigh) {sv : SV Z Zv} {M : StrMat T Z μ} {mat : Batch.StrMat T Zv ν} (hM : M.Implements sv mat)
    {s : StrSt T μ} (t : ν) {C : V T} {c : Vec6 (Arr T)} {z : Z} {zv : Zv} (hC : Holds m C c) (hz : sv.Is m z zv) :
    wpP (hessian lapack M C z) m s fun r m' _ => Ext m m' ∧
      match mat.gradient (Batch.eighSqrt lapack c).1 zv t with
      | (.error e, _) => r = .error e
      | (.ok v, t') =>
        match (mat.hessian (Batch.eighSqrt lapack c).1 v.2 t').1 with
        | .error e => r = .error e
        | .ok h => ∃ R, r = .ok R ∧ Holds m' R
            (Batch.Stretches.hessPure (Batch.eighSqrt lapack c).1 (Batch.eighSqrt lapack c).2 v.1 h) := by
  unfold hessian callMat
  refine wpP_bind (wpP_mono (gradient_spec lapack hM t hC hz) ?_)
  rintro r m1 s1 ⟨e1, hr⟩
  rcases hg : mat.gradient (Batch.eighSqrt lapack c).1 zv t with ⟨e | v, t'⟩ <;> rw [hg] at hr
  · subst hr
    exact ⟨e1, rfl⟩
  obtain ⟨R, z', rfl, -, hz', hA⟩ := hr
  dsimp only
  clear hz
  obtain ⟨L, aL, hL⟩ := hA.l
  obtain ⟨X, aX, hX⟩ := hA.M
  obtain ⟨G, aG, hG⟩ := hA.dWdlC
  clear hA
  refine wpP_at_bind aL (wpP_bind (wpP_call (wpP_mono (StrMat.Implements.hess hM t' hL hz') fun r m2 u ⟨e2, hr⟩ => ?_)))
  rcases hh : (mat.hessian (Batch.eighSqrt lapack c).1 v.2 t').1 with e | h <;> rw [hh] at hr
  · rw [hr.error]
    exact ⟨e1.trans e2, rfl⟩
  obtain ⟨H, rfl, hH⟩ := hr.ok
  clear hr hz' hC
  have := e1.next
  carry e2
  refine wpP_mem_bind (wp_mono (asarray_spec hH) ?_)
  rintro A m3 ⟨e3, hA⟩
  carry e3
  refine wpP_at_bind aL (wpP_at_bind aX (wpP_at_bind aG (wpP_mem ?_)))
  refine (second_spec hA hL hG).bind fun D m4 e4 l4 i4 hD => ?_
  carry e4
  refine (makes_new _ _).bind fun Z m5 e5 l5 i5 hZ => ?_
  carry e5
  refine (makes_new _ _).bind fun f m6 e6 l6 i6 hf => ?_
  carry e6
  refine wp_bind (wp_mono (loop_spec (b := m) e1 hL hG hX hD hZ hf i5 i6 (by omega) (by omega) (by omega)
    ⟨by omega, by omega⟩ ⟨by omega, by omega⟩ ⟨by omega, by omega⟩ ⟨by omega, by omega⟩ _) ?_)
  rintro _ m7 ⟨e7, h7⟩
  rw [Batch.Stretches.foldl_term] at h7
  exact wp_pure ⟨e7, Z, rfl, h7⟩

theorem material_implements (lapack : Eigh) {sv : SV Z Zv} {M : StrMat T Z μ} {mat : Batch.StrMat T Zv ν}
    (hM : M.Implements sv mat) : (material lapack M).Implements sv (Batch.Stretches.material lapack mat) where
  gradient m s t C c z zv hC hz := by
    have h := gradient_spec lapack hM (s := s) t.material hC hz
    refine ⟨h.1, ?_⟩
    have h2 := h.2
    change Agree _ (gradient lapack M C z (m, s)).1 (Batch.Stretches.gradient lapack mat c zv t).1
    rw [Batch.Stretches.gradient_run]
    rcases hg : mat.gradient (Batch.eighSqrt lapack c).1 zv t.material with ⟨e | v, t'⟩ <;> rw [hg] at h2
    · rw [h2]; rfl
    · obtain ⟨R, z', hr, h3, h4, -⟩ := h2
      rw [hr]
      exact ⟨h3, h4⟩
  hessian m s t C c z zv hC hz := by
    have h := hessian_spec lapack hM (s := s) t.material hC hz
    refine ⟨h.1, ?_⟩
    have h2 := h.2
    change Agree _ (hessian lapack M C z (m, s)).1 (Batch.Stretches.hessian lapack mat c zv t).1
    rw [Batch.Stretches.hessian_run]
    rcases hg : mat.gradient (Batch.eighSqrt lapack c).1 zv t.material with ⟨e | v, t'⟩ <;> rw [hg] at h2
    · rw [h2]; rfl
    · dsimp only at h2 ⊢
      rcases hh : mat.hessian (Batch.eighSqrt lapack c).1 v.2 t' with ⟨e | h, t''⟩ <;> rw [hh] at h2
      · rw [h2]; rfl
      · obtain ⟨R, hr, h3⟩ := h2
        rw [hr]
        exact h3

end Stretches

end

end Hel.Memory
