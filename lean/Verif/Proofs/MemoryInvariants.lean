import Verif.Proofs.MemorySpaces
import Verif.Proofs.Invariants

/-! The invariant-based framework on the memory. -/

namespace Hel.Memory

noncomputable section

variable {T : Type} [Encodable T] {m : Mem} {σ μ ν Z Zv τ τ' : Type}

theorem Num.Is.ext {m' : Mem} (e : Ext m m') {x : Option (Num T)} {v : Option (Arr T)} (h : Num.Is m x v) :
    Num.Is m' x v := by
  rcases x with _ | x | A <;> rcases v with _ | v <;> try exact h
  exact Holds.ext e h

theorem wp_rdNum {x : Num T} {v : Arr T} {Q : Arr T → Mem → Prop} (h : Num.Is m (some x) (some v)) (hQ : Q v m) :
    wp (rdNum x) m Q := by
  rcases x with x | A
  · rw [show v = Arr.const x from h] at hQ
    exact wp_pure hQ
  · exact wp_rd h hQ

theorem InvMat.Implements.grad {sv : SV Z Zv} {M : InvMat T Z μ} {mat : Hel.InvMat (Arr T) Zv ν}
    (h : M.Implements sv mat) {m : Mem} {s : μ} (t : ν) {A B C : Nd (Arr T)} {a b c : Arr T} {z : Z} {zv : Zv}
    (hA : Holds m A a) (hB : Holds m B b) (hC : Holds m C c) (hz : sv.Is m z zv) :
    wpP (M.gradient A B C z) m s fun r m' _ => Ext m m' ∧
      Agree (fun r v => Num.Is m' r.d1 v.d1 ∧ Num.Is m' r.d2 v.d2 ∧ Num.Is m' r.d3 v.d3 ∧ sv.Is m' r.sv v.sv)
        r (mat.gradient a b c zv t).1 :=
  h.gradient m s t A B C a b c z zv hA hB hC hz

theorem InvMat.Implements.hess {sv : SV Z Zv} {M : InvMat T Z μ} {mat : Hel.InvMat (Arr T) Zv ν}
    (h : M.Implements sv mat) {m : Mem} {s : μ} (t : ν) {A B C : Nd (Arr T)} {a b c : Arr T} {z : Z} {zv : Zv}
    (hA : Holds m A a) (hB : Holds m B b) (hC : Holds m C c) (hz : sv.Is m z zv) :
    wpP (M.hessian A B C z) m s fun r m' _ => Ext m m' ∧
      Agree (fun r v => Num.Is m' r.h11 v.h11 ∧ Num.Is m' r.h22 v.h22 ∧ Num.Is m' r.h33 v.h33 ∧ Num.Is m' r.h12 v.h12 ∧
          Num.Is m' r.h23 v.h23 ∧ Num.Is m' r.h13 v.h13)
        r (mat.hessian a b c zv t).1 :=
  h.hessian m s t A B C a b c z zv hA hB hC hz

namespace Invariants

theorem makes_addVec {acc x : V T} {a v : Vec6 (Arr T)} {w : Num T} {u : Arr T} (ha : Holds m acc a)
    (hw : Num.Is m (some w) (some u)) (hx : Holds m x v) : Makes (addVec acc w x) m fun i => a i + u * v i :=
  wp_rd_bind ha (wp_bind (wp_rdNum hw (wp_rd_bind hx (makes_new _ _))))

theorem makes_addMat {acc x : M T} {a v : Mat6 (Arr T)} {w : Num T} {u : Arr T} (ha : Holds m acc a)
    (hw : Num.Is m (some w) (some u)) (hx : Holds m x v) : Makes (addMat acc w x) m fun i j => a i j + u * v i j :=
  wp_rd_bind ha (wp_bind (wp_rdNum hw (wp_rd_bind hx (makes_new _ _))))

theorem makes_dyaSum {A B : V T} {a b : Vec6 (Arr T)} (hA : Holds m A a) (hB : Holds m B b) :
    Makes (dyaSum A B) m (Hel.Invariants.dyaSum a b) := by
  refine (makes_dya hA hB).bind fun X n1 g1 _ _ x1 => ?_
  have b := g1
  carry g1
  refine wp_rd_bind x1 ((makes_dya hB hA).bind fun Y n2 g2 _ _ x2 => ?_)
  carry g2
  refine wp_rd_bind x2 (wp_mono (makes_new _ _) ?_)
  rintro R n3 ⟨g3, _, i, k⟩
  carry g3
  exact ⟨b, by omega, i, k⟩

/-- A method step with an explicit state after it. -/
theorem term1_spec {s : InvSt T μ} {I acc : V T} {a : Vec6 (Arr T)} {d : Option (Num T)} {v : Option (Arr T)}
    (hs : s.dWdI1 = some d) (hd : Num.Is m d v) (hI : Holds m I Hel.eye) (ha : Holds m acc a) :
    wpP (term1 I acc) m s fun r m' s' => Ext m m' ∧ (∃ R, r = .ok R ∧ Holds m' R fun i => a i + v.getD 0 * Hel.eye i) ∧
      s' = { s with dI1dC := v.elim s.dI1dC fun _ => some I } := by
  unfold term1
  refine wpP_at_bind hs ?_
  rcases d with _ | w <;> rcases v with _ | u
  · exact wpP_pure ⟨Ext.refl m, ⟨acc, rfl, by simpa using ha⟩, rfl⟩
  · exact hd.elim
  · rcases w with w | w <;> exact hd.elim
  · refine wpP_set_bind (wpP_at_bind rfl (wpP_mem (wp_mono (makes_addVec ha hd hI) ?_)))
    rintro R m' ⟨e, _, _, h⟩
    exact ⟨e, ⟨R, rfl, h⟩, rfl⟩

theorem term2_spec {s : InvSt T μ} {C I acc : V T} {I1 : Nd (Arr T)} {i1 : Arr T} {c a : Vec6 (Arr T)}
    {d : Option (Num T)} {v : Option (Arr T)} (hs : s.dWdI2 = some d) (hd : Num.Is m d v) (hC : Holds m C c)
    (hI : Holds m I Hel.eye) (h1 : Holds m I1 i1) (ha : Holds m acc a) :
    wpP (term2 C I I1 acc) m s fun r m' s' => Ext m m' ∧
      (∃ R, r = .ok R ∧ Holds m' R fun i => a i + v.getD 0 * (i1 * Hel.eye i - c i)) ∧
      ∃ X, s' = { s with dI2dC := v.elim s.dI2dC fun _ => some X } ∧
        (v ≠ none → Holds m' X fun i => i1 * Hel.eye i - c i) := by
  unfold term2
  refine wpP_at_bind hs ?_
  rcases d with _ | w <;> rcases v with _ | u
  · exact wpP_pure ⟨Ext.refl m, ⟨acc, rfl, by simpa using ha⟩, C, rfl, fun h => (h rfl).elim⟩
  · exact hd.elim
  · rcases w with w | w <;> exact hd.elim
  · have q : Makes (do
        let i1 ← rd I1
        let i ← rd I
        let c ← rd C
        new (fun a => i1 * i a - c a : Vec6 (Arr T))) m (fun i => i1 * Hel.eye i - c i) :=
      wp_rd_bind h1 (wp_rd_bind hI (wp_rd_bind hC (makes_new _ _)))
    refine wpP_makes q fun X m1 e1 l1 i1 hX => ?_
    replace hd := hd.ext e1
    have e := e1
    carry e1
    refine wpP_set_bind (wpP_at_bind rfl (wpP_mem (wp_mono (makes_addVec ha hd hX) ?_)))
    rintro R m' ⟨e', _, _, h⟩
    exact ⟨e.trans e', ⟨R, rfl, h⟩, X, rfl, fun _ => hX.ext e'⟩

theorem term3_spec {s : InvSt T μ} {C acc : V T} {I3 : Nd (Arr T)} {i3 : Arr T} {c a : Vec6 (Arr T)}
    {d : Option (Num T)} {v : Option (Arr T)} (hs : s.dWdI3 = some d) (hs3 : s.I3 = some I3) (hd : Num.Is m d v)
    (hC : Holds m C c) (h3 : Holds m I3 i3) (ha : Holds m acc a) :
    wpP (term3 C I3 acc) m s fun r m' s' => Ext m m' ∧
      (∃ R, r = .ok R ∧ Holds m' R fun i => a i + v.getD 0 * (i3 * Hel.inv c (some i3) i)) ∧
      ∃ Y X, s' = { s with invC := v.elim s.invC fun _ => some Y, dI3dC := v.elim s.dI3dC fun _ => some X } ∧
        (v ≠ none → Holds m' Y (Hel.inv c (some i3)) ∧ Holds m' X fun i => i3 * Hel.inv c (some i3) i) := by
  unfold term3
  refine wpP_at_bind hs ?_
  rcases d with _ | w <;> rcases v with _ | u
  · exact wpP_pure ⟨Ext.refl m, ⟨acc, rfl, by simpa using ha⟩, C, C, rfl, fun h => (h rfl).elim⟩
  · exact hd.elim
  · rcases w with w | w <;> exact hd.elim
  · refine wpP_at_bind hs3 (wpP_makes (makes_inv hC (D := some I3) (d := some _) h3) fun Y m1 e1 l1 i1 hY => ?_)
    replace hd := hd.ext e1
    have e := e1
    carry e1
    refine wpP_set_bind ?_
    have q : Makes (do
        let i3 ← rd I3
        let i ← rd Y
        new (fun a => i3 * i a : Vec6 (Arr T))) m1 (fun i => i3 * Hel.inv c (some i3) i) :=
      wp_rd_bind h3 (wp_rd_bind hY (makes_new _ _))
    refine wpP_makes q fun X m2 e2 l2 i2 hX => ?_
    clear q
    replace hd := hd.ext e2
    carry e2
    refine wpP_set_bind (wpP_at_bind rfl (wpP_mem (wp_mono (makes_addVec ha hd hX) ?_)))
    rintro R m' ⟨e', _, _, h⟩
    exact ⟨e.trans e', ⟨R, rfl, h⟩, Y, X, rfl, fun _ => ⟨hY.ext e', hX.ext e'⟩⟩

theorem elim_ne {α β : Type} {o : Option α} {a b : β} (h : o ≠ none) : (o.elim a fun _ => b) = b := by
  cases o
  · exact (h rfl).elim
  · rfl

/-- The attributes after a successful `gradient`. -/
structure After (m : Mem) (s : InvSt T μ) (c : Vec6 (Arr T)) (v : InvGrad (Arr T) Zv) : Prop where
  I : ∃ A, s.I = some A ∧ Holds m A Hel.eye
  I1 : ∃ A, s.I1 = some A ∧ Holds m A (Hel.trace c)
  I2 : ∃ A, s.I2 = some A ∧ Holds m A ((Hel.trace c ^ 2 - Hel.ddot c c) / 2)
  I3 : ∃ A, s.I3 = some A ∧ Holds m A (Hel.det c)
  d1 : ∃ d, s.dWdI1 = some d ∧ Num.Is m d v.d1
  d2 : ∃ d, s.dWdI2 = some d ∧ Num.Is m d v.d2
  d3 : ∃ d, s.dWdI3 = some d ∧ Num.Is m d v.d3
  x1 : v.d1 ≠ none → ∃ A, s.dI1dC = some A ∧ Holds m A Hel.eye
  x2 : v.d2 ≠ none → ∃ A, s.dI2dC = some A ∧ Holds m A fun i => Hel.trace c * Hel.eye i - c i
  iC : v.d3 ≠ none → ∃ A, s.invC = some A ∧ Holds m A (Hel.inv c (some (Hel.det c)))
  x3 : v.d3 ≠ none → ∃ A, s.dI3dC = some A ∧ Holds m A fun i => Hel.det c * Hel.inv c (some (Hel.det c)) i

theorem gradient_spec {sv : SV Z Zv} {M : InvMat T Z μ} {mat : Hel.InvMat (Arr T) Zv ν} (hM : M.Implements sv mat)
    {s : InvSt T μ} (t : ν) {C : V T} {c : Vec6 (Arr T)} {z : Z} {zv : Zv} (hC : Holds m C c) (hz : sv.Is m z zv) :
    wpP (gradient M C z) m s fun r m' s' => Ext m m' ∧
      match (mat.gradient (Hel.trace c) ((Hel.trace c ^ 2 - Hel.ddot c c) / 2) (Hel.det c) zv t).1 with
      | .error e => r = .error e
      | .ok v => ∃ R z', r = .ok (R, z') ∧ Holds m' R (Hel.Invariants.gradPure c v) ∧ sv.Is m' z' v.sv ∧ After m' s' c v := by
  unfold gradient callMat
  refine wpP_makes makes_eye fun I m1 e1 l1 i1 hI => wpP_set_bind ?_
  have e0 := e1
  replace hz := sv.ext e1 hz
  carry e1
  refine wpP_makes (makes_trace hC) fun I1 m2 e2 l2 i2 h1 => wpP_set_bind ?_
  replace hz := sv.ext e2 hz
  carry e2
  have q : Makes (do
      let i ← rd I1
      let d ← rd (← ddot C C)
      new ((i ^ 2 - d) / 2)) m2 ((Hel.trace c ^ 2 - Hel.ddot c c) / 2) := by
    refine wp_rd_bind h1 ((makes_ddot hC hC).bind fun X n1 g1 _ _ x1 => ?_)
    have b := g1
    carry g1
    refine wp_rd_bind x1 (wp_mono (makes_new _ _) ?_)
    rintro R n3 ⟨g3, _, i, k⟩
    carry g3
    exact ⟨b, by omega, i, k⟩
  refine wpP_makes q fun I2 m3 e3 l3 i3 h2 => wpP_set_bind ?_
  clear q
  replace hz := sv.ext e3 hz
  carry e3
  refine wpP_makes (makes_det hC) fun I3 m4 e4 l4 i4 h3 =>
    wpP_set_bind (wpP_at_bind rfl (wpP_at_bind rfl (wpP_at_bind rfl ?_)))
  replace hz := sv.ext e4 hz
  carry e4
  refine wpP_bind (wpP_call (wpP_mono (hM.grad t h1 h2 h3 hz) fun r m5 u ⟨e5, hr⟩ => ?_))
  rcases hg : (mat.gradient (Hel.trace c) ((Hel.trace c ^ 2 - Hel.ddot c c) / 2) (Hel.det c) zv t).1 with e | v <;>
    rw [hg] at hr
  · rw [hr.error]
    exact ⟨e0.trans e5, rfl⟩
  obtain ⟨g, rfl, k1, k2, k3, hz'⟩ := hr.ok
  clear hr hz
  carry e5
  refine wpP_set_bind (wpP_makes (makes_new _ _) fun acc m6 e6 l6 i6 ha => ?_)
  replace hz' := sv.ext e6 hz'
  replace k1 := k1.ext e6
  replace k2 := k2.ext e6
  replace k3 := k3.ext e6
  carry e6
  refine wpP_bind (wpP_mono (term1_spec rfl k1 hI ha) ?_)
  rintro r7 m7 s7 ⟨e7, ⟨R1, rfl, hR1⟩, rfl⟩
  replace hz' := sv.ext e7 hz'
  replace k1 := k1.ext e7
  replace k2 := k2.ext e7
  replace k3 := k3.ext e7
  carry e7
  refine wpP_bind (wpP_mono (term2_spec rfl k2 hC hI h1 hR1) ?_)
  rintro r8 m8 s8 ⟨e8, ⟨R2, rfl, hR2⟩, X2, rfl, hX2⟩
  replace hz' := sv.ext e8 hz'
  replace k1 := k1.ext e8
  replace k2 := k2.ext e8
  replace k3 := k3.ext e8
  carry e8
  refine wpP_bind (wpP_mono (term3_spec rfl rfl k3 hC h3 hR2) ?_)
  rintro r9 m9 s9 ⟨e9, ⟨R3, rfl, hR3⟩, Y3, X3, rfl, hX3⟩
  replace hz' := sv.ext e9 hz'
  replace k1 := k1.ext e9
  replace k2 := k2.ext e9
  replace k3 := k3.ext e9
  replace hX2 := fun h => (hX2 h).ext e9
  carry e9
  refine wpP_pure ⟨e0, R3, g.sv, rfl, ?_, hz', ?_⟩
  · have hv : Hel.Invariants.gradPure c v = fun i => 0 + v.d1.getD 0 * Hel.eye i +
        v.d2.getD 0 * (Hel.trace c * Hel.eye i - c i) +
        v.d3.getD 0 * (Hel.det c * Hel.inv c (some (Hel.det c)) i) := by
      funext i
      rw [Hel.Invariants.gradPure, zero_add]
    rw [hv]
    exact hR3
  · refine ⟨⟨I, rfl, hI⟩, ⟨I1, rfl, h1⟩, ⟨I2, rfl, h2⟩, ⟨I3, rfl, h3⟩, ⟨_, rfl, k1⟩, ⟨_, rfl, k2⟩, ⟨_, rfl, k3⟩,
      fun h => ⟨I, elim_ne h, hI⟩, fun h => ⟨X2, elim_ne h, hX2 h⟩, fun h => ⟨Y3, elim_ne h, (hX3 h).1⟩,
      fun h => ⟨X3, elim_ne h, (hX3 h).2⟩⟩

theorem wpP_local_bind {a : τ} {f : τ → PyM (Mem × σ) τ'} {s : σ} {Q : Res τ' → Mem → σ → Prop}
    (h : wpP (f a) m s Q) : wpP (PyM.localVar (some a) >>= f) m s Q := h

theorem addTerm_spec {s : σ} {acc : M T} {a : Mat6 (Arr T)} {k d : Option (Num T)} {kv dv : Option (Arr T)}
    {X Y : Option (V T)} {x y : Option (Vec6 (Arr T))} {op : V T → V T → MemM (M T)}
    {opv : Vec6 (Arr T) → Vec6 (Arr T) → Mat6 (Arr T)} (ha : Holds m acc a) (hk : Num.Is m k kv) (hd : Num.Is m d dv)
    (hX : HoldsO m X x) (hY : HoldsO m Y y)
    (hop : ∀ m X Y x y, Holds m X x → Holds m Y y → Makes (op X Y) m (opv x y)) :
    wpP (addTerm acc k d X Y op) m s fun r m' _ => Ext m m' ∧
      Agree (fun A v => Holds m' A v) r (Hel.Invariants.addTermRes a kv dv x y opv) := by
  have ok : ∀ {o : Option (Num T)} {v : Option (Arr T)}, Num.Is m o v → (o = none ↔ v = none) := by
    intro o v h
    rcases o with _ | o | o <;> rcases v with _ | v <;> simp_all [Num.Is]
  rcases k with _ | k
  · obtain rfl := (ok hk).1 rfl
    exact wpP_pure ⟨Ext.refl m, ha⟩
  rcases kv with _ | kv
  · exact absurd ((ok hk).2 rfl) (by simp)
  unfold addTerm
  rcases X with _ | X <;> rcases x with _ | x <;> try exact hX.elim
  · exact ⟨Ext.refl m, rfl⟩
  rcases Y with _ | Y <;> rcases y with _ | y <;> try exact hY.elim
  · exact ⟨Ext.refl m, rfl⟩
  dsimp only
  refine wpP_local_bind (wpP_local_bind ?_)
  refine wpP_makes (hop m X Y x y hX hY) fun t m1 e1 _ _ ht => ?_
  have e := e1
  rcases d with _ | d
  · obtain rfl := (ok hd).1 rfl
    exact ⟨e, rfl⟩
  rcases dv with _ | dv
  · exact absurd ((ok hd).2 rfl) (by simp)
  replace hd := hd.ext e1
  replace ha := ha.ext e1
  refine wpP_mem (wp_mono (makes_addMat ha hd ht) ?_)
  rintro R m2 ⟨e2, _, _, h⟩
  exact ⟨e.trans e2, h⟩

theorem local1_spec {s : InvSt T μ} {c : Vec6 (Arr T)} {v : InvGrad (Arr T) Zv} (h : After m s c v) :
    wpP local1 m s fun r m' s' => m' = m ∧ s' = s ∧ ∃ R, r = .ok R ∧ HoldsO m R (Hel.Invariants.loc v.d1 Hel.eye) := by
  obtain ⟨d, hd, hn⟩ := h.d1
  unfold local1
  refine wpP_at_bind hd ?_
  rcases d with _ | w
  · rcases hv : v.d1 with _ | u <;> rw [hv] at hn
    · exact ⟨rfl, rfl, none, rfl, trivial⟩
    · exact hn.elim
  · rcases hv : v.d1 with _ | u <;> rw [hv] at hn
    · rcases w with w | w <;> exact hn.elim
    · obtain ⟨A, hA, hA'⟩ := h.x1 (by rw [hv]; simp)
      exact wpP_at_bind hA (wpP_pure ⟨rfl, rfl, some A, rfl, hA'⟩)

theorem local2_spec {s : InvSt T μ} {c : Vec6 (Arr T)} {v : InvGrad (Arr T) Zv} {I : V T} {acc : M T}
    {a : Mat6 (Arr T)} (h : After m s c v) (hI : Holds m I Hel.eye) (ha : Holds m acc a) :
    wpP (local2 I acc) m s fun r m' s' => Ext m m' ∧ s' = s ∧ ∃ X R, r = .ok (X, R) ∧
      HoldsO m' X (Hel.Invariants.loc v.d2 fun i => Hel.trace c * Hel.eye i - c i) ∧
      Holds m' R fun i j => a i j + v.d2.getD 0 * (Hel.dya Hel.eye Hel.eye i j - Hel.cdyaSelf Hel.eye i j) := by
  obtain ⟨d, hd, hn⟩ := h.d2
  unfold local2
  refine wpP_at_bind hd ?_
  rcases d with _ | w
  · rcases hv : v.d2 with _ | u <;> rw [hv] at hn
    · refine ⟨Ext.refl m, rfl, none, acc, rfl, trivial, ?_⟩
      simpa using ha
    · exact hn.elim
  · rcases hv : v.d2 with _ | u <;> rw [hv] at hn
    · rcases w with w | w <;> exact hn.elim
    · obtain ⟨A, hA, hA'⟩ := h.x2 (by rw [hv]; simp)
      have q : Makes (do
          let x ← rd (← dya I I none)
          let y ← rd (← cdya true I I none)
          new (fun a b => x a b - y a b : Mat6 (Arr T))) m
            fun i j => Hel.dya Hel.eye Hel.eye i j - Hel.cdyaSelf Hel.eye i j := by
        refine (makes_dya hI hI).bind fun X n1 g1 _ _ x1 => ?_
        have b := g1
        carry g1
        refine wp_rd_bind x1 ((makes_cdyaSelf hI).bind fun Y n2 g2 _ _ x2 => ?_)
        carry g2
        refine wp_rd_bind x2 (wp_mono (makes_new _ _) ?_)
        rintro R n3 ⟨g3, _, i, k⟩
        carry g3
        exact ⟨b, by omega, i, k⟩
      refine wpP_at_bind hA (wpP_makes q fun t m1 e1 _ _ ht => ?_)
      clear q
      have e := e1
      replace hn := hn.ext e1
      carry e1
      refine wpP_makes (makes_addMat ha hn ht) fun R m2 e2 _ _ hR => ?_
      carry e2
      exact wpP_pure ⟨e, rfl, some A, R, rfl, hA', hR⟩

theorem local3_spec {s : InvSt T μ} {c : Vec6 (Arr T)} {v : InvGrad (Arr T) Zv} {acc : M T}
    {a : Mat6 (Arr T)} (h : After m s c v) (ha : Holds m acc a) :
    wpP (local3 acc) m s fun r m' s' => Ext m m' ∧ s' = s ∧ ∃ X R, r = .ok (X, R) ∧
      HoldsO m' X (Hel.Invariants.loc v.d3 fun i => Hel.det c * Hel.inv c (some (Hel.det c)) i) ∧
      Holds m' R fun i j => a i j + v.d3.getD 0 * (Hel.det c * (Hel.dya (Hel.inv c (some (Hel.det c)))
        (Hel.inv c (some (Hel.det c))) i j - Hel.cdyaSelf (Hel.inv c (some (Hel.det c))) i j)) := by
  obtain ⟨d, hd, hn⟩ := h.d3
  unfold local3
  refine wpP_at_bind hd ?_
  rcases d with _ | w
  · rcases hv : v.d3 with _ | u <;> rw [hv] at hn
    · refine ⟨Ext.refl m, rfl, none, acc, rfl, trivial, ?_⟩
      simpa using ha
    · exact hn.elim
  · rcases hv : v.d3 with _ | u <;> rw [hv] at hn
    · rcases w with w | w <;> exact hn.elim
    · obtain ⟨A, hA, hA'⟩ := h.x3 (by rw [hv]; simp)
      obtain ⟨B, hB, hB'⟩ := h.iC (by rw [hv]; simp)
      obtain ⟨I3, hI3, hI3'⟩ := h.I3
      have q : Makes (do
          let i ← rd I3
          let x ← rd (← dya B B none)
          let y ← rd (← cdya true B B none)
          new (fun a b => i * (x a b - y a b) : Mat6 (Arr T))) m
            fun i j => Hel.det c * (Hel.dya (Hel.inv c (some (Hel.det c)))
              (Hel.inv c (some (Hel.det c))) i j - Hel.cdyaSelf (Hel.inv c (some (Hel.det c))) i j) := by
        refine wp_rd_bind hI3' ((makes_dya hB' hB').bind fun X n1 g1 _ _ x1 => ?_)
        have b := g1
        carry g1
        refine wp_rd_bind x1 ((makes_cdyaSelf hB').bind fun Y n2 g2 _ _ x2 => ?_)
        carry g2
        refine wp_rd_bind x2 (wp_mono (makes_new _ _) ?_)
        rintro R n3 ⟨g3, _, i, k⟩
        carry g3
        exact ⟨b, by omega, i, k⟩
      refine wpP_at_bind hA (wpP_at_bind hB (wpP_at_bind hI3 (wpP_makes q fun t m1 e1 _ _ ht => ?_)))
      clear q
      have e := e1
      replace hn := hn.ext e1
      carry e1
      refine wpP_makes (makes_addMat ha hn ht) fun R m2 e2 _ _ hR => ?_
      carry e2
      exact wpP_pure ⟨e, rfl, some A, R, rfl, hA', hR⟩

theorem After.ext {m' : Mem} {s : InvSt T μ} {c : Vec6 (Arr T)} {v : InvGrad (Arr T) Zv} (h : After m s c v) (e : Ext m m') :
    After m' s c v where
  I := let ⟨A, h, k⟩ := h.I; ⟨A, h, k.ext e⟩
  I1 := let ⟨A, h, k⟩ := h.I1; ⟨A, h, k.ext e⟩
  I2 := let ⟨A, h, k⟩ := h.I2; ⟨A, h, k.ext e⟩
  I3 := let ⟨A, h, k⟩ := h.I3; ⟨A, h, k.ext e⟩
  d1 := let ⟨A, h, k⟩ := h.d1; ⟨A, h, k.ext e⟩
  d2 := let ⟨A, h, k⟩ := h.d2; ⟨A, h, k.ext e⟩
  d3 := let ⟨A, h, k⟩ := h.d3; ⟨A, h, k.ext e⟩
  x1 n := let ⟨A, h, k⟩ := h.x1 n; ⟨A, h, k.ext e⟩
  x2 n := let ⟨A, h, k⟩ := h.x2 n; ⟨A, h, k.ext e⟩
  iC n := let ⟨A, h, k⟩ := h.iC n; ⟨A, h, k.ext e⟩
  x3 n := let ⟨A, h, k⟩ := h.x3 n; ⟨A, h, k.ext e⟩

/-- Two steps, each of which agrees with its value. -/
theorem agree_bind {α β : Type} [Content α] [Content β] {b : Mem} {s : σ} {p : PyM (Mem × σ) (Nd α)}
    {f : Nd α → PyM (Mem × σ) (Nd β)} {v : Res α} {w : α → Res β} (eb : Ext b m)
    (hp : wpP p m s fun r m' _ => Ext m m' ∧ Agree (fun A a => Holds m' A a) r v)
    (hf : ∀ A a m' s', Ext m m' → Holds m' A a → wpP (f A) m' s' fun r m'' _ => Ext m' m'' ∧
      Agree (fun B c => Holds m'' B c) r (w a)) :
    wpP (p >>= f) m s fun r m' _ => Ext b m' ∧ Agree (fun B c => Holds m' B c) r (v >>= w) := by
  refine wpP_bind (wpP_mono hp ?_)
  rintro r m' s' ⟨e, h⟩
  rcases v with e' | a
  · rw [h.error]
    exact ⟨eb.trans e, rfl⟩
  · obtain ⟨A, rfl, hA⟩ := h.ok
    refine wpP_mono (hf A a m' s' e hA) ?_
    rintro r2 m2 s2 ⟨e2, h2⟩
    exact ⟨(eb.trans e).trans e2, h2⟩

theorem hessian_spec {sv : SV Z Zv} {M : InvMat T Z μ} {mat : Hel.InvMat (Arr T) Zv ν} (hM : M.Implements sv mat)
    {s : InvSt T μ} (t : ν) {C : V T} {c : Vec6 (Arr T)} {z : Z} {zv : Zv} (hC : Holds m C c) (hz : sv.Is m z zv) :
    wpP (hessian M C z) m s fun r m' _ => Ext m m' ∧
      match mat.gradient (Hel.trace c) ((Hel.trace c ^ 2 - Hel.ddot c c) / 2) (Hel.det c) zv t with
      | (.error e, _) => r = .error e
      | (.ok v, t') =>
        match (mat.hessian (Hel.trace c) ((Hel.trace c ^ 2 - Hel.ddot c c) / 2) (Hel.det c) v.sv t').1 with
        | .error e => r = .error e
        | .ok h => Agree (fun A a => Holds m' A a) r (Hel.Invariants.hessRes c v h) := by
  unfold hessian callMat
  refine wpP_bind (wpP_mono (gradient_spec hM t hC hz) ?_)
  rintro r m1 s1 ⟨e1, hr⟩
  rcases hg : mat.gradient (Hel.trace c) ((Hel.trace c ^ 2 - Hel.ddot c c) / 2) (Hel.det c) zv t with
    ⟨e | v, t'⟩ <;> rw [hg] at hr
  · subst hr
    exact ⟨e1, rfl⟩
  obtain ⟨R, z', rfl, -, hz', hA⟩ := hr
  dsimp only
  clear hz
  obtain ⟨I1, a1, h1⟩ := hA.I1
  obtain ⟨I2, a2, h2⟩ := hA.I2
  obtain ⟨I3, a3, h3⟩ := hA.I3
  obtain ⟨I, aI, hI⟩ := hA.I
  refine wpP_at_bind a1 (wpP_at_bind a2 (wpP_at_bind a3 (wpP_bind (wpP_call (wpP_mono (hM.hess t' h1 h2 h3 hz')
    fun r m2 u ⟨e2, hr⟩ => ?_)))))
  rcases hh : (mat.hessian (Hel.trace c) ((Hel.trace c ^ 2 - Hel.ddot c c) / 2) (Hel.det c) v.sv t').1 with e | h <;>
    rw [hh] at hr
  · rw [hr.error]
    exact ⟨e1.trans e2, rfl⟩
  obtain ⟨g, rfl, k11, k22, k33, k12, k23, k13⟩ := hr.ok
  clear hr hz'
  dsimp only
  have hA2 : After m2 { s1 with material := u } c v := by
    have := hA.ext e2
    exact ⟨this.I, this.I1, this.I2, this.I3, this.d1, this.d2, this.d3, this.x1, this.x2, this.iC, this.x3⟩
  clear hA h1 h2 h3
  have e0 := e1.trans e2
  replace hI := hI.ext e2
  clear e1 e2 hC
  refine wpP_at_bind aI (wpP_makes (makes_new _ _) fun acc m3 e3 _ _ ha => ?_)
  replace hA2 := hA2.ext e3
  replace k11 := k11.ext e3
  replace k22 := k22.ext e3
  replace k33 := k33.ext e3
  replace k12 := k12.ext e3
  replace k23 := k23.ext e3
  replace k13 := k13.ext e3
  carry e3
  refine wpP_bind (wpP_mono (local1_spec hA2) ?_)
  rintro r4 m4 s4 ⟨rfl, rfl, X1, rfl, hX1⟩
  refine wpP_bind (wpP_mono (local2_spec hA2 hI ha) ?_)
  rintro r5 m5 s5 ⟨e5, rfl, X2, A2, rfl, hX2, ha2⟩
  replace hA2 := hA2.ext e5
  replace k11 := k11.ext e5
  replace k22 := k22.ext e5
  replace k33 := k33.ext e5
  replace k12 := k12.ext e5
  replace k23 := k23.ext e5
  replace k13 := k13.ext e5
  replace hX1 := hX1.ext e5
  carry e5
  refine wpP_bind (wpP_mono (local3_spec hA2 ha2) ?_)
  rintro r6 m6 s6 ⟨e6, rfl, X3, A3, rfl, hX3, ha3⟩
  replace k11 := k11.ext e6
  replace k22 := k22.ext e6
  replace k33 := k33.ext e6
  replace k12 := k12.ext e6
  replace k23 := k23.ext e6
  replace k13 := k13.ext e6
  replace hX1 := hX1.ext e6
  replace hX2 := hX2.ext e6
  carry e6
  simp only [zero_add] at ha3
  clear hA2 ha2 e3 e5 e6 ha hI
  have hdya : ∀ m (X Y : V T) x y, Holds m X x → Holds m Y y → Makes (dya' X Y) m (Hel.dya x y) :=
    fun m X Y x y hX hY => makes_dya hX hY
  have hsum : ∀ m (X Y : V T) x y, Holds m X x → Holds m Y y → Makes (dyaSum X Y) m (Hel.Invariants.dyaSum x y) :=
    fun m X Y x y hX hY => makes_dyaSum hX hY
  unfold Hel.Invariants.hessRes
  dsimp only
  refine agree_bind e0 (addTerm_spec ha3 k11 k11 hX1 hX1 hdya) fun B1 b1 n1 t1 g1 hB => ?_
  replace k22 := k22.ext g1
  replace k33 := k33.ext g1
  replace k12 := k12.ext g1
  replace k23 := k23.ext g1
  replace k13 := k13.ext g1
  replace hX1 := hX1.ext g1
  replace hX2 := hX2.ext g1
  replace hX3 := hX3.ext g1
  clear g1
  refine agree_bind (Ext.refl _) (addTerm_spec hB k22 k22 hX2 hX2 hdya) fun B1 b1 n1 t1 g1 hB => ?_
  replace k22 := k22.ext g1
  replace k33 := k33.ext g1
  replace k12 := k12.ext g1
  replace k23 := k23.ext g1
  replace k13 := k13.ext g1
  replace hX1 := hX1.ext g1
  replace hX2 := hX2.ext g1
  replace hX3 := hX3.ext g1
  clear g1
  refine agree_bind (Ext.refl _) (addTerm_spec hB k33 k22 hX2 hX2 hdya) fun B1 b1 n1 t1 g1 hB => ?_
  replace k12 := k12.ext g1
  replace k23 := k23.ext g1
  replace k13 := k13.ext g1
  replace hX1 := hX1.ext g1
  replace hX2 := hX2.ext g1
  replace hX3 := hX3.ext g1
  clear g1
  refine agree_bind (Ext.refl _) (addTerm_spec hB k12 k12 hX1 hX2 hsum) fun B1 b1 n1 t1 g1 hB => ?_
  replace k23 := k23.ext g1
  replace k13 := k13.ext g1
  replace hX1 := hX1.ext g1
  replace hX2 := hX2.ext g1
  replace hX3 := hX3.ext g1
  clear g1
  refine agree_bind (Ext.refl _) (addTerm_spec hB k23 k23 hX2 hX3 hsum) fun B1 b1 n1 t1 g1 hB => ?_
  replace k13 := k13.ext g1
  replace hX1 := hX1.ext g1
  replace hX3 := hX3.ext g1
  clear g1
  exact addTerm_spec hB k13 k13 hX1 hX3 hsum

theorem material_implements {sv : SV Z Zv} {M : InvMat T Z μ} {mat : Hel.InvMat (Arr T) Zv ν} (hM : M.Implements sv mat) :
    (material M).Implements sv (Hel.Invariants.material mat) where
  gradient m s t C c z zv hC hz := by
    have h := gradient_spec hM (s := s) t.material hC hz
    refine ⟨h.1, ?_⟩
    have h2 := h.2
    change Agree _ (gradient M C z (m, s)).1 (Hel.Invariants.gradient mat c zv t).1
    rw [Hel.Invariants.gradient_run]
    rcases hg : mat.gradient (Hel.trace c) ((Hel.trace c ^ 2 - Hel.ddot c c) / 2) (Hel.det c) zv t.material with
      ⟨e | v, t'⟩ <;> rw [hg] at h2
    · rw [h2]; rfl
    · obtain ⟨R, z', hr, h3, h4, -⟩ := h2
      rw [hr]
      exact ⟨h3, h4⟩
  hessian m s t C c z zv hC hz := by
    have h := hessian_spec hM (s := s) t.material hC hz
    refine ⟨h.1, ?_⟩
    have h2 := h.2
    change Agree _ (hessian M C z (m, s)).1 (Hel.Invariants.hessian mat c zv t).1
    rw [Hel.Invariants.hessian_run]
    rcases hg : mat.gradient (Hel.trace c) ((Hel.trace c ^ 2 - Hel.ddot c c) / 2) (Hel.det c) zv t.material with
      ⟨e | v, t'⟩ <;> rw [hg] at h2
    · rw [h2]; rfl
    · dsimp only at h2 ⊢
      rcases hh : mat.hessian (Hel.trace c) ((Hel.trace c ^ 2 - Hel.ddot c c) / 2) (Hel.det c) v.sv t' with
        ⟨e | h, t''⟩ <;> rw [hh] at h2
      · rw [h2]; rfl
      · exact h2

end Invariants

end

end Hel.Memory
