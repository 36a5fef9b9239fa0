import Verif.Proofs.ShapesSpace

/-! Shapes in the two frameworks and the models. -/

namespace Hel.Sh

variable {t u v : Shape}

/-- What is asked of an invariant-based model at trailing axes `t`. -/
structure InvOk (m : InvModel) (t : Shape) (g : InvGrad Shape Unit) (h : InvHess Shape) : Prop where
  gradient : m.gradient t t t = .ok g
  hessian : m.hessian t t t = .ok h
  g1 : ∀ s, g.d1 = some s → Fits s t
  g2 : ∀ s, g.d2 = some s → Fits s t
  g3 : ∀ s, g.d3 = some s → Fits s t
  h11 : ∀ s, h.h11 = some s → Fits s t
  h22 : ∀ s, h.h22 = some s → Fits s t
  h12 : ∀ s, h.h12 = some s → Fits s t
  h23 : ∀ s, h.h23 = some s → Fits s t
  h13 : ∀ s, h.h13 = some s → Fits s t
  b33 : h.h33 ≠ none → g.d2 ≠ none ∧ h.h22 ≠ none
  b11 : h.h11 ≠ none → g.d1 ≠ none
  b22 : h.h22 ≠ none → g.d2 ≠ none
  b12 : h.h12 ≠ none → g.d1 ≠ none ∧ g.d2 ≠ none
  b23 : h.h23 ≠ none → g.d2 ≠ none ∧ g.d3 ≠ none
  b13 : h.h13 ≠ none → g.d1 ≠ none ∧ g.d3 ≠ none

theorem addTerm_sub (l : Shape) {a : Shape} (ha : Sub t a) {d : Option Shape}
    (hd : ∀ s, d = some s → Fits s t) {x : Res Shape}
    (hx : d ≠ none → ∃ b, x = .ok (l ++ b) ∧ Sub t b) :
    ∃ a', addTerm (l ++ a) d x = .ok (l ++ a') ∧ Sub t a' := by
  cases d with
  | none => exact ⟨a, rfl, ha⟩
  | some s =>
    obtain ⟨b, rfl, hb⟩ := hx (by simp)
    obtain ⟨w, hw, hw'⟩ := hb.join (hd s rfl)
    obtain ⟨z, hz, hz'⟩ := hw'.join ha.1
    refine ⟨z, ?_, hz'⟩
    simp only [addTerm, ok_bind]
    rw [bcast_lead l (by have := fits_length (hd s rfl); rw [hb.2]; exact this) hw, ok_bind]
    exact bcast_lead2 (by rw [ha.2, hw'.2]) hz (bcast_self l)

/-- The attributes after `Invariants.gradient`. -/
structure RunOk (t : Shape) (g : InvGrad Shape Unit) (r : InvAttrs) : Prop where
  I : r.I = 6 :: t.map fun _ => 1
  I1 : r.I1 = t
  I2 : r.I2 = t
  I3 : r.I3 = t
  gEq : r.g = g
  n1 : g.d1 = none → r.dI1dC = none
  n2 : g.d2 = none → r.dI2dC = none
  n3 : g.d3 = none → r.dI3dC = none
  d1 : g.d1 ≠ none → r.dI1dC = some (6 :: t.map fun _ => 1)
  d2 : g.d2 ≠ none → r.dI2dC = some (6 :: t)
  d3 : g.d3 ≠ none → r.dI3dC = some (6 :: t)
  inv : g.d3 ≠ none → r.invC = some (6 :: t)

theorem inv_run {m : InvModel} {g : InvGrad Shape Unit} (hg : m.gradient t t t = .ok g)
    (g1 : ∀ s, g.d1 = some s → Fits s t) (g2 : ∀ s, g.d2 = some s → Fits s t)
    (g3 : ∀ s, g.d3 = some s → Fits s t) :
    ∃ r u, Invariants.run m (6 :: t) = .ok r ∧ r.dWdC = 6 :: u ∧ Sub t u ∧ RunOk t g r := by
  have eI : bcast t (6 :: t.map fun _ => 1) = .ok (6 :: t) :=
    bcast_lead [6] (by simp) (fits_right (fits_ones t))
  have eC : bcast t (6 :: t) = .ok (6 :: t) := fits_short [6] (fits_self t)
  have j1 : ∃ x, ifGiven g.d1 (.ok (eye (6 :: t))) = .ok x ∧
      (g.d1 ≠ none → x = some (6 :: t.map fun _ => 1)) ∧ (g.d1 = none → x = none) := by
    cases g.d1 with
    | none => exact ⟨none, rfl, by simp, by simp⟩
    | some s => exact ⟨_, rfl, fun _ => rfl, by simp⟩
  have j2 : ∃ x, ifGiven g.d2 (do
      let I1I ← bcast t (eye (6 :: t))
      bcast I1I (6 :: t)) = .ok x ∧ (g.d2 ≠ none → x = some (6 :: t)) ∧ (g.d2 = none → x = none) := by
    cases g.d2 with
    | none => exact ⟨none, rfl, by simp, by simp⟩
    | some s =>
      refine ⟨some (6 :: t), ?_, fun _ => rfl, by simp⟩
      simp only [ifGiven, eye_eq, eI, ok_bind, bcast_self]
  have j3 : ∃ x, ifGiven g.d3 (inv (6 :: t) t) = .ok x ∧ (g.d3 ≠ none → x = some (6 :: t)) := by
    cases g.d3 with
    | none => exact ⟨none, rfl, by simp⟩
    | some s =>
      refine ⟨some (6 :: t), ?_, fun _ => rfl⟩
      simp only [ifGiven, inv_ok, ok_bind]
  obtain ⟨x1, e1, f1, n1⟩ := j1
  obtain ⟨x2, e2, f2, n2⟩ := j2
  obtain ⟨x3, e3, f3⟩ := j3
  have j4 : ∃ x, ifGiven g.d3 (do
      let i ← bound x3
      bcast t i) = .ok x ∧ (g.d3 ≠ none → x = some (6 :: t)) ∧ (g.d3 = none → x = none) := by
    cases h : g.d3 with
    | none => exact ⟨none, rfl, by simp, by simp⟩
    | some s =>
      refine ⟨some (6 :: t), ?_, fun _ => rfl, by simp⟩
      rw [f3 (by simp [h])]
      simp only [ifGiven, bound, ok_bind, eC]
  obtain ⟨x4, e4, f4, n4⟩ := j4
  obtain ⟨a1, ha1, s1⟩ := addTerm_sub (t := t) [6] (Sub.ones t) g1 (x := bound x1) (fun h =>
    ⟨_, by rw [f1 h]; rfl, Sub.ones t⟩)
  obtain ⟨a2, ha2, s2⟩ := addTerm_sub (t := t) [6] s1 g2 (x := bound x2) (fun h =>
    ⟨_, by rw [f2 h]; rfl, Sub.refl t⟩)
  obtain ⟨a3, ha3, s3⟩ := addTerm_sub (t := t) [6] s2 g3 (x := bound x4) (fun h =>
    ⟨_, by rw [f4 h]; rfl, Sub.refl t⟩)
  simp only [List.singleton_append] at ha1 ha2 ha3
  refine ⟨⟨6 :: t.map fun _ => 1, t, t, t, g, x1, x2, x4, x3, 6 :: a3⟩, a3, ?_, rfl, s3, ⟨rfl, rfl, rfl, rfl, rfl, n1, n2, n4, f1, f2, f4, f3⟩⟩
  unfold Invariants.run
  simp only [show trace (6 :: t) = .ok t from rfl, ok_bind, ddot_ok (fits_self t), bcast_self,
    show det (6 :: t) = .ok t from rfl, hg, e1, e2, e3, e4, List.drop_succ_cons, List.drop_zero,
    ha1, ha2, ha3]
  rfl

theorem dyaOf_ok {x y : Option Shape} {w : Shape} (hx : x = some (6 :: u)) (hy : y = some (6 :: v))
    (hu : u.prod ≠ 0) (hv : v.prod ≠ 0) (hl : u.length = v.length) (h : bcast u v = .ok w) :
    dyaOf x y = .ok (6 :: 6 :: w) := by
  rw [hx, hy]
  simp only [dyaOf, bound, ok_bind, dya_ok hu hv hl h]

theorem inv_hessian {m : InvModel} {g : InvGrad Shape Unit} {h : InvHess Shape}
    (hm : InvOk m t g h) (ht : t.prod ≠ 0) :
    ∃ v, Invariants.hessian m (6 :: t) = .ok (6 :: 6 :: v) ∧ Sub t v := by
  obtain ⟨r, u, hr, -, -, R⟩ := inv_run hm.gradient hm.g1 hm.g2 hm.g3
  have h1 : (t.map fun _ => 1).prod ≠ 0 := by simp
  have l1 : (t.map fun _ => (1 : ℕ)).length = t.length := by simp
  obtain ⟨a1, ha1, s1⟩ := addTerm_sub (t := t) [6, 6] (Sub.ones t) (d := g.d2) hm.g2 (x := do
      let p ← dya r.I r.I
      let q ← cdya r.I r.I
      bcast p q) (fun _ => ⟨_, by
        rw [R.I, dya_ok h1 h1 rfl (bcast_self _), ok_bind, cdya_ok rfl (bcast_self _), ok_bind,
          bcast_self]; rfl, Sub.ones t⟩)
  obtain ⟨a2, ha2, s2⟩ := addTerm_sub (t := t) [6, 6] s1 (d := g.d3) hm.g3 (x := do
      let invC ← bound r.invC
      let p ← dya invC invC
      let q ← cdya invC invC
      let d ← bcast p q
      bcast r.I3 d) (fun hn => ⟨t, by
        rw [R.inv hn, R.I3]
        simp only [bound, ok_bind, dya_ok ht ht rfl (bcast_self _), cdya_ok rfl (bcast_self t),
          bcast_self]
        exact fits_short [6, 6] (fits_self t), Sub.refl t⟩)
  obtain ⟨a3, ha3, s3⟩ := addTerm_sub (t := t) [6, 6] s2 (d := h.h11) hm.h11
    (x := dyaOf r.dI1dC r.dI1dC) (fun hn => ⟨_,
      dyaOf_ok (R.d1 (hm.b11 hn)) (R.d1 (hm.b11 hn)) h1 h1 rfl (bcast_self _), Sub.ones t⟩)
  obtain ⟨a4, ha4, s4⟩ := addTerm_sub (t := t) [6, 6] s3 (d := h.h22) hm.h22
    (x := dyaOf r.dI2dC r.dI2dC) (fun hn => ⟨_,
      dyaOf_ok (R.d2 (hm.b22 hn)) (R.d2 (hm.b22 hn)) ht ht rfl (bcast_self _), Sub.refl t⟩)
  have sum : ∀ {x y : Option Shape} {a b : Shape}, x = some (6 :: a) → y = some (6 :: b) →
      a.prod ≠ 0 → b.prod ≠ 0 → a.length = b.length → bcast a b = .ok t → bcast b a = .ok t →
      dyaSum x y = .ok ([6, 6] ++ t) := by
    intro x y a b hx hy ha hb hl h1 h2
    unfold dyaSum
    rw [dyaOf_ok hx hy ha hb hl h1, ok_bind, dyaOf_ok hy hx hb ha hl.symm h2, ok_bind, bcast_self]
    rfl
  have third : ∃ b, thirdTerm ([6, 6] ++ a4) h.h33 h.h22 (dyaOf r.dI2dC r.dI2dC) = .ok ([6, 6] ++ b) ∧ Sub t b := by
    cases h3 : h.h33 with
    | none => exact ⟨a4, rfl, s4⟩
    | some x =>
      obtain ⟨k1, k2⟩ := hm.b33 (by simp [h3])
      obtain ⟨b, hb, sb⟩ := addTerm_sub (t := t) [6, 6] s4 (d := h.h22) hm.h22
        (x := dyaOf r.dI2dC r.dI2dC) (fun _ => ⟨_, dyaOf_ok (R.d2 k1) (R.d2 k1) ht ht rfl (bcast_self _), Sub.refl t⟩)
      refine ⟨b, ?_, sb⟩
      rw [← hb]
      cases h2 : h.h22 with
      | none => exact absurd h2 k2
      | some y => rfl
  obtain ⟨b4, hb4, s4⟩ := third
  obtain ⟨a5, ha5, s5⟩ := addTerm_sub (t := t) [6, 6] s4 (d := h.h12) hm.h12
    (x := dyaSum r.dI1dC r.dI2dC) (fun hn => ⟨_,
      sum (R.d1 (hm.b12 hn).1) (R.d2 (hm.b12 hn).2) h1 ht l1 (fits_ones t) (fits_right (fits_ones t)),
        Sub.refl t⟩)
  obtain ⟨a6, ha6, s6⟩ := addTerm_sub (t := t) [6, 6] s5 (d := h.h23) hm.h23
    (x := dyaSum r.dI2dC r.dI3dC) (fun hn => ⟨_,
      sum (R.d2 (hm.b23 hn).1) (R.d3 (hm.b23 hn).2) ht ht rfl (bcast_self t) (bcast_self t),
        Sub.refl t⟩)
  obtain ⟨a7, ha7, s7⟩ := addTerm_sub (t := t) [6, 6] s6 (d := h.h13) hm.h13
    (x := dyaSum r.dI1dC r.dI3dC) (fun hn => ⟨_,
      sum (R.d1 (hm.b13 hn).1) (R.d3 (hm.b13 hn).2) h1 ht l1 (fits_ones t) (fits_right (fits_ones t)),
        Sub.refl t⟩)
  simp only [List.cons_append, List.nil_append] at ha1 ha2 ha3 ha4 hb4 ha5 ha6 ha7
  refine ⟨a7, ?_, s7⟩
  unfold Invariants.hessian
  rw [hr, ok_bind]
  simp only [R.I1, R.I2, R.I3, R.gEq, hm.hessian, ok_bind, List.drop_succ_cons, List.drop_zero]
  rw [ha1, ok_bind, ← R.I3, ha2, ok_bind, ha3, ok_bind, ha4, ok_bind, hb4, ok_bind]
  rw [ha5, ok_bind, ha6, ok_bind, ha7]

/-! ### when the hessian raises -/

theorem bind_eq_ok {α β : Type} {x : Res α} {f : α → Res β} {b : β} (h : (x >>= f) = .ok b) :
    ∃ a, x = .ok a ∧ f a = .ok b := by
  cases x with
  | error e => cases h
  | ok a => exact ⟨a, rfl, h⟩

theorem addTerm_eq_ok {a b : Shape} {d : Option Shape} {x : Res Shape} (h : addTerm a d x = .ok b) (hd : d ≠ none) :
    ∃ y, x = .ok y := by
  cases d with
  | none => exact absurd rfl hd
  | some s => obtain ⟨y, hy, -⟩ := bind_eq_ok h; exact ⟨y, hy⟩

theorem dyaOf_eq_ok {x y : Option Shape} {a : Shape} (h : dyaOf x y = .ok a) : x ≠ none ∧ y ≠ none := by
  cases x with
  | none => cases h
  | some x =>
    cases y with
    | none => cases h
    | some y => simp

theorem dyaSum_eq_ok {x y : Option Shape} {a : Shape} (h : dyaSum x y = .ok a) : x ≠ none ∧ y ≠ none := by
  obtain ⟨p, hp, -⟩ := bind_eq_ok h
  exact dyaOf_eq_ok hp

theorem inv_hessian_needs {m : InvModel} {g : InvGrad Shape Unit} {h : InvHess Shape} (hg : m.gradient t t t = .ok g)
    (hh : m.hessian t t t = .ok h) (g1 : ∀ s, g.d1 = some s → Fits s t) (g2 : ∀ s, g.d2 = some s → Fits s t)
    (g3 : ∀ s, g.d3 = some s → Fits s t) {M : Shape} (hM : Invariants.hessian m (6 :: t) = .ok M) :
    (h.h11 ≠ none → g.d1 ≠ none) ∧ (h.h22 ≠ none → g.d2 ≠ none) ∧ (h.h33 ≠ none → g.d2 ≠ none ∧ h.h22 ≠ none) ∧
    (h.h12 ≠ none → g.d1 ≠ none ∧ g.d2 ≠ none) ∧ (h.h23 ≠ none → g.d2 ≠ none ∧ g.d3 ≠ none) ∧
    (h.h13 ≠ none → g.d1 ≠ none ∧ g.d3 ≠ none) := by
  obtain ⟨r, u, hr, -, -, R⟩ := inv_run hg g1 g2 g3
  have n1 : r.dI1dC ≠ none → g.d1 ≠ none := fun k e => k (R.n1 e)
  have n2 : r.dI2dC ≠ none → g.d2 ≠ none := fun k e => k (R.n2 e)
  have n3 : r.dI3dC ≠ none → g.d3 ≠ none := fun k e => k (R.n3 e)
  unfold Invariants.hessian at hM
  rw [hr, ok_bind, R.I1, R.I2, R.I3, hh, ok_bind] at hM
  obtain ⟨a1, -, hM⟩ := bind_eq_ok hM
  obtain ⟨a2, -, hM⟩ := bind_eq_ok hM
  obtain ⟨a3, e3, hM⟩ := bind_eq_ok hM
  obtain ⟨a4, e4, hM⟩ := bind_eq_ok hM
  obtain ⟨a5, e5, hM⟩ := bind_eq_ok hM
  obtain ⟨a6, e6, hM⟩ := bind_eq_ok hM
  obtain ⟨a7, e7, e8⟩ := bind_eq_ok hM
  refine ⟨fun k => ?_, fun k => ?_, fun k => ?_, fun k => ?_, fun k => ?_, fun k => ?_⟩
  · obtain ⟨y, hy⟩ := addTerm_eq_ok e3 k
    exact n1 (dyaOf_eq_ok hy).1
  · obtain ⟨y, hy⟩ := addTerm_eq_ok e4 k
    exact n2 (dyaOf_eq_ok hy).1
  · unfold thirdTerm at e5
    cases h3 : h.h33 with
    | none => exact absurd h3 k
    | some x =>
      rw [h3] at e5
      cases h2 : h.h22 with
      | none =>
        rw [h2] at e5
        obtain ⟨_, _, e⟩ := bind_eq_ok e5
        cases e
      | some y =>
        rw [h2] at e5
        obtain ⟨y, hy⟩ := addTerm_eq_ok e5 (by simp)
        exact ⟨n2 (dyaOf_eq_ok hy).1, by simp⟩
  · obtain ⟨y, hy⟩ := addTerm_eq_ok e6 k
    exact ⟨n1 (dyaSum_eq_ok hy).1, n2 (dyaSum_eq_ok hy).2⟩
  · obtain ⟨y, hy⟩ := addTerm_eq_ok e7 k
    exact ⟨n2 (dyaSum_eq_ok hy).1, n3 (dyaSum_eq_ok hy).2⟩
  · obtain ⟨y, hy⟩ := addTerm_eq_ok e8 k
    exact ⟨n1 (dyaSum_eq_ok hy).1, n3 (dyaSum_eq_ok hy).2⟩

/-- What is asked of a model in principal stretches at trailing axes `t`. -/
structure StrOk (m : StrModel) (t : Shape) : Prop where
  gradient : ∃ s, m.gradient (3 :: t) = .ok s ∧ Fits s (3 :: t)
  hessian : (∃ s, m.hessian (3 :: t) = .ok (.array s) ∧ Fits s (6 :: t)) ∨
    (∃ l, m.hessian (3 :: t) = .ok (.list l) ∧ ∀ a s, l a = some s → Fits s t)

theorem eigh_ok (t : Shape) : eigh (6 :: t) = .ok (3 :: t, 3 :: 6 :: t) := by
  unfold eigh
  rw [astensor_ok]
  rfl

theorem str_run {m : StrModel} (hm : ∃ s, m.gradient (3 :: t) = .ok s ∧ Fits s (3 :: t)) :
    Stretches.run m (6 :: t) = .ok ⟨3 :: t, 3 :: 6 :: t, 3 :: t, 6 :: t⟩ := by
  obtain ⟨s, hs, hf⟩ := hm
  unfold Stretches.run
  have e : bcast (3 :: 1 :: t) (3 :: 6 :: t) = .ok (3 :: 6 :: t) :=
    bcast_lead2 (l := [3, 1]) (m := [3, 6]) (k := [3, 6]) rfl (bcast_self t) (by rfl)
  rw [eigh_ok, ok_bind, hs, ok_bind, fits_left hf, ok_bind,
    show expandDims1 (3 :: t) = .ok (3 :: 1 :: t) from rfl, ok_bind, e, ok_bind,
    show item (3 :: 6 :: t) = .ok (6 :: t) from rfl, ok_bind]

theorem turn_ok (ht : t.prod ≠ 0) (off : Bool) :
    Stretches.turn (6 :: 6 :: t) (3 :: 6 :: t) (3 :: t) (6 :: t) (3 :: t) off =
      .ok (6 :: 6 :: t) := by
  have e1 : bcast t (6 :: 6 :: t) = .ok (6 :: 6 :: t) := fits_short [6, 6] (fits_self t)
  unfold Stretches.turn
  simp only [item, ok_bind, dya_ok ht ht rfl (bcast_self t), e1, inplace_ok (fits_self (6 :: 6 :: t)),
    bcast_self, transpose_ok, cdya_ok rfl (bcast_self t), and_self, if_true]
  split_ifs <;> rfl

theorem str_hessian {m : StrModel} (hm : StrOk m t) (ht : t.prod ≠ 0) :
    Stretches.hessian m (6 :: t) = .ok (6 :: 6 :: t) := by
  have key : ∀ h d2, m.hessian (3 :: t) = .ok h → collect t h = .ok d2 → Fits d2 (6 :: t) →
      Stretches.hessian m (6 :: t) = .ok (6 :: 6 :: t) := by
    intro h d2 hh hc hf
    unfold Stretches.hessian
    rw [str_run hm.gradient, ok_bind, hh, ok_bind, show item (3 :: t) = .ok t from rfl, ok_bind, hc,
      ok_bind, show fancy 3 [6] (3 :: t) = .ok (6 :: t) from rfl, ok_bind, bcast_self, ok_bind,
      fits_left hf, ok_bind, bcast_self, ok_bind, show item (6 :: t) = .ok t from rfl, ok_bind,
      inplace_ok (fits_self (3 :: t)), ok_bind, ok_bind]
    dsimp only
    rw [turn_ok ht, ok_bind, turn_ok ht, ok_bind,
      turn_ok ht, ok_bind, turn_ok ht, ok_bind, turn_ok ht, ok_bind, turn_ok ht]
  rcases hm.hessian with ⟨s, hs, hf⟩ | ⟨l, hl, hf⟩
  · exact key _ s hs rfl hf
  · refine key _ (6 :: t) hl ?_ (fits_self _)
    have : ∀ a, broadcastEntry t (l a) = .ok () := by
      intro a
      cases h : l a with
      | none => rfl
      | some s =>
        unfold broadcastEntry
        simp only [broadcastTo_ok (hf a s h), ok_bind]
    simp only [collect, this, ok_bind]

theorem str_matOk {m : StrModel} (hm : StrOk m t) (ht : t.prod ≠ 0) :
    MatOk t (Stretches.mat m) t t where
  gradient := by
    simp only [Stretches.mat, str_run hm.gradient, ok_bind]
  hessian := str_hessian hm ht
  subG := Sub.refl t
  subH := Sub.refl t

theorem inv_matOk {m : InvModel} {g : InvGrad Shape Unit} {h : InvHess Shape}
    (hm : InvOk m t g h) (ht : t.prod ≠ 0) : ∃ u v, MatOk t (Invariants.mat m) u v := by
  obtain ⟨r, u, hr, hd, hu, -⟩ := inv_run hm.gradient hm.g1 hm.g2 hm.g3
  obtain ⟨v, hv, hv'⟩ := inv_hessian hm ht
  refine ⟨u, v, ⟨?_, hv, hu, hv'⟩⟩
  simp only [Invariants.mat, hr, ok_bind, hd]

/-! ### Models -/

theorem foldl_inplace (n : ℕ) (s : Shape) : (List.replicate n s).foldlM inplace s = .ok s := by
  induction n with
  | zero => rfl
  | succ n ih =>
    simp only [List.replicate_succ, List.foldlM_cons, inplace_ok (fits_self s), ok_bind, ih]

theorem ogden_ok (n : ℕ) (t : Shape) : StrOk (ogden n) t where
  gradient := ⟨3 :: t, foldl_inplace n _, fits_self _⟩
  hessian := by
    refine Or.inr ⟨![some t, some t, some t, none, none, none], ?_, ?_⟩
    · simp only [ogden, foldl_inplace, ok_bind, item]
    · intro a s h
      fin_cases a <;> simp at h <;> subst h <;> exact fits_self t

theorem addTo_some {a b w : Shape} (h : bcast a b = .ok w) :
    addTo (some a) b = .ok (some w) := by
  simp only [addTo, h, ok_bind]

theorem addTo_fit {d : Option Shape} {s : Shape} (hs : Fits s t) (hd : ∀ x, d = some x → Fits x t)
    (hn : d ≠ none) : ∃ w, addTo d s = .ok (some w) ∧ Fits w t := by
  cases d with
  | none => exact absurd rfl hn
  | some a =>
    obtain ⟨w, hw, hf, -⟩ := fits_join (hd a rfl) hs
    exact ⟨w, addTo_some hw, hf⟩

theorem addTo_if {p : Prop} {d : Option Shape} {s : Shape} (hs : Fits s t)
    (hd : ∀ x, d = some x → Fits x t) (hn : p → d ≠ none) :
    ∃ d', addIf p d s = .ok d' ∧ (∀ x, d' = some x → Fits x t) ∧
      (d' = none ↔ d = none) := by
  unfold addIf
  split_ifs with h
  · obtain ⟨w, hw, hf⟩ := addTo_fit hs hd (hn h)
    refine ⟨some w, hw, ?_, ?_⟩
    · rintro x ⟨⟩; exact hf
    · simp [hn h]
  · exact ⟨d, rfl, hd, Iff.rfl⟩

theorem tod_ok (m : TOD ℝ) (t : Shape) : ∃ g h, InvOk (tod m) t g h ∧ g.d3 = none ∧ h.h33 = none := by
  classical
  set d1 : Option Shape :=
    if m.C10 ≠ 0 ∨ m.C11 ≠ 0 ∨ m.C20 ≠ 0 ∨ m.C30 ≠ 0 then some [] else none with hd1
  set d2 : Option Shape := if m.C01 ≠ 0 ∨ m.C11 ≠ 0 then some [] else none with hd2
  have f1 : ∀ x, d1 = some x → Fits x t := by
    intro x hx; rw [hd1] at hx; split_ifs at hx; cases hx; exact fits_nil t
  have f2 : ∀ x, d2 = some x → Fits x t := by
    intro x hx; rw [hd2] at hx; split_ifs at hx; cases hx; exact fits_nil t
  have n1 : d1 = none ↔ ¬ (m.C10 ≠ 0 ∨ m.C11 ≠ 0 ∨ m.C20 ≠ 0 ∨ m.C30 ≠ 0) := by
    rw [hd1]; split_ifs with h <;> simp [h]
  have n2 : d2 = none ↔ ¬ (m.C01 ≠ 0 ∨ m.C11 ≠ 0) := by
    rw [hd2]; split_ifs with h <;> simp [h]
  obtain ⟨a1, e1, g1, k1⟩ := addTo_if (p := m.C10 ≠ 0) (fits_nil t) f1 (fun h => by rw [ne_eq, n1]; tauto)
  obtain ⟨b1, e2, g2, k2⟩ := addTo_if (p := m.C01 ≠ 0) (fits_nil t) f2 (fun h => by rw [ne_eq, n2]; tauto)
  obtain ⟨a2, e3, g3, k3⟩ := addTo_if (p := m.C11 ≠ 0) (fits_self t) g1
    (fun h => by rw [ne_eq, k1, n1]; tauto)
  obtain ⟨b2, e4, g4, k4⟩ := addTo_if (p := m.C11 ≠ 0) (fits_self t) g2
    (fun h => by rw [ne_eq, k2, n2]; tauto)
  obtain ⟨a3, e5, g5, k5⟩ := addTo_if (p := m.C20 ≠ 0) (fits_self t) g3
    (fun h => by rw [ne_eq, k3, k1, n1]; tauto)
  obtain ⟨a4, e6, g6, k6⟩ := addTo_if (p := m.C30 ≠ 0) (fits_self t) g5
    (fun h => by rw [ne_eq, k5, k3, k1, n1]; tauto)
  refine ⟨⟨a4, b2, none, ()⟩, _, ⟨?_, rfl, g6, g4, by simp, ?_, by simp, ?_, by simp, by simp,
    fun hn => absurd rfl hn, ?_, by simp, ?_, by simp, by simp⟩, rfl, rfl⟩
  · unfold tod
    simp only [← hd1, ← hd2, e1, e2, e3, e4, e5, e6, ok_bind]
  · intro s hs
    simp only at hs
    split_ifs at hs
    cases hs
    exact fits_self t
  · intro s hs
    simp only at hs
    split_ifs at hs
    cases hs
    exact fits_nil t
  · intro h
    simp only [ne_eq] at h ⊢
    rw [k6, k5, k3, k1, n1]
    split_ifs at h <;> simp_all
  · intro h
    simp only [ne_eq] at h ⊢
    rw [k6, k5, k3, k1, n1, k4, k2, n2]
    split_ifs at h <;> simp_all

end Hel.Sh
