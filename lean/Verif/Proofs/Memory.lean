import Verif.Spec.Memory

/-! Reasoning about programs on the memory. -/

namespace Hel.Memory

noncomputable section

variable {α β γ ι κ : Type} [Content α] [Content β] [Content γ] [Encodable ι] [Encodable κ]

theorem Ext.refl (m : Mem) : Ext m m := ⟨le_rfl, fun _ _ => rfl⟩

theorem Ext.trans {a b c : Mem} (h : Ext a b) (h' : Ext b c) : Ext a c :=
  ⟨h.next.trans h'.next, fun l hl => (h'.cell l (hl.trans_le h.next)).trans (h.cell l hl)⟩

theorem Holds.ext {m m' : Mem} (h : Ext m m') {A : Nd α} {v : α} (hA : Holds m A v) : Holds m' A v := by
  refine ⟨hA.loc.trans_le h.next, ?_⟩
  rw [← hA.read]
  unfold Mem.read
  rw [h.cell _ hA.loc]

theorem Holds.row {m : Mem} {A : Nd (ι → α)} {v : ι → α} (h : Holds m A v) (i : ι) : Holds m (A.row i) (v i) := by
  refine ⟨h.loc, ?_⟩
  rw [← h.read]; rfl

theorem Holds.swap01 {m : Mem} {A : Nd (ι → κ → α)} {v : ι → κ → α} (h : Holds m A v) :
    Holds m A.swap01 (fun j i => v i j) := by
  refine ⟨h.loc, ?_⟩
  rw [← h.read]; rfl

theorem Holds.first3 {m : Mem} {A : Nd (Fin 6 → α)} {v : Fin 6 → α} (h : Holds m A v) :
    Holds m A.first3 (fun i => v (![0, 1, 2] i)) := by
  refine ⟨h.loc, ?_⟩
  rw [← h.read]; rfl

theorem Holds.swap12 {m : Mem} {A : Nd (Full4 α)} {v : Full4 α} (h : Holds m A v) :
    Holds m A.swap12 (Hel.swap12 v) := by
  refine ⟨h.loc, ?_⟩
  rw [← h.read]; rfl

theorem Holds.swap13 {m : Mem} {A : Nd (Full4 α)} {v : Full4 α} (h : Holds m A v) :
    Holds m A.swap13 (Hel.swap13 v) := by
  refine ⟨h.loc, ?_⟩
  rw [← h.read]; rfl

/-! ### statements -/

/-- What holds after a statement. -/
def wp {τ : Type} (p : MemM τ) (m : Mem) (Q : τ → Mem → Prop) : Prop := Q (p m).1 (p m).2

variable {τ τ' : Type}

theorem wp_bind {p : MemM τ} {f : τ → MemM τ'} {m : Mem} {Q : τ' → Mem → Prop}
    (h : wp p m fun a m' => wp (f a) m' Q) : wp (p >>= f) m Q := h

theorem wp_pure {a : τ} {m : Mem} {Q : τ → Mem → Prop} (h : Q a m) : wp (pure a) m Q := h

theorem wp_mono {p : MemM τ} {m : Mem} {Q Q' : τ → Mem → Prop} (h : wp p m Q) (hQ : ∀ a m', Q a m' → Q' a m') :
    wp p m Q' := hQ _ _ h

theorem wp_rd {A : Nd α} {v : α} {m : Mem} {Q : α → Mem → Prop} (hA : Holds m A v) (h : Q v m) : wp (rd A) m Q := by
  have : m.read A = v := hA.read
  unfold wp rd
  simpa [this] using h

theorem wp_rd_bind {A : Nd α} {v : α} {m : Mem} {f : α → MemM τ} {Q : τ → Mem → Prop} (hA : Holds m A v)
    (h : wp (f v) m Q) : wp (rd A >>= f) m Q := wp_bind (wp_rd hA h)

/-- The statement makes a new array with content `v`, and changes no array. -/
def Makes (p : MemM (Nd α)) (m : Mem) (v : α) : Prop :=
  wp p m fun A m' => Ext m m' ∧ m.next ≤ A.loc ∧ A.Inj ∧ Holds m' A v

theorem makes_new (v : α) (m : Mem) : Makes (new v) m v := by
  letI := Content.enc (α := α)
  refine ⟨⟨Nat.le_succ _, fun l hl => ?_⟩, le_rfl, Encodable.encode_injective, Nat.lt_succ_self _, ?_⟩
  · funext k
    simp [new, hl.ne]
  · simp only [new, Mem.read, if_pos, Encodable.encodek, Option.map_some, Option.getD_some]
    exact Content.left v

/-- Use of `Makes` in front of more statements. -/
theorem Makes.bind {p : MemM (Nd α)} {m : Mem} {v : α} {f : Nd α → MemM τ} {Q : τ → Mem → Prop} (hp : Makes p m v)
    (h : ∀ A m', Ext m m' → m.next ≤ A.loc → A.Inj → Holds m' A v → wp (f A) m' Q) : wp (p >>= f) m Q :=
  wp_bind (wp_mono hp fun A m' hA => h A m' hA.1 hA.2.1 hA.2.2.1 hA.2.2.2)

/-- The effect of a write on the other arrays. -/
structure Wrote (A : Nd α) (m m' : Mem) : Prop where
  next : m'.next = m.next
  cell : ∀ l, l ≠ A.loc → m'.cell l = m.cell l

theorem Wrote.ext {A : Nd α} {b m m' : Mem} (w : Wrote A m m') (hb : Ext b m) (hA : b.next ≤ A.loc) : Ext b m' :=
  ⟨by rw [w.next]; exact hb.next, fun l hl => (w.cell l (by omega)).trans (hb.cell l hl)⟩

theorem Wrote.holds {A : Nd α} {m m' : Mem} (w : Wrote A m m') {B : Nd β} {v : β} (hB : Holds m B v)
    (h : B.loc ≠ A.loc) : Holds m' B v := by
  refine ⟨by rw [w.next]; exact hB.loc, ?_⟩
  rw [← hB.read]
  unfold Mem.read
  rw [w.cell _ h]

/-- A write: the array has the new content, other buffers are unchanged. -/
theorem wp_put {A : Nd α} {v : α} {m : Mem} {Q : Unit → Mem → Prop} (hA : A.loc < m.next) (hi : A.Inj)
    (h : ∀ m', Wrote A m m' → Holds m' A v → Q () m') : wp (put A v) m Q := by
  classical
  refine h _ ⟨rfl, fun l hl => ?_⟩ ⟨hA, ?_⟩
  · funext k
    simp [put, hl]
  · have : ∀ i, ∀ e : ∃ j, A.addr j = A.addr i, e.choose = i := fun i e => hi e.choose_spec
    have h2 : (put A v m).2.read A = Content.ofFun (Content.toFun v) := by
      unfold Mem.read put
      congr 1
      funext i
      have e : A.loc = A.loc ∧ ∃ j, A.addr j = A.addr i := ⟨rfl, i, rfl⟩
      exact (dif_pos e).trans (congrArg _ (this i e.2))
    rw [h2, Content.left]

theorem wp_put_bind {A : Nd α} {v : α} {m : Mem} {f : Unit → MemM τ} {Q : τ → Mem → Prop} (hA : A.loc < m.next)
    (hi : A.Inj) (h : ∀ m', Wrote A m m' → Holds m' A v → wp (f ()) m' Q) : wp (put A v >>= f) m Q :=
  wp_bind (wp_put hA hi h)

theorem makes_copy {A : Nd α} {v : α} {m : Mem} (hA : Holds m A v) : Makes (copy A) m v := by
  unfold copy Makes
  exact wp_rd_bind hA (makes_new v m)

/-! ### tactic: carry the knowledge about arrays to a later memory -/

open Lean Elab Tactic Meta in
/-- `carry h` with `h : Ext m m'` turns every `Holds m A v` into `Holds m' A v` and every `Ext b m`
into `Ext b m'`. -/
elab "carry" h:ident : tactic => withMainContext do
  let hd ← getLocalDeclFromUserName h.getId
  let ty ← instantiateMVars hd.type
  unless ty.isAppOfArity ``Ext 2 do throwError "carry: not an Ext"
  let m := ty.getArg! 0
  let lctx ← getLCtx
  let mut names : Array (Name × Bool) := #[]
  for d in lctx do
    if d.isImplementationDetail || d.fvarId == hd.fvarId then continue
    let t ← instantiateMVars d.type
    if t.isAppOfArity ``Holds 5 && (t.getArg! 2) == m then names := names.push (d.userName, true)
    if t.isAppOfArity ``Ext 2 && (t.getArg! 1) == m && !(t.getArg! 0 == m) then names := names.push (d.userName, false)
  for (n, b) in names do
    let i := mkIdent n
    if b then
      evalTactic (← `(tactic| have := Holds.loc $i))
      evalTactic (← `(tactic| replace $i := Holds.ext $h $i))
    else evalTactic (← `(tactic| replace $i := Ext.trans $i $h))
  evalTactic (← `(tactic| have := Ext.next $h))

open Lean Elab Tactic Meta in
/-- `carryW w` with `w : Wrote A m m'`: the same for a write to `A`; the buffers must differ by
`omega`. -/
elab "carryW" h:ident : tactic => withMainContext do
  let hd ← getLocalDeclFromUserName h.getId
  let ty ← instantiateMVars hd.type
  unless ty.isAppOfArity ``Wrote 5 do throwError "carryW: not a Wrote"
  let A := ty.getArg! 2
  let m := ty.getArg! 3
  let lctx ← getLCtx
  let mut names : Array (Name × Nat) := #[]
  for d in lctx do
    if d.isImplementationDetail || d.fvarId == hd.fvarId then continue
    let t ← instantiateMVars d.type
    if t.isAppOfArity ``Holds 5 && (t.getArg! 2) == m then
      if t.getArg! 3 == A then names := names.push (d.userName, 2) else names := names.push (d.userName, 0)
    if t.isAppOfArity ``Ext 2 && (t.getArg! 1) == m then names := names.push (d.userName, 1)
  for (n, b) in names do
    if b == 0 || b == 2 then evalTactic (← `(tactic| have := Holds.loc $(mkIdent n)))
    if b == 1 then evalTactic (← `(tactic| have := Ext.next $(mkIdent n)))
  evalTactic (← `(tactic| have := Wrote.next $h))
  for (n, b) in names do
    let i := mkIdent n
    if b == 0 then evalTactic (← `(tactic| replace $i := Wrote.holds $h $i (by clear $h; simp only [ne_eq]; omega)))
    else if b == 1 then
      evalTactic (← `(tactic| first | replace $i := Wrote.ext $h $i (by omega) | clear $i))
    else evalTactic (← `(tactic| clear $i))

/-! ### `math/_voigt.py` -/

variable {T : Type} [Encodable T] {m : Mem}

theorem makes_asvoigt {A : Nd (Full2 (Arr T))} {a : Full2 (Arr T)} (hA : Holds m A a) :
    Makes (asvoigt A) m (Hel.asvoigt a) := wp_rd_bind hA (makes_new _ m)

theorem makes_astensor {A : V T} {a : Vec6 (Arr T)} (hA : Holds m A a) :
    Makes (astensor A) m (Hel.astensor a) := wp_rd_bind hA (makes_new _ m)

theorem makes_astensor4 {A : M T} {a : Mat6 (Arr T)} (hA : Holds m A a) :
    Makes (astensor4 A) m (Hel.astensor4 a) := wp_rd_bind hA (makes_new _ m)

theorem makes_trace {A : V T} {a : Vec6 (Arr T)} (hA : Holds m A a) :
    Makes (trace A) m (Hel.trace a) := wp_rd_bind hA (makes_new _ m)

theorem makes_det {A : V T} {a : Vec6 (Arr T)} (hA : Holds m A a) :
    Makes (det A) m (Hel.det a) := wp_rd_bind hA (makes_new _ m)

theorem makes_dot {A B : V T} {a b : Vec6 (Arr T)} (hA : Holds m A a) (hB : Holds m B b) :
    Makes (dot A B) m (Hel.dot a b) := wp_rd_bind hA (wp_rd_bind hB (makes_new _ m))

theorem makes_eye : Makes (eye : MemM (V T)) m Hel.eye := makes_new _ m

theorem makes_ddot {A B : V T} {a b : Vec6 (Arr T)} (hA : Holds m A a) (hB : Holds m B b) :
    Makes (ddot A B) m (Hel.ddot a b) := wp_rd_bind hA (wp_rd_bind hB (makes_new _ m))

theorem makes_ddot44 {A B : M T} {a b : Mat6 (Arr T)} (hA : Holds m A a) (hB : Holds m B b) :
    Makes (ddot44 A B) m (Hel.ddot44 a b) := wp_rd_bind hA (wp_rd_bind hB (makes_new _ m))

theorem makes_ddot24 {A : V T} {B : M T} {a : Vec6 (Arr T)} {b : Mat6 (Arr T)} (hA : Holds m A a) (hB : Holds m B b) :
    Makes (ddot24 A B) m (Hel.ddot24 a b) := wp_rd_bind hA (wp_rd_bind hB (makes_new _ m))

theorem makes_dya {A B : V T} {a b : Vec6 (Arr T)} (hA : Holds m A a) (hB : Holds m B b) :
    Makes (dya A B none) m (Hel.dya a b) := wp_rd_bind hA (wp_rd_bind hB (makes_new _ m))

theorem Nd.Inj.swap12 {A : Nd (Full4 α)} (h : A.Inj) : A.swap12.Inj := by
  rintro ⟨a, b, c, d⟩ ⟨a', b', c', d'⟩ hxy
  have := h hxy
  injection this with h1 h2
  injection h2 with h2 h3
  injection h3 with h3 h4
  subst h1 h2 h3 h4
  rfl

theorem Nd.Inj.swap13 {A : Nd (Full4 α)} (h : A.Inj) : A.swap13.Inj := by
  rintro ⟨a, b, c, d, e⟩ ⟨a', b', c', d', e'⟩ hxy
  have := h hxy
  injection this with h1 h2
  injection h2 with h2 h3
  injection h3 with h3 h4
  injection h4 with h4 h5
  subst h1 h2 h3 h4 h5
  rfl

theorem Nd.Inj.swap01 {A : Nd (ι → κ → α)} (h : A.Inj) : A.swap01.Inj := by
  rintro ⟨a, b, c⟩ ⟨a', b', c'⟩ hxy
  have := h hxy
  injection this with h1 h2
  injection h2 with h2 h3
  subst h1 h2 h3
  rfl

theorem makes_cdya_ik {A B : V T} {a b : Vec6 (Arr T)} (hA : Holds m A a) (hB : Holds m B b) :
    Makes (cdya_ik A B none) m (Hel.cdya_ik a b) := by
  refine (makes_dya hA hB).bind fun X m1 e1 l1 i1 h1 => (makes_astensor4 h1).bind fun Y m2 e2 l2 i2 h2 => ?_
  exact ⟨e1.trans e2, by have := e1.next; show m.next ≤ Y.loc; omega, i2.swap12, h2.swap12⟩

theorem makes_cdya_il {A B : V T} {a b : Vec6 (Arr T)} (hA : Holds m A a) (hB : Holds m B b) :
    Makes (cdya_il A B none) m (Hel.cdya_il a b) := by
  refine (makes_dya hA hB).bind fun X m1 e1 l1 i1 h1 => (makes_astensor4 h1).bind fun Y m2 e2 l2 i2 h2 => ?_
  exact ⟨e1.trans e2, by have := e1.next; show m.next ≤ Y.loc; omega, i2.swap13, h2.swap13⟩

/-- The content of an optional operand. -/
def HoldsO (m : Mem) (A : Option (Nd α)) (v : Option α) : Prop :=
  match A, v with
  | none, none => True
  | some A, some v => Holds m A v
  | _, _ => False

theorem inv_formula (a : Vec6 (Arr T)) (d : Option (Arr T)) : Hel.inv a d = fun k =>
    (take a ![1, 0, 0, 4, 3, 3] k * take a ![2, 2, 1, 5, 5, 4] k -
      take a ![4, 5, 3, 3, 0, 1] k * take a ![4, 5, 3, 2, 4, 5] k) / d.getD (Hel.det a) := by
  cases d <;> rfl

theorem wp_given {D : Option (Nd α)} {d : Option α} {p : MemM (Nd α)} {v : α} (hD : HoldsO m D d) (hp : Makes p m v) :
    wp (given D p) m fun B m' => Ext m m' ∧ (D = some B ∨ m.next ≤ B.loc) ∧ Holds m' B (d.getD v) := by
  rcases D with _ | D <;> rcases d with _ | d <;> try exact hD.elim
  · exact wp_mono hp fun B m1 h => ⟨h.1, Or.inr h.2.1, h.2.2.2⟩
  · exact wp_pure ⟨Ext.refl _, Or.inl rfl, hD⟩

theorem HoldsO.ext {m' : Mem} (e : Ext m m') {D : Option (Nd α)} {d : Option α} (hD : HoldsO m D d) : HoldsO m' D d := by
  rcases D with _ | D <;> rcases d with _ | d <;> try exact hD
  exact Holds.ext e hD

theorem HoldsO.loc {D : Option (Nd α)} {d : Option α} (hD : HoldsO m D d) {B : Nd α} (h : D = some B) :
    B.loc < m.next := by
  subst h
  rcases d with _ | d
  · exact hD.elim
  · exact Holds.loc hD

/-- `inv` into a given array: any overlap of `out` with `A` is fine, the determinant must be in
another buffer. -/
theorem inv_out {A O : V T} {a : Vec6 (Arr T)} {D : Option (Nd (Arr T))} {d : Option (Arr T)} (hA : Holds m A a)
    (hD : HoldsO m D d) (hO : O.loc < m.next) (hi : O.Inj) (hd : ∀ B, D = some B → B.loc ≠ O.loc) :
    wp (inv A D (some O)) m fun R m' => R = O ∧ m.next ≤ m'.next ∧ (∀ l < m.next, l ≠ O.loc → m'.cell l = m.cell l) ∧
      Holds m' O (Hel.inv a d) := by
  have e0 := Ext.refl m
  rw [inv_formula]
  unfold inv
  refine (makes_new _ m).bind fun X0 m0 e l0 i0 h0 => ?_
  have hl := fun B => hD.loc (B := B)
  replace hD := hD.ext e
  replace e0 := e
  carry e
  refine wp_bind (wp_mono (wp_given hD (makes_det hA)) fun B m1 ⟨e1, lB, hB⟩ => ?_)
  have hBO : B.loc ≠ O.loc := by
    rcases lB with h | h
    · exact hd B h
    · omega
  replace lB : B.loc < m.next ∨ m0.next ≤ B.loc := lB.imp_left (hl B)
  carry e1
  refine wp_rd_bind hA ((makes_new _ _).bind fun Ai m2 e2 l2 i2 h2 => ?_)
  carry e2
  refine wp_rd_bind hA ((makes_new _ _).bind fun Aj m3 e3 l3 i3 h3 => ?_)
  carry e3
  refine wp_rd_bind hA ((makes_new _ _).bind fun Ak m4 e4 l4 i4 h4 => ?_)
  carry e4
  refine wp_rd_bind hA ((makes_new _ _).bind fun Al m5 e5 l5 i5 h5 => ?_)
  carry e5
  clear h0 e e1 e2 e3 e4 e5 hD
  simp only [Option.getD_some]
  refine wp_rd_bind h2 (wp_rd_bind h3 (wp_put_bind h2.loc i2 fun m6 w6 k2 => ?_))
  carryW w6
  refine wp_rd_bind h4 (wp_rd_bind h5 (wp_put_bind h4.loc i4 fun m7 w7 k4 => ?_))
  carryW w7
  refine wp_rd_bind k2 (wp_rd_bind k4 (wp_put_bind (by omega) hi fun m8 w8 kO => ?_))
  clear hA
  have c8 : ∀ l < m.next, l ≠ O.loc → m8.cell l = m.cell l := fun l hl hne =>
    (w8.cell l hne).trans (e0.cell l hl)
  have hm8 := w8.next
  have hm7 := e0.next
  clear e0
  carryW w8
  refine wp_rd_bind kO (wp_rd_bind hB (wp_put_bind (by omega) hi fun m9 w9 kO' => ?_))
  have hm9 := w9.next
  refine wp_pure ⟨rfl, by omega, fun l hl hne => ?_, kO'⟩
  rw [w9.cell l hne, c8 l hl hne]

theorem makes_inv {A : V T} {a : Vec6 (Arr T)} {D : Option (Nd (Arr T))} {d : Option (Arr T)} (hA : Holds m A a)
    (hD : HoldsO m D d) : Makes (inv A D none) m (Hel.inv a d) := by
  rw [inv_formula]
  unfold Makes inv
  refine (makes_new _ m).bind fun X0 m0 e l0 i0 h0 => ?_
  have hl := fun B => hD.loc (B := B)
  replace hD := hD.ext e
  have e0 := e
  carry e
  refine wp_bind (wp_mono (wp_given hD (makes_det hA)) fun B m1 ⟨e1, lB, hB⟩ => ?_)
  replace lB : B.loc < m.next ∨ m0.next ≤ B.loc := lB.imp_left (hl B)
  carry e1
  refine wp_rd_bind hA ((makes_new _ _).bind fun Ai m2 e2 l2 i2 h2 => ?_)
  carry e2
  refine wp_rd_bind hA ((makes_new _ _).bind fun Aj m3 e3 l3 i3 h3 => ?_)
  carry e3
  refine wp_rd_bind hA ((makes_new _ _).bind fun Ak m4 e4 l4 i4 h4 => ?_)
  carry e4
  refine wp_rd_bind hA ((makes_new _ _).bind fun Al m5 e5 l5 i5 h5 => ?_)
  carry e5
  clear h0 e e1 e2 e3 e4 e5 hD
  simp only [Option.getD_none]
  refine wp_rd_bind h2 (wp_rd_bind h3 (wp_put_bind h2.loc i2 fun m6 w6 k2 => ?_))
  carryW w6
  refine wp_rd_bind h4 (wp_rd_bind h5 (wp_put_bind h4.loc i4 fun m7 w7 k4 => ?_))
  carryW w7
  refine wp_rd_bind k2 (wp_rd_bind k4 (wp_put_bind k2.loc i2 fun m8 w8 kO => ?_))
  carryW w8
  refine wp_rd_bind kO (wp_rd_bind hB (wp_put_bind kO.loc i2 fun m9 w9 kO' => ?_))
  carryW w9
  exact wp_pure ⟨e0, by omega, i2, kO'⟩

/-! ### cdya -/

theorem map_triu {τ : Type} (f : Fin 6 × Fin 6 → τ) :
    ((List.finRange triu6.length).map fun n => f (triu n)) = triu6.map f := by
  have : (List.finRange triu6.length).map triu = triu6 := List.map_get_finRange _
  conv_rhs => rw [← this]
  rw [List.map_map]; rfl

/-- `values`, line 936-945 -/
def values (same : Bool) (a b : Vec6 (Arr T)) (n : Fin triu6.length) : Arr T := cdyaValue same a b (triu n)

theorem cdya_formula (same : Bool) (a b : Vec6 (Arr T)) (o : Mat6 (Arr T)) : cdyaOut same a b (some o) =
    writes (writes o ((List.finRange _).map fun n => (ij n, kl n, values same a b n)))
      ((List.finRange _).map fun n => (kl n, ij n, values same a b n)) := by
  have h1 := map_triu fun p => (tab (pairs p.1).1 (pairs p.1).2, tab (pairs p.2).1 (pairs p.2).2, cdyaValue same a b p)
  have h2 := map_triu fun p => (tab (pairs p.2).1 (pairs p.2).2, tab (pairs p.1).1 (pairs p.1).2, cdyaValue same a b p)
  unfold cdyaOut
  simp only [← h1, ← h2]
  rfl

theorem wp_ite {τ : Type} {c : Prop} [Decidable c] {p q : MemM τ} {m : Mem} {Q : τ → Mem → Prop}
    (h1 : c → wp p m Q) (h2 : ¬ c → wp q m Q) : wp (if c then p else q) m Q := by
  split_ifs with h
  exacts [h1 h, h2 h]

/-- `cdya` into a given array, which may overlap with the operands. -/
theorem cdya_out (same : Bool) {A B : V T} {a b : Vec6 (Arr T)} {O : M T} {o : Mat6 (Arr T)} (hA : Holds m A a)
    (hB : Holds m B b) (hO : Holds m O o) (hi : O.Inj) :
    wp (cdya same A B (some O)) m fun R m' => R = O ∧ m.next ≤ m'.next ∧
      (∀ l < m.next, l ≠ O.loc → m'.cell l = m.cell l) ∧ Holds m' O (cdyaOut same a b (some o)) := by
  have e0 := Ext.refl m
  rw [cdya_formula]
  unfold cdya
  refine wp_bind (wp_pure ?_)
  refine wp_rd_bind hA ((makes_new _ _).bind fun Aik m1 e1 l1 i1 h1 => ?_)
  replace e0 := e1
  carry e1
  refine wp_rd_bind hB ((makes_new _ _).bind fun Bjl m2 e2 l2 i2 h2 => ?_)
  carry e2
  refine wp_rd_bind hA ((makes_new _ _).bind fun Ail m3 e3 l3 i3 h3 => ?_)
  carry e3
  refine wp_rd_bind hB ((makes_new _ _).bind fun Bkj m4 e4 l4 i4 h4 => ?_)
  carry e4
  clear e1 e2 e3 e4
  refine wp_rd_bind h1 (wp_rd_bind h2 (wp_put_bind h1.loc i1 fun m5 w5 k1 => ?_))
  carryW w5
  refine wp_rd_bind h3 (wp_rd_bind h4 (wp_put_bind h3.loc i3 fun m6 w6 k3 => ?_))
  carryW w6
  refine wp_rd_bind k1 (wp_rd_bind k3 ((makes_new _ _).bind fun Vs m7 e7 l7 i7 h7 => ?_))
  carry e7
  clear e7
  have fin : ∀ m' v, Ext m m' → Holds m' Vs v → Holds m' O o → v = values same a b → wp (do
      let v ← rd Vs
      let o ← rd O
      put O (writes o ((List.finRange _).map fun n => (ij n, kl n, v n)))
      let o ← rd O
      put O (writes o ((List.finRange _).map fun n => (kl n, ij n, v n)))
      pure O) m' fun R m' => R = O ∧ m.next ≤ m'.next ∧
      (∀ l < m.next, l ≠ O.loc → m'.cell l = m.cell l) ∧ Holds m' O
        (writes (writes o ((List.finRange _).map fun n => (ij n, kl n, values same a b n)))
      ((List.finRange _).map fun n => (kl n, ij n, values same a b n))) := by
    rintro m' v e hV hO rfl
    refine wp_rd_bind hV (wp_rd_bind hO (wp_put_bind hO.loc hi fun m'' w kO => ?_))
    refine wp_rd_bind kO (wp_put_bind kO.loc hi fun m3 w' kO' => ?_)
    have := e.next
    have := w.next
    have := w'.next
    refine wp_pure ⟨rfl, by omega, fun l hl hne => ?_, kO'⟩
    rw [w'.cell l hne, w.cell l hne, e.cell l hl]
  cases same
  · refine wp_ite (fun _ => ?_) fun h => absurd rfl h
    refine wp_rd_bind hB ((makes_new _ _).bind fun Bik n1 e1 q1 j1 g1 => ?_)
    carry e1
    refine wp_rd_bind hA ((makes_new _ _).bind fun Ajl n2 e2 q2 j2 g2 => ?_)
    carry e2
    refine wp_rd_bind hB ((makes_new _ _).bind fun Bil n3 e3 q3 j3 g3 => ?_)
    carry e3
    refine wp_rd_bind hA ((makes_new _ _).bind fun Akj n4 e4 q4 j4 g4 => ?_)
    carry e4
    clear e1 e2 e3 e4 k1 h2 k3 h4
    refine wp_rd_bind g1 (wp_rd_bind g2 (wp_put_bind g1.loc j1 fun n5 w5 t1 => ?_))
    carryW w5
    refine wp_rd_bind g3 (wp_rd_bind g4 (wp_put_bind g3.loc j3 fun n6 w6 t3 => ?_))
    carryW w6
    refine wp_rd_bind h7 (wp_rd_bind t1 (wp_rd_bind t3 (wp_put_bind h7.loc i7 fun n7 w7 t7 => ?_)))
    carryW w7
    refine wp_rd_bind t7 (wp_put_bind t7.loc i7 fun n8 w8 s7 => ?_)
    carryW w8
    refine fin _ _ e0 s7 hO ?_
    funext n
    rfl
  · refine wp_ite (fun h => by simp at h) fun _ => ?_
    refine wp_rd_bind h7 (wp_put_bind h7.loc i7 fun n1 w1 t7 => ?_)
    clear k1 h2 k3 h4
    carryW w1
    refine fin _ _ e0 t7 hO ?_
    funext n
    rfl

theorem cdya_none (same : Bool) (A B : V T) : cdya same A B none =
    (new (fun _ _ => 0 : Mat6 (Arr T)) >>= fun O => cdya same A B (some O)) := by
  unfold cdya given
  rfl

theorem cdyaOut_none (same : Bool) (a b : Vec6 (Arr T)) : cdyaOut same a b none = cdyaOut same a b (some fun _ _ => 0) := by
  unfold cdyaOut
  rw [Option.getD_none, Option.getD_some]

theorem makes_cdya (same : Bool) {A B : V T} {a b : Vec6 (Arr T)} (hA : Holds m A a) (hB : Holds m B b) :
    Makes (cdya same A B none) m (cdyaOut same a b none) := by
  unfold Makes
  rw [cdya_none, cdyaOut_none]
  refine (makes_new _ m).bind fun O m1 e1 l1 i1 h1 => ?_
  carry e1
  refine wp_mono (cdya_out same hA hB h1 i1) ?_
  rintro R m' ⟨rfl, hn, hc, hR⟩
  exact ⟨⟨by omega, fun l hl => (hc l (by omega) (by omega)).trans (e1.cell l hl)⟩, l1, i1, hR⟩

theorem makes_cdyaSelf {A : V T} {a : Vec6 (Arr T)} (hA : Holds m A a) :
    Makes (cdya true A A none) m (Hel.cdyaSelf a) := makes_cdya true hA hA

theorem makes_rightCauchyGreen {F : Nd (Full2 (Arr T))} {f : Full2 (Arr T)} (hF : Holds m F f) :
    Makes (rightCauchyGreen F) m (Batch.rightCauchyGreen f) := by
  refine wp_rd_bind hF ((makes_new _ m).bind fun X m1 e1 l1 i1 h1 => ?_)
  refine wp_mono (makes_asvoigt h1) ?_
  rintro R m' ⟨e, l, i, h⟩
  carry e
  exact ⟨e1, by omega, i, h⟩

end

end Hel.Memory
