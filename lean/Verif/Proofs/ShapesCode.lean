import Verif.Proofs.Shapes

/-! Shapes computed by the functions of the library. -/

namespace Hel.Sh

variable {t u v : Shape}

theorem ok_bind {α β : Type} (a : α) (f : α → Res β) : (Except.ok a >>= f) = f a := rfl

theorem error_bind {α β : Type} (e : PyErr) (f : α → Res β) :
    ((Except.error e : Res α) >>= f) = .error e := rfl

theorem bcastRev_error {a b : Shape} {e : PyErr} (h : bcastRev a b = .error e) :
    e = .valueError := by
  induction a generalizing b with
  | nil => cases h
  | cons x a ih =>
    cases b with
    | nil => cases h
    | cons y b =>
      simp only [bcastRev] at h
      revert h
      cases hx : axis x y with
      | error e' =>
        intro h
        cases h
        unfold axis at hx
        split_ifs at hx
        cases hx
        rfl
      | ok d =>
        cases hr : bcastRev a b with
        | error e' => intro h; cases h; exact ih hr
        | ok r => intro h; cases h

theorem bcast_error {a b : Shape} {e : PyErr} (h : bcast a b = .error e) : e = .valueError := by
  unfold bcast at h
  revert h
  cases hr : bcastRev a.reverse b.reverse with
  | error e' => intro h; cases h; exact bcastRev_error hr
  | ok r => intro h; cases h

/-- `a += b` raises `ValueError` unless `b` can be broadcast to `a`. -/
theorem inplace_error {a b : Shape} (h : ¬ Fits b a) : inplace a b = .error .valueError := by
  unfold inplace
  cases hb : bcast a b with
  | error e => rw [error_bind, bcast_error hb]
  | ok r =>
    rw [ok_bind, if_neg]
    rintro rfl
    exact h (by unfold Fits; rw [bcast_comm]; exact hb)

theorem inplace_ok {a b : Shape} (h : Fits b a) : inplace a b = .ok a := by
  unfold inplace
  rw [fits_right h, ok_bind, if_pos rfl]

theorem broadcastTo_ok {a b : Shape} (h : Fits a b) : broadcastTo a b = .ok b := by
  unfold broadcastTo
  rw [fits_left h, ok_bind, if_pos rfl]

/-- Leading axes of equal length, trailing axes broadcast. -/
theorem fits_lead {l k : Shape} (hk : Fits l k) (hs : Fits u t) (hl : u.length = t.length) :
    Fits (l ++ u) (k ++ t) := bcast_lead2 hl hs hk

/-- A shape without the leading axes broadcasts to the one with them. -/
theorem fits_short {s : Shape} (m : Shape) (hs : Fits s t) : Fits s (m ++ t) :=
  bcast_lead m (fits_length hs) hs

/-! ### einsum -/

/-- Evaluation of an `einsum` call from its pieces. -/
theorem einsum_ok {ops : List Op} {out : List Char} {core tr : Shape}
    (h1 : ∀ o ∈ ops, o.check = .ok ()) (h2 : out.mapM (labelDim ops) = .ok core)
    (h3 : (ops.map Op.trailing).foldlM bcast [] = .ok tr) :
    einsum ops out none = .ok (core ++ tr) := by
  have h1' : ops.forM Op.check = .ok () := by
    induction ops with
    | nil => rfl
    | cons o os ih =>
      have : List.forM (o :: os) Op.check = (do Op.check o; List.forM os Op.check) := rfl
      rw [this, h1 o (by simp)]
      clear h2 h3 ih
      induction os with
      | nil => rfl
      | cons p os ih =>
        have : List.forM (p :: os) Op.check = (do Op.check p; List.forM os Op.check) := rfl
        rw [this, h1 p (by simp)]
        exact ih (fun q hq => h1 q (by simp at hq ⊢; tauto)) rfl
  unfold einsum
  rw [h1', ok_bind, h2, ok_bind, h3, ok_bind]

/-- The same with an output buffer. -/
theorem einsum_buf {ops : List Op} {out : List Char} {r b : Shape}
    (h : einsum ops out none = .ok r) (hl : b.length = r.length) (hb : Fits r b) :
    einsum ops out (some b) = .ok b := by
  unfold einsum at h ⊢
  revert h
  cases ops.forM Op.check with
  | error e => intro h; cases h
  | ok x =>
    cases out.mapM (labelDim ops) with
    | error e => intro h; cases h
    | ok core =>
      cases (ops.map Op.trailing).foldlM bcast [] with
      | error e => intro h; cases h
      | ok tr =>
        intro h
        cases h
        simp only [ok_bind]
        rw [if_neg (by simpa using hl), show bcast (core ++ tr) b = .ok b from hb, ok_bind, if_pos rfl]

/-- With an output buffer that is too small the call raises. -/
theorem einsum_buf_error {ops : List Op} {out : List Char} {r b : Shape}
    (h : einsum ops out none = .ok r) (hb : ¬ Fits r b) :
    einsum ops out (some b) = .error .valueError := by
  unfold einsum at h ⊢
  revert h
  cases ops.forM Op.check with
  | error e => intro h; cases h
  | ok x =>
    cases out.mapM (labelDim ops) with
    | error e => intro h; cases h
    | ok core =>
      cases (ops.map Op.trailing).foldlM bcast [] with
      | error e => intro h; cases h
      | ok tr =>
        intro h
        cases h
        simp only [ok_bind]
        split_ifs with hl
        · rfl
        · have hb' : ¬ bcast (core ++ tr) b = .ok b := hb
          cases hh : bcast (core ++ tr) b with
          | error e =>
            rw [error_bind, bcast_error hh]
          | ok w =>
            rw [ok_bind, if_neg]
            rintro rfl
            exact hb' hh

/-! ### `_voigt.py` -/

theorem asvoigt_ok : asvoigt (3 :: 3 :: t) = .ok (6 :: t) := by simp [asvoigt, fancy2]

theorem astensor_ok : astensor (6 :: t) = .ok (3 :: 3 :: t) := by simp [astensor, fancy]

theorem astensor4_ok : astensor4 (6 :: 6 :: t) = .ok (3 :: 3 :: 3 :: 3 :: t) := by
  simp [astensor4, fancy2]

theorem eye_eq : eye (6 :: t) = 6 :: t.map fun _ => 1 := rfl

theorem check_ok {o : Op} (h : o.labels.length ≤ o.shape.length)
    (h' : o.ell = false → o.shape.length = o.labels.length) : o.check = .ok () := by
  unfold Op.check
  rw [if_neg]
  rintro (h1 | ⟨h1, h2⟩)
  · omega
  · exact h2 (h' h1)

theorem foldl3 (a b c : Shape) {x y : Shape} (h1 : bcast a b = .ok x) (h2 : bcast x c = .ok y) :
    [a, b, c].foldlM bcast [] = .ok y := by
  simp only [List.foldlM_cons, List.foldlM_nil, bcast_nil, ok_bind, h1, h2]
  rfl

theorem foldl2 (a b : Shape) {x : Shape} (h1 : bcast a b = .ok x) :
    [a, b].foldlM bcast [] = .ok x := by
  simp only [List.foldlM_cons, List.foldlM_nil, bcast_nil, ok_bind, h1]
  rfl

theorem rcg_ok (t : Shape) : rightCauchyGreen (3 :: 3 :: t) = .ok (6 :: t) := by
  unfold rightCauchyGreen
  rw [einsum_ok (core := [3, 3]) (tr := t) ?_ ?_ ?_]
  · exact asvoigt_ok
  · simp [check_ok]
  · rfl
  · exact foldl2 t t (bcast_self t)

theorem ddot_ok (hu : Fits u t) : ddot (6 :: u) (6 :: t) = .ok t := by
  unfold ddot
  rw [einsum_ok (core := []) (tr := t) ?_ ?_ ?_]
  · rfl
  · simp [check_ok]
  · rfl
  · exact foldl3 u t [] hu (bcast_nil_right t)

theorem ddot_ok' {w : Shape} (h : bcast u v = .ok w) : ddot (6 :: u) (6 :: v) = .ok w := by
  unfold ddot
  rw [einsum_ok (core := []) (tr := w) ?_ ?_ ?_]
  · rfl
  · simp [check_ok]
  · rfl
  · exact foldl3 u v [] h (bcast_nil_right w)

theorem ddot44_ok {w : Shape} (h : bcast u v = .ok w) :
    ddot44 (6 :: 6 :: u) (6 :: 6 :: v) = .ok (6 :: 6 :: w) := by
  unfold ddot44
  rw [einsum_ok (core := [6, 6]) (tr := w) ?_ ?_ ?_]
  · rfl
  · simp [check_ok]
  · rfl
  · exact foldl3 u v [] h (bcast_nil_right w)

theorem ddot24_ok {w : Shape} (h : bcast u v = .ok w) :
    ddot24 (6 :: u) (6 :: 6 :: v) = .ok (6 :: w) := by
  unfold ddot24
  rw [einsum_ok (core := [6]) (tr := w) ?_ ?_ ?_]
  · rfl
  · simp [check_ok]
  · rfl
  · exact foldl3 u v [] h (bcast_nil_right w)

theorem inv_ok (t : Shape) : inv (6 :: t) t = .ok (6 :: t) := by
  unfold inv
  rw [show fancy 6 [6] (6 :: t) = .ok (6 :: t) from rfl, ok_bind,
    broadcastTo_ok (b := 6 :: t) (fits_short [6] (fits_self t))]
  rfl

theorem reshape_ok (b : Bool) (h : t.prod ≠ 0) :
    reshapeDya b (6 :: t) = .ok (if b then 6 :: 1 :: t else 1 :: 6 :: t) := by
  simp [reshapeDya, h]

theorem dya_ok {w : Shape} (hu : u.prod ≠ 0) (hv : v.prod ≠ 0) (hl : u.length = v.length)
    (h : bcast u v = .ok w) : dya (6 :: u) (6 :: v) = .ok (6 :: 6 :: w) := by
  unfold dya
  rw [reshape_ok _ hu, ok_bind, reshape_ok _ hv, ok_bind]
  exact bcast_lead2 (l := [6, 1]) (m := [1, 6]) (k := [6, 6]) hl h (by rfl)

theorem cdya_ik_ok {w : Shape} (hu : u.prod ≠ 0) (hv : v.prod ≠ 0) (hl : u.length = v.length)
    (h : bcast u v = .ok w) : cdya_ik (6 :: u) (6 :: v) = .ok (3 :: 3 :: 3 :: 3 :: w) := by
  unfold cdya_ik
  rw [dya_ok hu hv hl h, ok_bind, astensor4_ok]
  rfl

theorem cdya_ok {w : Shape} (hl : u.length = v.length) (h : bcast u v = .ok w) :
    cdya (6 :: u) (6 :: v) = .ok (6 :: 6 :: w) := by
  unfold cdya
  rw [show bcast (6 :: u) (6 :: v) = .ok (6 :: w) from
    bcast_lead2 (l := [6]) (m := [6]) (k := [6]) hl h (by rfl), ok_bind]
  rw [show fancy 6 [21] (6 :: w) = .ok (21 :: w) by simp [fancy], ok_bind,
    show fancy2 6 6 [21] (6 :: 6 :: w) = .ok (21 :: w) by simp [fancy2], ok_bind,
    broadcastTo_ok (fits_self _)]
  rfl

theorem transpose_ok : transpose (6 :: 6 :: t) = .ok (6 :: 6 :: t) := rfl

/-- Products with a number or an array of the trailing axes. -/
theorem bcast_scalar {s w : Shape} (m : Shape) (hl : s.length ≤ u.length) (h : bcast s u = .ok w) :
    bcast s (m ++ u) = .ok (m ++ w) := bcast_lead m hl h

theorem prod_ne_zero_of_sub (h : Sub t u) (ht : t.prod ≠ 0) : u.prod ≠ 0 := by
  obtain ⟨h, hl⟩ := h
  rw [fits_spec] at h
  obtain ⟨pre, w, rfl, hf⟩ := h
  have : pre = [] := by
    have := hf.length_eq
    simp at hl
    apply List.eq_nil_of_length_eq_zero
    omega
  subst this
  simp only [List.nil_append] at ht
  clear hl
  induction hf with
  | nil => simp
  | cons h _ ih =>
    simp only [List.prod_cons, ne_eq, mul_eq_zero, not_or] at ht ⊢
    refine ⟨?_, ih ht.2⟩
    rcases h with rfl | rfl
    · exact ht.1
    · simp

end Hel.Sh
