import Verif.Proofs.ShapesFramework

/-! Shapes in the generalized-invariants model. -/

namespace Hel.Sh

variable {t u v : Shape}

theorem addInplace_ok (l : Shape) {d : Option Shape} (hd : ∀ s, d = some s → Fits s t) :
    addInplace (l ++ t) d (.ok (l ++ t)) = .ok (l ++ t) := by
  cases d with
  | none => rfl
  | some s =>
    simp only [addInplace, ok_bind]
    rw [show bcast s (l ++ t) = .ok (l ++ t) from fits_short l (hd s rfl), ok_bind,
      inplace_ok (fits_self _)]

theorem gen_run {m : InvModel} {g : InvGrad Shape Unit} (hg : m.gradient t t t = .ok g)
    (g1 : ∀ s, g.d1 = some s → Fits s t) (g2 : ∀ s, g.d2 = some s → Fits s t)
    (g3 : ∀ s, g.d3 = some s → Fits s t) :
    GenInv.run m (3 :: t) = .ok ⟨3 :: t, t, g, 3 :: t⟩ := by
  have e1 : addInplace (3 :: t) g.d1 (.ok (3 :: t)) = .ok (3 :: t) := addInplace_ok [3] g1
  have e2 : addInplace (3 :: t) g.d2 (.ok (3 :: t)) = .ok (3 :: t) := addInplace_ok [3] g2
  have e3 : addInplace (3 :: t) g.d3 (.ok (3 :: t)) = .ok (3 :: t) := addInplace_ok [3] g3
  unfold GenInv.run
  dsimp only
  rw [show item (3 :: t) = .ok t from rfl, ok_bind, hg, ok_bind,
    show fancy 3 [3] (3 :: t) = .ok (3 :: t) from rfl, ok_bind, bcast_self, ok_bind, bcast_self,
    ok_bind, e1, ok_bind, e2, ok_bind, e3, ok_bind]

theorem addHalf_ok {d : Option Shape} {x : Shape}
    (h : ∀ s, d = some s → ∃ w, bcast s x = .ok w ∧ Fits w (3 :: t)) :
    addHalf (6 :: t) d x = .ok (6 :: t) := by
  unfold addHalf
  rw [show item (6 :: t) = .ok t from rfl, ok_bind]
  cases d with
  | none => rfl
  | some s =>
    obtain ⟨w, hw, hf⟩ := h s rfl
    simp only [addInplace, ok_bind, hw, inplace_ok hf]

theorem addHalf_full {d : Option Shape} (hd : ∀ s, d = some s → Fits s t) :
    addHalf (6 :: t) d (3 :: t) = .ok (6 :: t) :=
  addHalf_ok fun s hs => ⟨3 :: t, fits_short [3] (hd s hs), fits_self _⟩

theorem addHalf_number {d : Option Shape} (hd : ∀ s, d = some s → Fits s t) :
    addHalf (6 :: t) d [] = .ok (6 :: t) :=
  addHalf_ok fun s hs => ⟨s, bcast_nil_right s, fits_short [3] (hd s hs)⟩

/-- The statements of the hessian up to the one with the literal list `[2, 0, 1]`. -/
theorem gen_hessian_eq {m : InvModel} {g : InvGrad Shape Unit} {h : InvHess Shape}
    (hg : m.gradient t t t = .ok g) (hh : m.hessian t t t = .ok h)
    (g1 : ∀ s, g.d1 = some s → Fits s t) (g2 : ∀ s, g.d2 = some s → Fits s t)
    (g3 : ∀ s, g.d3 = some s → Fits s t)
    (hs : ∀ s, some s ∈ [h.h11, h.h22, h.h33, h.h12, h.h23, h.h13] → Fits s t) :
    GenInv.hessian m (3 :: t) = (do
      let acc ← addHalf (6 :: t) g.d3 [3]
      let acc ← inplace acc (6 :: t)
      let acc ← addHalf acc g.d1 (3 :: t)
      let acc ← addHalf acc g.d2 (3 :: t)
      let acc ← addHalf acc g.d3 (3 :: t)
      .ok (.array acc)) := by
  have key : ∀ {d : Option Shape}, (∀ s, d = some s → Fits s t) →
      addInplace (6 :: t) d (.ok (6 :: t)) = .ok (6 :: t) := fun hd => addInplace_ok [6] hd
  unfold GenInv.hessian
  rw [gen_run hg g1 g2 g3, ok_bind]
  dsimp only
  rw [hh, ok_bind, show item (3 :: t) = .ok t from rfl, ok_bind,
    show fancy 3 [6] (3 :: t) = .ok (6 :: t) from rfl, ok_bind, bcast_self, ok_bind,
    key (fun s h' => hs s (by simp [h'])), ok_bind, key (fun s h' => hs s (by simp [h'])), ok_bind,
    key (fun s h' => hs s (by simp [h'])), ok_bind, key (fun s h' => hs s (by simp [h'])), ok_bind,
    key (fun s h' => hs s (by simp [h'])), ok_bind, key (fun s h' => hs s (by simp [h'])), ok_bind,
    addHalf_number g2, ok_bind]

theorem gen_hessian_ok {m : InvModel} {g : InvGrad Shape Unit} {h : InvHess Shape}
    (hg : m.gradient t t t = .ok g) (hh : m.hessian t t t = .ok h)
    (g1 : ∀ s, g.d1 = some s → Fits s t) (g2 : ∀ s, g.d2 = some s → Fits s t)
    (g3 : g.d3 = none)
    (hs : ∀ s, some s ∈ [h.h11, h.h22, h.h33, h.h12, h.h23, h.h13] → Fits s t) :
    GenInv.hessian m (3 :: t) = .ok (.array (6 :: t)) := by
  rw [gen_hessian_eq hg hh g1 g2 (by simp [g3]) hs, addHalf_ok (by simp [g3]), ok_bind,
    inplace_ok (fits_self _), ok_bind, addHalf_full g1, ok_bind, addHalf_full g2, ok_bind,
    addHalf_full (by simp [g3]), ok_bind]

/-- An array of trailing axes `t`, times a list of three numbers, does not fit onto `(3,) + t`
unless there are no trailing axes or the last one has length three. -/
theorem literal_list {s : Shape} (hs : Fits s t) (ht : t ≠ []) (hl : t.getLast? ≠ some 3) :
    ∀ w, bcast s [3] = .ok w → ¬ Fits w (3 :: t) := by
  intro w hw hf
  rw [bcast_ok] at hw
  rw [fits_rev] at hf hs
  obtain ⟨a, r, hr⟩ : ∃ a r, t.reverse = a :: r := by
    cases h : t.reverse with
    | nil => simp at h; exact absurd h ht
    | cons a r => exact ⟨a, r, rfl⟩
  have ha : a ≠ 3 := by
    rintro rfl
    apply hl
    rw [List.getLast?_eq_head?_reverse, hr]
    rfl
  rw [List.reverse_cons, hr, List.cons_append] at hf
  cases hs' : s.reverse with
  | nil =>
    rw [hs'] at hw
    have : w.reverse = [3] := by
      simp [bcastRev] at hw
      rw [← hw]
    rw [this] at hf
    have := (fitRev_cons.1 hf).1
    omega
  | cons b q =>
    rw [hs'] at hw
    rw [hs', hr] at hs
    have hb := (fitRev_cons.1 hs).1
    simp only [List.reverse_cons, List.reverse_nil, List.nil_append, bcastRev, bcastRev_nil] at hw
    revert hw
    cases hx : axis b 3 with
    | error e => intro hw; cases hw
    | ok d =>
      intro hw
      have hw' : d :: q = w.reverse := by injection hw
      rw [← hw'] at hf
      have hd := (fitRev_cons.1 hf).1
      unfold axis at hx
      split_ifs at hx with h1 h2 h3
      · cases hx; omega
      · cases hx; omega
      · omega

theorem gen_hessian_error {m : InvModel} {g : InvGrad Shape Unit} {h : InvHess Shape}
    (hg : m.gradient t t t = .ok g) (hh : m.hessian t t t = .ok h)
    (g1 : ∀ s, g.d1 = some s → Fits s t) (g2 : ∀ s, g.d2 = some s → Fits s t)
    (g3 : ∀ s, g.d3 = some s → Fits s t) (h3 : g.d3 ≠ none)
    (hs : ∀ s, some s ∈ [h.h11, h.h22, h.h33, h.h12, h.h23, h.h13] → Fits s t)
    (ht : t ≠ []) (hl : t.getLast? ≠ some 3) :
    GenInv.hessian m (3 :: t) = .error .valueError := by
  rw [gen_hessian_eq hg hh g1 g2 g3 hs]
  cases h : g.d3 with
  | none => exact absurd h h3
  | some s =>
    have : addHalf (6 :: t) (some s) [3] = .error .valueError := by
      unfold addHalf
      rw [show item (6 :: t) = .ok t from rfl, ok_bind]
      simp only [addInplace, ok_bind]
      cases hw : bcast s [3] with
      | error e => rw [error_bind, error_bind, bcast_error hw]
      | ok w =>
        rw [ok_bind, inplace_error (literal_list (g3 s h) ht hl w hw), error_bind]
    rw [this, error_bind]

end Hel.Sh
