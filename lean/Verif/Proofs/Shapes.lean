import Verif.Model.Shapes
import Verif.Spec.Shapes
import Mathlib.Tactic.Ring
import Mathlib.Tactic.Linarith
import Mathlib.Tactic.NormNum

/-! Broadcasting lemmas and the shapes computed by the library. -/

namespace Hel.Sh

theorem axis_self (a : ℕ) : axis a a = .ok a := by simp [axis]

theorem axis_fit {a t : ℕ} : axis a t = .ok t ↔ a = t ∨ a = 1 := by
  unfold axis
  split_ifs <;> simp_all

theorem axis_comm (a b : ℕ) : axis a b = axis b a := by
  unfold axis
  split_ifs <;> simp_all

theorem bcastRev_nil (s : Shape) : bcastRev s [] = .ok s := by cases s <;> rfl

theorem bcastRev_self (s : Shape) : bcastRev s s = .ok s := by
  induction s with
  | nil => rfl
  | cons a s ih => simp [bcastRev, axis_self, ih]; rfl

theorem bcastRev_comm (s t : Shape) : bcastRev s t = bcastRev t s := by
  induction s generalizing t with
  | nil => simp [bcastRev, bcastRev_nil]
  | cons a s ih =>
    cases t with
    | nil => rfl
    | cons b t => simp [bcastRev, axis_comm a b, ih t]

/-- `s` broadcasts to `t`, on reversed shapes. -/
def FitRev (s t : Shape) : Prop := bcastRev s t = .ok t

theorem fitRev_cons {a b : ℕ} {s t : Shape} :
    FitRev (a :: s) (b :: t) ↔ (a = b ∨ a = 1) ∧ FitRev s t := by
  unfold FitRev
  rw [← axis_fit]
  simp only [bcastRev]
  cases h : axis a b <;> cases h' : bcastRev s t <;> simp [bind, Except.bind]

theorem fitRev_cons_nil {a : ℕ} {s : Shape} : ¬ FitRev (a :: s) [] := by
  simp [FitRev, bcastRev]

theorem fitRev_nil {t : Shape} : FitRev [] t := rfl

theorem fitRev_self (t : Shape) : FitRev t t := bcastRev_self t

theorem fitRev_length {s t : Shape} (h : FitRev s t) : s.length ≤ t.length := by
  induction s generalizing t with
  | nil => simp
  | cons a s ih =>
    cases t with
    | nil => exact absurd h fitRev_cons_nil
    | cons b t => simpa using ih (fitRev_cons.1 h).2

/-- Two shapes that broadcast to `t` broadcast to each other, within `t`. -/
theorem fitRev_join {s u t : Shape} (hs : FitRev s t) (hu : FitRev u t) :
    ∃ w, bcastRev s u = .ok w ∧ FitRev w t ∧ w.length = max s.length u.length := by
  induction t generalizing s u with
  | nil =>
    cases s with
    | nil => cases u with
      | nil => exact ⟨[], rfl, rfl, rfl⟩
      | cons => exact absurd hu fitRev_cons_nil
    | cons => exact absurd hs fitRev_cons_nil
  | cons n t ih =>
    cases s with
    | nil => exact ⟨u, rfl, hu, by simp⟩
    | cons a s =>
      cases u with
      | nil => exact ⟨a :: s, rfl, hs, by simp⟩
      | cons b u =>
        obtain ⟨ha, hs⟩ := fitRev_cons.1 hs
        obtain ⟨hb, hu⟩ := fitRev_cons.1 hu
        obtain ⟨w, hw, hf, hl⟩ := ih hs hu
        have : ∃ d, axis a b = .ok d ∧ (d = n ∨ d = 1) := by
          rcases ha with rfl | rfl <;> rcases hb with rfl | rfl
          · exact ⟨_, axis_self _, Or.inl rfl⟩
          · exact ⟨a, by rw [axis_comm, axis_fit]; simp, Or.inl rfl⟩
          · exact ⟨b, by rw [axis_fit]; simp, Or.inl rfl⟩
          · exact ⟨1, axis_self _, Or.inr rfl⟩
        obtain ⟨d, hd, hd'⟩ := this
        refine ⟨d :: w, ?_, fitRev_cons.2 ⟨hd', hf⟩, ?_⟩
        · simp [bcastRev, hd, hw, bind, Except.bind]
        · simp only [List.length_cons, hl]; omega

theorem bcastRev_append {s u p : Shape} (h : s.length ≤ u.length) :
    bcastRev s (u ++ p) = (bcastRev s u).map (· ++ p) := by
  induction s generalizing u with
  | nil => rfl
  | cons a s ih =>
    cases u with
    | nil => simp at h
    | cons b u =>
      have := ih (u := u) (by simpa using h)
      simp only [List.cons_append, bcastRev, this]
      cases axis a b <;> cases bcastRev s u <;> simp [bind, Except.bind, Except.map]

theorem bcastRev_append2 {s u p q w k : Shape} (h : s.length = u.length) (hw : bcastRev s u = .ok w)
    (hk : bcastRev p q = .ok k) : bcastRev (s ++ p) (u ++ q) = .ok (w ++ k) := by
  induction s generalizing u w with
  | nil =>
    cases u with
    | nil => cases hw; simpa using hk
    | cons => simp at h
  | cons a s ih =>
    cases u with
    | nil => simp at h
    | cons b u =>
      simp only [bcastRev] at hw
      simp only [List.cons_append, bcastRev]
      revert hw
      cases ha : axis a b with
      | error e => intro hw; cases hw
      | ok d =>
        cases hr : bcastRev s u with
        | error e => intro hw; cases hw
        | ok r =>
          intro hw
          cases hw
          rw [ih (by simpa using h) hr]
          rfl

/-! ### The same in the order of numpy -/

theorem bcast_ok {a b w : Shape} : bcast a b = .ok w ↔ bcastRev a.reverse b.reverse = .ok w.reverse := by
  unfold bcast
  cases h : bcastRev a.reverse b.reverse with
  | error e => simp [bind, Except.bind]
  | ok r =>
    simp only [bind, Except.bind, Except.ok.injEq]
    constructor
    · rintro rfl; simp
    · rintro rfl; simp

/-- `s` can be broadcast to `t` (through the model's own broadcasting). -/
def Fits (s t : Shape) : Prop := bcast s t = .ok t

theorem fits_rev {s t : Shape} : Fits s t ↔ FitRev s.reverse t.reverse := bcast_ok

theorem bcast_nil (s : Shape) : bcast [] s = .ok s := by rw [bcast_ok]; rfl

theorem bcast_nil_right (s : Shape) : bcast s [] = .ok s := by
  rw [bcast_ok]; simp [bcastRev_nil]

theorem bcast_self (s : Shape) : bcast s s = .ok s := bcast_ok.2 (bcastRev_self _)

theorem bcast_comm (s t : Shape) : bcast s t = bcast t s := by
  unfold bcast; rw [bcastRev_comm]

theorem fits_self (t : Shape) : Fits t t := bcast_self t

theorem fits_nil (t : Shape) : Fits [] t := bcast_nil t

theorem fits_length {s t : Shape} (h : Fits s t) : s.length ≤ t.length := by
  simpa using fitRev_length (fits_rev.1 h)

theorem fits_join {s u t : Shape} (hs : Fits s t) (hu : Fits u t) :
    ∃ w, bcast s u = .ok w ∧ Fits w t ∧ w.length = max s.length u.length := by
  obtain ⟨w, h1, h2, h3⟩ := fitRev_join (fits_rev.1 hs) (fits_rev.1 hu)
  refine ⟨w.reverse, bcast_ok.2 (by simpa using h1), fits_rev.2 (by simpa using h2), by simpa using h3⟩

theorem fits_spec {s t : Shape} : Fits s t ↔ Spec.BroadcastsTo s t := by
  rw [fits_rev]
  have key : ∀ s t : Shape, FitRev s t ↔
      ∃ u p, t = u ++ p ∧ List.Forall₂ (fun a b => a = b ∨ a = 1) s u := by
    intro s t
    induction s generalizing t with
    | nil =>
      refine ⟨fun _ => ⟨[], t, rfl, .nil⟩, fun _ => rfl⟩
    | cons a s ih =>
      cases t with
      | nil =>
        refine ⟨fun h => absurd h fitRev_cons_nil, ?_⟩
        rintro ⟨u, p, h, hf⟩
        cases hf
        simp at h
      | cons b t =>
        rw [fitRev_cons, ih]
        constructor
        · rintro ⟨h, u, p, rfl, hf⟩
          exact ⟨b :: u, p, rfl, .cons h hf⟩
        · rintro ⟨u, p, h, hf⟩
          cases hf with
          | cons h1 h2 =>
            simp only [List.cons_append, List.cons.injEq] at h
            obtain ⟨rfl, rfl⟩ := h
            exact ⟨h1, _, p, rfl, h2⟩
  rw [key]
  constructor
  · rintro ⟨u, p, h, hf⟩
    refine ⟨p.reverse, u.reverse, ?_, ?_⟩
    · rw [← List.reverse_append, ← h, List.reverse_reverse]
    · exact List.forall₂_reverse_iff.1 (by simpa using hf)
  · rintro ⟨pre, u, rfl, hf⟩
    exact ⟨u.reverse, pre.reverse, by simp, by simpa using hf⟩

/-- A shorter array against one with leading axes. -/
theorem bcast_lead {s v w : Shape} (m : Shape) (hl : s.length ≤ v.length) (h : bcast s v = .ok w) :
    bcast s (m ++ v) = .ok (m ++ w) := by
  rw [bcast_ok] at h ⊢
  rw [List.reverse_append, bcastRev_append (by simpa using hl), h]
  simp [Except.map]

/-- Two arrays with the same number of leading axes and of trailing axes. -/
theorem bcast_lead2 {u v w k l m : Shape} (hl : u.length = v.length) (h : bcast u v = .ok w)
    (hk : bcast l m = .ok k) : bcast (l ++ u) (m ++ v) = .ok (k ++ w) := by
  rw [bcast_ok] at h hk ⊢
  simp only [List.reverse_append]
  exact bcastRev_append2 (by simpa using hl) h hk

/-- Trailing axes of an intermediate result: as many as `t`, each full or of length one. -/
def Sub (t u : Shape) : Prop := Fits u t ∧ u.length = t.length

theorem Sub.refl (t : Shape) : Sub t t := ⟨fits_self t, rfl⟩

theorem fits_ones (t : Shape) : Fits (t.map fun _ => 1) t := by
  rw [fits_spec]
  refine ⟨[], t, rfl, ?_⟩
  induction t with
  | nil => exact .nil
  | cons a t ih => exact .cons (Or.inr rfl) ih

theorem Sub.ones (t : Shape) : Sub t (t.map fun _ => 1) := ⟨fits_ones t, by simp⟩

theorem Sub.join {t u s : Shape} (hu : Sub t u) (hs : Fits s t) :
    ∃ w, bcast s u = .ok w ∧ Sub t w := by
  obtain ⟨w, h1, h2, h3⟩ := fits_join hs hu.1
  have := fits_length hs
  refine ⟨w, h1, h2, ?_⟩
  rw [h3, hu.2]; omega

/-- Broadcasting against the full shape gives the full shape. -/
theorem fits_left {s t : Shape} (h : Fits s t) : bcast s t = .ok t := h

theorem fits_right {s t : Shape} (h : Fits s t) : bcast t s = .ok t := by rw [bcast_comm]; exact h

end Hel.Sh
