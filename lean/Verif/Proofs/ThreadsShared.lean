import Verif.Proofs.Threads

/-!
Helper lemmas: threads which share an object (rely-guarantee).

`G` is a set of atomic updates of the object; a fact about the attributes counts if none of these updates destroys it.
-/

namespace Hel

variable {σ τ α β : Type}

/-- A fact which no update of `G` destroys. -/
structure Facts (G : Set (σ → σ)) where
  holds : σ → Prop
  stable : ∀ u ∈ G, ∀ s, holds s → holds (u s)

/-- No facts. -/
def Facts.top (G : Set (σ → σ)) : Facts G := ⟨fun _ => True, fun _ _ _ _ => trivial⟩

namespace Prog

/-- Every update of the program is in `G`; whatever updates of `G` are made by others between its
accesses, starting with the facts `P`, its outcome and the facts in the end satisfy `Q`. -/
def Safe (G : Set (σ → σ)) : Prog σ α → Facts G → (Res α → Facts G → Prop) → Prop
  | .done r, P, Q => ∃ P' : Facts G, (∀ s, P.holds s → P'.holds s) ∧ Q r P'
  | .act u k, P, Q => u ∈ G ∧ ∀ s, P.holds s → ∃ P' : Facts G, P'.holds (u s) ∧ Safe G (k s) P' Q

variable {G : Set (σ → σ)}

theorem safe_done {r : Res α} {P : Facts G} {Q : Res α → Facts G → Prop} (h : Q r P) : Safe G (done r) P Q :=
  ⟨P, fun _ h => h, h⟩

theorem safe_pure {a : α} {P : Facts G} {Q : Res α → Facts G → Prop} (h : Q (.ok a) P) :
    Safe G (pure a : Prog σ α) P Q := safe_done h

theorem Safe.mono {p : Prog σ α} {P : Facts G} {Q Q' : Res α → Facts G → Prop} (h : Safe G p P Q)
    (hq : ∀ r P, Q r P → Q' r P) : Safe G p P Q' := by
  induction p generalizing P with
  | done r =>
    obtain ⟨P', h1, h2⟩ := h
    exact ⟨P', h1, hq _ _ h2⟩
  | act u k ih =>
    refine ⟨h.1, fun s hs => ?_⟩
    obtain ⟨P', h1, h2⟩ := h.2 s hs
    exact ⟨P', h1, ih s h2⟩

theorem Safe.weaken {p : Prog σ α} {P P₀ : Facts G} {Q : Res α → Facts G → Prop} (h : Safe G p P₀ Q)
    (hP : ∀ s, P.holds s → P₀.holds s) : Safe G p P Q := by
  rcases p with r | ⟨u, k⟩
  · obtain ⟨P', h1, h2⟩ := h
    exact ⟨P', fun s hs => h1 s (hP s hs), h2⟩
  · exact ⟨h.1, fun s hs => h.2 s (hP s hs)⟩

theorem safe_bind {p : Prog σ α} {f : α → Prog σ β} {P : Facts G} {Q : Res β → Facts G → Prop}
    (h : Safe G p P fun r P' => match r with
      | .ok a => Safe G (f a) P' Q
      | .error e => Q (.error e) P') : Safe G (p >>= f) P Q := by
  show Safe G (p.andThen f) P Q
  induction p generalizing P with
  | done r =>
    obtain ⟨P', h1, h2⟩ := h
    rcases r with e | a
    · exact ⟨P', h1, h2⟩
    · exact Safe.weaken h2 h1
  | act u k ih =>
    refine ⟨h.1, fun s hs => ?_⟩
    obtain ⟨P', h1, h2⟩ := h.2 s hs
    exact ⟨P', h1, ih s h2⟩

theorem safe_andThen {p : Prog σ α} {f : α → Prog σ β} {P : Facts G} {Q : Res β → Facts G → Prop}
    (h : Safe G p P fun r P' => match r with
      | .ok a => Safe G (f a) P' Q
      | .error e => Q (.error e) P') : Safe G (p.andThen f) P Q := safe_bind h

theorem safe_attr (hG : id ∈ G) {f : σ → Option α} {a : α} {P : Facts G} {Q : Res α → Facts G → Prop}
    (hf : ∀ s, P.holds s → f s = some a) (h : Q (.ok a) P) : Safe G (attr f) P Q := by
  refine ⟨hG, fun s hs => ⟨P, hs, ?_⟩⟩
  simp only [hf s hs]
  exact safe_done h

theorem safe_assign {u : σ → σ} (hu : u ∈ G) {P P' : Facts G} {Q : Res Unit → Facts G → Prop}
    (hP : ∀ s, P.holds s → P'.holds (u s)) (h : Q (.ok ()) P') : Safe G (assign u) P Q :=
  ⟨hu, fun s hs => ⟨P', hP s hs, safe_done h⟩⟩

/-- A call of a method of an object stored in this one. -/
theorem safe_sub {get : σ → τ} {put : τ → σ → σ} {H : Set (τ → τ)}
    (hlift : ∀ u ∈ H, (fun s => put (u (get s)) s) ∈ G) (hproj : ∀ u ∈ G, ∃ v ∈ H, ∀ s, get (u s) = v (get s))
    (hgp : ∀ t s, get (put t s) = t)
    {p : Prog τ α} {r : Res α} {P : Facts G} {Q : Res α → Facts G → Prop} (T : Facts H)
    (hp : Safe H p T fun r' _ => r' = r) (hT : ∀ s, P.holds s → T.holds (get s)) (h : Q r P) :
    Safe G (p.sub get put) P Q := by
  -- the facts about the two objects together
  have key : ∀ (p : Prog τ α) (T : Facts H), Safe H p T (fun r' _ => r' = r) → ∀ P₁ : Facts G,
      (∀ s, P₁.holds s → P.holds s ∧ T.holds (get s)) → Safe G (p.sub get put) P₁ Q := by
    intro p
    induction p with
    | done r' =>
      rintro T ⟨_, _, rfl⟩ P₁ h1
      exact ⟨P, fun s hs => (h1 s hs).1, h⟩
    | act u k ih =>
      intro T h P₁ h1
      refine ⟨hlift u h.1, fun s hs => ?_⟩
      obtain ⟨T', h2, h3⟩ := h.2 (get s) (h1 s hs).2
      refine ⟨⟨fun s => P.holds s ∧ T'.holds (get s), ?_⟩, ⟨P.stable _ (hlift u h.1) _ (h1 s hs).1, ?_⟩, ?_⟩
      · intro u' hu' s' hs'
        obtain ⟨v, hv, hvs⟩ := hproj u' hu'
        exact ⟨P.stable _ hu' _ hs'.1, by rw [hvs]; exact T'.stable _ hv _ hs'.2⟩
      · rw [hgp]; exact h2
      · exact ih _ T' h3 _ fun s' hs' => hs'
  exact key p T hp P fun s hs => ⟨hs, hT s hs⟩

/-- Without interruption. -/
theorem Safe.run {p : Prog σ α} {P : Facts G} {Q : Res α → Facts G → Prop} (h : Safe G p P Q) {s : σ} (hs : P.holds s) :
    ∃ P', Q (p.run s).1 P' := by
  induction p generalizing P s with
  | done r =>
    obtain ⟨P', -, h2⟩ := h
    exact ⟨P', h2⟩
  | act u k ih =>
    obtain ⟨P', h1, h2⟩ := h.2 s hs
    exact ih s h2 h1

end Prog

namespace Machine

variable {ι : Type} {A : ι → Type} [DecidableEq ι]

/-- Threads which share an object and are safe: whoever has finished has its outcome. -/
theorem shared_safe {G : Set (σ → σ)} {r : (i : ι) → Res (A i)} (sched : List ι) (m : Machine ι σ A)
    (h : ∀ i, ∃ P : Facts G, P.holds m.state ∧ Prog.Safe G (m.thread i) P fun r' _ => r' = r i) (i : ι) (r' : Res (A i))
    (hd : (m.exec sched).thread i = .done r') : r' = r i := by
  induction sched generalizing m with
  | nil =>
    obtain ⟨P, -, h2⟩ := h i
    have hd' : m.thread i = .done r' := hd
    rw [hd'] at h2
    exact h2.choose_spec.2
  | cons j sched ih =>
    refine ih (m.step j) (fun l => ?_) hd
    unfold step
    rcases hj : m.thread j with r'' | ⟨u, k⟩
    · exact h l
    · obtain ⟨P, h1, h2⟩ := h j
      rw [hj] at h2
      rcases eq_or_ne l j with rfl | hl
      · obtain ⟨P', h3, h4⟩ := h2.2 _ h1
        exact ⟨P', h3, by simpa only [Function.update_self] using h4⟩
      · obtain ⟨P', h3, h4⟩ := h l
        exact ⟨P', P'.stable _ h2.1 _ h3, by simpa only [Function.update_of_ne hl] using h4⟩

end Machine
end Hel
