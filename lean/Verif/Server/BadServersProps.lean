import Verif.Server.BadServers

/-!
# C103: cloud servers that have gone bad

A server that has gone bad is known to the user until it is good again, or confirmed to be dead and then destroyed.
-/

namespace Verif.Server.BadServers

/-- How much time passed. -/
def elapsed : List Ev → Nat
  | [] => 0
  | .tick d :: es => d + elapsed es
  | _ :: es => elapsed es

/-! ## Lemmas -/

theorem elapsed_snoc (es : List Ev) (e : Ev) : elapsed (es ++ [e]) = elapsed es + elapsed [e] := by
  induction es with
  | nil => simp [elapsed]
  | cons a l ih => cases a <;> simp [elapsed, ih] <;> omega

theorem run_snoc {auto : Nat} : ∀ {es : List Ev} {s s'' : S} {e : Ev}, run auto s (es ++ [e]) = some s'' →
    ∃ s', run auto s es = some s' ∧ step auto s' e = some s'' := by
  intro es
  induction es with
  | nil =>
    intro s s'' e h
    simp only [List.nil_append, run] at h
    split at h
    · rename_i s1 h1
      simp only [Option.some.injEq] at h
      subst h
      exact ⟨s, rfl, h1⟩
    · simp at h
  | cons a l ih =>
    intro s s'' e h
    simp only [List.cons_append, run] at h
    split at h
    · rename_i s1 h1
      obtain ⟨s', h2, h3⟩ := ih h
      exact ⟨s', by simp only [run, h1]; exact h2, h3⟩
    · simp at h

/-- Induction over what happened, from its end. -/
theorem run_ind {auto : Nat} {P : List Ev → S → Prop} (h0 : P [] {})
    (hs : ∀ es s e s', run auto {} es = some s → P es s → step auto s e = some s' → P (es ++ [e]) s') :
    ∀ n es s, es.length = n → run auto {} es = some s → P es s := by
  intro n
  induction n with
  | zero =>
    intro es s hl h
    have : es = [] := List.length_eq_zero_iff.mp hl
    subst this
    simp only [run, Option.some.injEq] at h
    subst h
    exact h0
  | succ n ih =>
    intro es s hl h
    have hne : es ≠ [] := by intro h'; simp [h'] at hl
    have hd := List.dropLast_concat_getLast hne
    rw [← hd] at h
    obtain ⟨s1, h1, h2⟩ := run_snoc h
    have := hs _ _ _ _ h1 (ih es.dropLast s1 (by simp [hl]) h1) h2
    rw [hd] at this
    exact this

/-- The fields of the state after `destroy`. -/
theorem destroy_eq (s : S) (id : Nat) (ok : Bool) :
    (destroy s id ok).now = s.now ∧ (destroy s id ok).listed = s.listed ∧ (destroy s id ok).notes = s.notes ∧
    (destroy s id ok).timers = s.timers ∧ (destroy s id ok).asks = s.asks ∧ (destroy s id ok).taken = s.taken ∧
    (destroy s id ok).killed = s.killed ∧ ((destroy s id ok).srv id).destroyed = true ∧
    (∀ k, k ≠ id → (destroy s id ok).srv k = s.srv k) ∧
    ((s.srv id).destroyed = true → (destroy s id ok).srv id = s.srv id) ∧
    ((s.srv id).destroyed = false → ((destroy s id ok).srv id).exist = ((s.srv id).exist && !ok) ∧
      ((destroy s id ok).srv id).bad.isSome = true ∧ ((destroy s id ok).srv id).perm = (s.srv id).perm) := by
  unfold destroy
  by_cases h : (s.srv id).destroyed = true
  · simp [h]
  · have h' : (s.srv id).destroyed = false := by simpa using h
    simp [h', upd]
    intro k hk hk'
    exact absurd hk' hk

theorem mem_eraseIdx_or {α : Type} {l : List α} {i : Nat} {a b : α} (hb : l[i]? = some b) (ha : a ∈ l) :
    a = b ∨ a ∈ l.eraseIdx i := by
  induction l generalizing i with
  | nil => simp at ha
  | cons x l ih =>
    cases i with
    | zero =>
      simp at hb
      subst hb
      simpa using ha
    | succ i =>
      simp at hb
      rcases List.mem_cons.mp ha with h | h
      · exact Or.inr (by simp [h])
      · rcases ih hb h with h | h
        · exact Or.inl h
        · exact Or.inr (by simp [h])

/-- Everything about one server that the properties need. -/
structure Inv (auto id : Nat) (s : S) : Prop where
  known : (s.srv id).bad.isSome = true → (s.srv id).destroyed = false → s.listed id = true ∨ id ∈ s.notes ∨ id ∈ s.taken
  isBad : s.listed id = true → (s.srv id).bad.isSome = true ∨ id ∈ s.notes
  dead : (s.srv id).destroyed = true → (s.srv id).bad.isSome = true
  past : ∀ t, (s.srv id).bad = some t → t ≤ s.now
  timer : 0 < auto → s.listed id = true → (s.srv id).destroyed = false → id ∉ s.notes → ∀ t, (s.srv id).bad = some t →
    ∃ a, (id, a) ∈ s.timers ∧ t + auto ≤ a

theorem inv_init (auto id : Nat) : Inv auto id {} where
  known := by simp
  isBad := by simp
  dead := by simp
  past := by simp
  timer := by simp

theorem inv_destroy {auto id k : Nat} {ok : Bool} {s : S} (h : Inv auto id s) : Inv auto id (destroy s k ok) := by
  obtain ⟨d1, d2, d3, d4, d5, d6, d7, d8, d9, d10, d11⟩ := destroy_eq s k ok
  by_cases hk : id = k
  · subst hk
    by_cases hd : (s.srv id).destroyed = true
    · have : destroy s id ok = s := by unfold destroy; simp [hd]
      rw [this]; exact h
    · have hd' : (s.srv id).destroyed = false := by simpa using hd
      obtain ⟨e1, e2, e3⟩ := d11 hd'
      constructor
      · intro _ hf; rw [d8] at hf; simp at hf
      · intro _; exact Or.inl e2
      · intro _; exact e2
      · intro t ht
        rw [d1]
        unfold destroy at ht
        simp [hd', upd] at ht
        cases hb : (s.srv id).bad with
        | none => simp [hb] at ht; omega
        | some t0 =>
          have := h.past t0 hb
          simp [hb] at ht; omega
      · intro _ _ hf; rw [d8] at hf; simp at hf
  · have e := d9 id hk
    constructor
    · rw [e, d2, d3, d6]; exact h.known
    · rw [e, d2, d3]; exact h.isBad
    · rw [e]; exact h.dead
    · rw [e, d1]; exact h.past
    · rw [e, d2, d3, d4]; exact h.timer

/-- Once a server is destroyed, nothing else matters. -/
theorem inv_dead {auto id : Nat} {ok : Bool} {s : S} (hd : (s.srv id).destroyed = true → (s.srv id).bad.isSome = true)
    (hp : ∀ t, (s.srv id).bad = some t → t ≤ s.now) : Inv auto id (destroy s id ok) := by
  obtain ⟨d1, d2, d3, d4, d5, d6, d7, d8, d9, d10, d11⟩ := destroy_eq s id ok
  have hb : ((destroy s id ok).srv id).bad.isSome = true := by
    by_cases h : (s.srv id).destroyed = true
    · rw [d10 h]; exact hd h
    · exact (d11 (by simpa using h)).2.1
  constructor
  · intro _ hf; rw [d8] at hf; simp at hf
  · intro _; exact Or.inl hb
  · intro _; exact hb
  · intro t ht
    rw [d1]
    by_cases h : (s.srv id).destroyed = true
    · rw [d10 h] at ht; exact hp t ht
    · unfold destroy at ht
      simp [h, upd] at ht
      cases hb : (s.srv id).bad with
      | none => simp [hb] at ht; omega
      | some t0 =>
        have := hp t0 hb
        simp [hb] at ht; omega
  · intro _ _ hf; rw [d8] at hf; simp at hf

/-- Taking a server out of the map is all right if it is destroyed, not bad, about to be told of or held by a request. -/
theorem inv_unlist {auto id k : Nat} {s : S} (h : Inv auto id s)
    (hk : id = k → (s.srv id).bad.isSome = true → (s.srv id).destroyed = false → id ∈ s.notes ∨ id ∈ s.taken) :
    Inv auto id { s with listed := upd s.listed k false } := by
  by_cases e : id = k
  · subst e
    constructor
    · intro h1 h2; exact Or.inr (hk rfl h1 h2)
    · intro hl; simp [upd] at hl
    · exact h.dead
    · exact h.past
    · intro _ hl; simp [upd] at hl
  · constructor
    · simpa [upd, e] using h.known
    · simpa [upd, e] using h.isBad
    · exact h.dead
    · exact h.past
    · simpa [upd, e] using h.timer

theorem inv_killJobs {auto id k : Nat} {s : S} (h : Inv auto id s) : Inv auto id (killJobs s k) :=
  ⟨h.known, h.isBad, h.dead, h.past, h.timer⟩

theorem destroy_unlist (s : S) (k : Nat) (ok : Bool) :
    destroy { s with listed := upd s.listed k false } k ok = { destroy s k ok with listed := upd s.listed k false } := by
  unfold destroy
  split <;> rfl

theorem inv_destroy_unlist {auto id k : Nat} {ok : Bool} {s : S} (h : Inv auto id s) :
    Inv auto id (destroy { s with listed := upd s.listed k false } k ok) := by
  rw [destroy_unlist]
  obtain ⟨d1, d2, d3, d4, d5, d6, d7, d8, d9, d10, d11⟩ := destroy_eq s k ok
  have := inv_unlist (k := k) (inv_destroy (k := k) (ok := ok) h) (by
    intro e _ hf
    rw [e] at hf
    rw [d8] at hf
    simp at hf)
  rw [d2] at this
  exact this

/-- GoneBad, with the callback still to be called, or the server being destroyed at once. -/
theorem inv_bad {auto id k : Nat} {p : Bool} {s : S} (h : Inv auto id s) :
    Inv auto id { goneBad s k p with notes := s.notes ++ [k] } := by
  by_cases e : id = k
  · subst e
    constructor
    · intro _ _; exact Or.inr (Or.inl (by simp))
    · intro _; exact Or.inr (by simp)
    · intro _; simp [goneBad, upd]
    · intro t ht; simp [goneBad, upd] at ht; simp [goneBad]; omega
    · intro _ _ _ hn; exact absurd (by simp) hn
  · have hs : (goneBad s k p).srv id = s.srv id := by simp [goneBad, upd, e]
    constructor
    · intro h1 h2
      have h1 : ((goneBad s k p).srv id).bad.isSome = true := h1
      have h2 : ((goneBad s k p).srv id).destroyed = false := h2
      rw [hs] at h1 h2
      rcases h.known h1 h2 with h | h | h
      · exact Or.inl h
      · exact Or.inr (Or.inl (by simp [h]))
      · exact Or.inr (Or.inr h)
    · intro hl
      rcases h.isBad hl with h | h
      · left; show ((goneBad s k p).srv id).bad.isSome = true; rw [hs]; exact h
      · exact Or.inr (by simp [h])
    · show ((goneBad s k p).srv id).destroyed = true → ((goneBad s k p).srv id).bad.isSome = true
      rw [hs]; exact h.dead
    · show ∀ t, ((goneBad s k p).srv id).bad = some t → t ≤ s.now
      rw [hs]; exact h.past
    · intro ha hl hd hn t ht
      have hd : ((goneBad s k p).srv id).destroyed = false := hd
      have ht : ((goneBad s k p).srv id).bad = some t := ht
      rw [hs] at hd ht
      exact h.timer ha hl hd (fun hm => hn (by simp [hm])) t ht

theorem inv_step {auto id : Nat} {s s' : S} {e : Ev} (h : Inv auto id s) (hs : step auto s e = some s') :
    Inv auto id s' := by
  cases e with
  | bad k p =>
    simp only [step, Option.some.injEq] at hs
    subst hs
    exact inv_bad h
  | good k =>
    simp only [step] at hs
    split at hs
    · rename_i hc
      simp only [Option.some.injEq] at hs
      unfold notBad at hs
      split at hs
      · rename_i hd
        simp only [if_true] at hs
        subst hs
        by_cases e : id = k
        · subst e
          constructor
          · intro h1; simp [upd] at h1
          · intro _; exact Or.inr (by simp)
          · intro h1
            simp [upd] at h1
            simp [h1] at hd
          · intro t ht; simp [upd] at ht
          · intro _ _ _ hn; exact absurd (by simp) hn
        · constructor
          · intro h1 h2
            simp only [upd, e, if_false] at h1 h2
            rcases h.known h1 h2 with h | h | h
            · exact Or.inl h
            · exact Or.inr (Or.inl (by simp [h]))
            · exact Or.inr (Or.inr h)
          · intro hl
            simp only [upd, e, if_false]
            rcases h.isBad hl with h | h
            · exact Or.inl h
            · exact Or.inr (by simp [h])
          · simp only [upd, e, if_false]; exact h.dead
          · simp only [upd, e, if_false]; exact h.past
          · intro ha hl hd hn t ht
            simp only [upd, e, if_false] at hd ht
            exact h.timer ha hl hd (fun hm => hn (by simp [hm])) t ht
      · simp only [Bool.false_eq_true, if_false] at hs
        subst hs
        exact h
    · simp at hs
  | note i =>
    simp only [step] at hs
    split at hs
    · rename_i k hk
      simp only [Option.some.injEq] at hs
      have hmem : ∀ x, x ∈ s.notes → x = k ∨ x ∈ s.notes.eraseIdx i := fun x hx => mem_eraseIdx_or hk hx
      split at hs
      · rename_i hb
        split at hs
        · rename_i hd
          subst hs
          have hd : (s.srv k).destroyed = true := hd
          by_cases e : id = k
          · subst e
            constructor
            · intro _ h2; rw [hd] at h2; simp at h2
            · intro _; exact Or.inl hb
            · exact h.dead
            · exact h.past
            · intro _ _ h2; rw [hd] at h2; simp at h2
          · constructor
            · intro h1 h2
              rcases h.known h1 h2 with h | h | h
              · exact Or.inl h
              · exact Or.inr (Or.inl ((hmem id h).resolve_left e))
              · exact Or.inr (Or.inr h)
            · intro hl
              rcases h.isBad hl with h | h
              · exact Or.inl h
              · exact Or.inr ((hmem id h).resolve_left e)
            · exact h.dead
            · exact h.past
            · intro ha hl h2 hn t ht
              exact h.timer ha hl h2 (fun hm => hn ((hmem id hm).resolve_left e)) t ht
        · rename_i hd
          subst hs
          by_cases e : id = k
          · subst e
            constructor
            · intro _ _; exact Or.inl (by simp [upd])
            · intro _; exact Or.inl hb
            · exact h.dead
            · exact h.past
            · intro ha hl h2 hn t ht
              have := h.past t ht
              refine ⟨s.now + auto, ?_, by omega⟩
              simp [ha]
          · constructor
            · intro h1 h2
              rcases h.known h1 h2 with h | h | h
              · exact Or.inl (by simpa [upd, e] using h)
              · exact Or.inr (Or.inl ((hmem id h).resolve_left e))
              · exact Or.inr (Or.inr h)
            · intro hl
              simp only [upd, e, if_false] at hl
              rcases h.isBad hl with h | h
              · exact Or.inl h
              · exact Or.inr ((hmem id h).resolve_left e)
            · exact h.dead
            · exact h.past
            · intro ha hl h2 hn t ht
              simp only [upd, e, if_false] at hl
              obtain ⟨a, h3, h4⟩ := h.timer ha hl h2 (fun hm => hn ((hmem id hm).resolve_left e)) t ht
              refine ⟨a, ?_, h4⟩
              show (id, a) ∈ if auto > 0 then s.timers ++ [(k, s.now + auto)] else s.timers
              rw [if_pos ha]
              simp [h3]
      · rename_i hb
        subst hs
        have hb : ¬ (s.srv k).bad.isSome = true := hb
        by_cases e : id = k
        · subst e
          constructor
          · intro h1; exact absurd h1 hb
          · intro hl; simp [upd] at hl
          · exact h.dead
          · exact h.past
          · intro _ hl; simp [upd] at hl
        · constructor
          · intro h1 h2
            rcases h.known h1 h2 with h | h | h
            · exact Or.inl (by simpa [upd, e] using h)
            · exact Or.inr (Or.inl ((hmem id h).resolve_left e))
            · exact Or.inr (Or.inr h)
          · intro hl
            simp only [upd, e, if_false] at hl
            rcases h.isBad hl with h | h
            · exact Or.inl h
            · exact Or.inr ((hmem id h).resolve_left e)
          · exact h.dead
          · exact h.past
          · intro ha hl h2 hn t ht
            simp only [upd, e, if_false] at hl
            exact h.timer ha hl h2 (fun hm => hn ((hmem id hm).resolve_left e)) t ht
    · simp at hs
  | tick d =>
    simp only [step, Option.some.injEq] at hs
    subst hs
    exact ⟨h.known, h.isBad, h.dead, fun t ht => Nat.le_trans (h.past t ht) (Nat.le_add_right _ _), h.timer⟩
  | fire i ok =>
    simp only [step] at hs
    split at hs
    · rename_i k a hk
      split at hs
      · rename_i ha
        -- the state without the timer: all but `timer` holds; if it was the timer that matters, the server is destroyed
        split at hs
        · rename_i since hb
          have hb : (s.srv k).bad = some since := hb
          split at hs
          · simp only [Option.some.injEq] at hs
            subst hs
            apply inv_killJobs
            -- with the server destroyed and out of the map, timers do not matter
            by_cases e : id = k
            · subst e
              exact inv_dead h.dead h.past
            · have := inv_destroy_unlist (auto := auto) (id := id) (k := k) (ok := ok)
                (s := { s with timers := s.timers.eraseIdx i }) ?_
              · exact this
              refine ⟨h.known, h.isBad, h.dead, h.past, ?_⟩
              intro h0 hl hd hn t ht
              obtain ⟨b, h3, h4⟩ := h.timer h0 hl hd hn t ht
              refine ⟨b, ?_, h4⟩
              rcases mem_eraseIdx_or hk h3 with h5 | h5
              · simp only [Prod.mk.injEq] at h5; exact absurd h5.1 e
              · exact h5
          · rename_i hc
            simp only [Option.some.injEq] at hs
            subst hs
            refine ⟨h.known, h.isBad, h.dead, h.past, ?_⟩
            intro h0 hl hd hn t ht
            obtain ⟨b, h3, h4⟩ := h.timer h0 hl hd hn t ht
            refine ⟨b, ?_, h4⟩
            rcases mem_eraseIdx_or hk h3 with h5 | h5
            · exfalso
              simp only [Prod.mk.injEq] at h5
              obtain ⟨e1, e2⟩ := h5
              subst e1
              subst e2
              rw [hb] at ht
              simp only [Option.some.injEq] at ht
              subst ht
              apply hc
              have hl' : s.listed id = true := hl
              have hx : s.now - since ≥ auto := by omega
              show (s.listed id && decide (s.now - since ≥ auto)) = true
              simp [hl', hx]
            · exact h5
        · rename_i hb
          have hb : (s.srv k).bad = none := hb
          simp only [Option.some.injEq] at hs
          subst hs
          refine ⟨h.known, h.isBad, h.dead, h.past, ?_⟩
          intro h0 hl hd hn t ht
          obtain ⟨b, h3, h4⟩ := h.timer h0 hl hd hn t ht
          refine ⟨b, ?_, h4⟩
          rcases mem_eraseIdx_or hk h3 with h5 | h5
          · simp only [Prod.mk.injEq] at h5
            rw [h5.1] at ht
            rw [hb] at ht
            simp at ht
          · exact h5
      · simp at hs
    · simp at hs
  | ask k =>
    simp only [step] at hs
    split at hs
    · simp only [Option.some.injEq] at hs
      subst hs
      exact ⟨h.known, h.isBad, h.dead, h.past, h.timer⟩
    · simp at hs
  | confirm i ok =>
    simp only [step] at hs
    split at hs
    · rename_i k hk
      simp only [Option.some.injEq] at hs
      subst hs
      apply inv_killJobs
      have h' : Inv auto id { s with asks := s.asks.eraseIdx i } := ⟨h.known, h.isBad, h.dead, h.past, h.timer⟩
      split
      · exact inv_destroy_unlist h'
      · rename_i hc
        by_cases hl : s.listed k = true
        · apply inv_unlist h'
          intro e hb
          subst e
          exact absurd (by simp [hl]; exact hb) hc
        · apply inv_unlist h'
          intro e hb hd
          subst e
          rcases h.known hb hd with h1 | h1
          · exact absurd h1 hl
          · exact h1
    · simp at hs
  | take k =>
    simp only [step] at hs
    split at hs
    · simp only [Option.some.injEq] at hs
      subst hs
      have h' : Inv auto id { s with taken := s.taken ++ [k] } := by
        refine ⟨?_, h.isBad, h.dead, h.past, h.timer⟩
        intro h1 h2
        rcases h.known h1 h2 with h | h | h
        · exact Or.inl h
        · exact Or.inr (Or.inl h)
        · exact Or.inr (Or.inr (by simp [h]))
      apply inv_unlist h'
      intro e _ _
      right
      show id ∈ s.taken ++ [k]
      simp [e]
    · simp at hs
  | finish i ok =>
    simp only [step] at hs
    split at hs
    · rename_i k hk
      simp only [Option.some.injEq] at hs
      have hmem : ∀ x, x ∈ s.taken → x = k ∨ x ∈ s.taken.eraseIdx i := fun x hx => mem_eraseIdx_or hk hx
      by_cases e : id = k
      · subst e
        split at hs
        · subst hs
          exact inv_dead h.dead h.past
        · rename_i hb
          subst hs
          refine ⟨?_, h.isBad, h.dead, h.past, h.timer⟩
          intro h1
          exact absurd h1 hb
      · have h' : Inv auto id { s with taken := s.taken.eraseIdx i } := by
          refine ⟨?_, h.isBad, h.dead, h.past, h.timer⟩
          intro h1 h2
          rcases h.known h1 h2 with h | h | h
          · exact Or.inl h
          · exact Or.inr (Or.inl h)
          · exact Or.inr (Or.inr ((hmem id h).resolve_left e))
        split at hs
        · subst hs; exact inv_destroy h'
        · subst hs; exact h'
    · simp at hs
  | killHost k ok =>
    simp only [step, Option.some.injEq] at hs
    subst hs
    apply inv_killJobs
    by_cases e : id = k
    · subst e
      refine inv_dead ?_ ?_
      · intro _; simp [goneBad, upd]
      · intro t ht; simp [goneBad, upd] at ht; simp [goneBad]; omega
    · rw [destroy_unlist]
      obtain ⟨d1, d2, d3, d4, d5, d6, d7, d8, d9, d10, d11⟩ := destroy_eq (goneBad s k true) k ok
      have es : (destroy (goneBad s k true) k ok).srv id = s.srv id := by
        rw [d9 id e]; simp [goneBad, upd, e]
      constructor
      · show ((destroy (goneBad s k true) k ok).srv id).bad.isSome = true → ((destroy (goneBad s k true) k ok).srv id).destroyed = false → _
        rw [es]
        intro h2 h3
        rcases h.known h2 h3 with h | h | h
        · left; simp [upd, e, goneBad, h]
        · right; left; show id ∈ (destroy (goneBad s k true) k ok).notes; rw [d3]; exact h
        · right; right; show id ∈ (destroy (goneBad s k true) k ok).taken; rw [d6]; exact h
      · intro hl
        simp only [upd, e, if_false, goneBad] at hl
        rcases h.isBad hl with h | h
        · left; show ((destroy (goneBad s k true) k ok).srv id).bad.isSome = true; rw [es]; exact h
        · right; show id ∈ (destroy (goneBad s k true) k ok).notes; rw [d3]; exact h
      · show ((destroy (goneBad s k true) k ok).srv id).destroyed = true → ((destroy (goneBad s k true) k ok).srv id).bad.isSome = true
        rw [es]; exact h.dead
      · show ∀ t, ((destroy (goneBad s k true) k ok).srv id).bad = some t → t ≤ (destroy (goneBad s k true) k ok).now
        rw [es, d1]; exact h.past
      · intro h0 hl hd hn t ht
        have hd : ((destroy (goneBad s k true) k ok).srv id).destroyed = false := hd
        have ht : ((destroy (goneBad s k true) k ok).srv id).bad = some t := ht
        have hn : id ∉ (destroy (goneBad s k true) k ok).notes := hn
        rw [es] at hd ht
        rw [d3] at hn
        simp only [upd, e, if_false, goneBad] at hl
        show ∃ a, (id, a) ∈ (destroy (goneBad s k true) k ok).timers ∧ _
        rw [d4]
        exact h.timer h0 hl hd hn t ht
  | idle k ok =>
    simp only [step, Option.some.injEq] at hs
    subst hs
    exact inv_destroy h

theorem inv_run {auto id : Nat} {es : List Ev} {s : S} (h : run auto {} es = some s) : Inv auto id s :=
  run_ind (P := fun _ s => Inv auto id s) (inv_init auto id) (fun _ _ _ _ _ hi hs => inv_step hi hs) es.length es s rfl h

/-! ## Properties -/

/-- C103: a server that has gone bad and was not destroyed is in the list of bad servers, unless the scheduler is about to
say so or a user confirmed it to be dead a moment ago. -/
theorem C103_known {auto id : Nat} {es : List Ev} {s : S} (h : run auto {} es = some s)
    (hb : (s.srv id).bad.isSome = true) (hd : (s.srv id).destroyed = false) (hn : id ∉ s.notes) (ht : id ∉ s.taken) :
    s.listed id = true := by
  rcases (inv_run h).known hb hd with h | h | h
  · exact h
  · exact absurd h hn
  · exact absurd h ht

/-- C103: every server in the list of bad servers is bad, unless the scheduler is about to say that it is good again. -/
theorem C103_listed {auto id : Nat} {es : List Ev} {s : S} (h : run auto {} es = some s) (hl : s.listed id = true)
    (hn : id ∉ s.notes) : (s.srv id).bad.isSome = true := by
  rcases (inv_run (id := id) h).isBad hl with h | h
  · exact h
  · exact absurd h hn

example : ∃ s, run 60 {} [.bad 1 false, .note 0, .bad 2 true, .tick 5] = some s ∧ s.listed 1 = true ∧ s.listed 2 = false ∧
    s.notes = [2] ∧ (s.srv 1).bad = some 0 := ⟨_, rfl, rfl, rfl, rfl, rfl⟩

/-- C103: if servers are to be confirmed automatically, there is a timer for every server in the list that is not destroyed;
if the server stays bad and nobody else does, it confirms the server to be dead: the server is destroyed, the jobs on it are
killed, and it leaves the list. -/
theorem C103_auto {auto id : Nat} {es : List Ev} {s : S} (h : run auto {} es = some s) (ha : 0 < auto)
    (hl : s.listed id = true) (hd : (s.srv id).destroyed = false) (hn : id ∉ s.notes) :
    ∃ i a, s.timers[i]? = some (id, a) ∧ ∀ d ok, a ≤ s.now + d → ∃ s', run auto s [.tick d, .fire i ok] = some s' ∧
      (s'.srv id).destroyed = true ∧ id ∈ s'.killed ∧ s'.listed id = false ∧ (ok = true → (s'.srv id).exist = false) := by
  have hi := inv_run (id := id) h
  have hb := C103_listed h hl hn
  obtain ⟨t, ht⟩ := Option.isSome_iff_exists.mp hb
  obtain ⟨a, h1, h2⟩ := hi.timer ha hl hd hn t ht
  obtain ⟨i, hi'⟩ := List.getElem?_of_mem h1
  refine ⟨i, a, hi', ?_⟩
  intro d ok had
  let s1 : S := { s with now := s.now + d, timers := s.timers.eraseIdx i, listed := upd s.listed id false }
  refine ⟨killJobs (destroy s1 id ok) id, ?_, ?_, ?_, ?_, ?_⟩
  · have hx : s.now + d - t ≥ auto := by omega
    simp [run, step, hi', had, ht, hl, hx, s1]
  · exact (destroy_eq s1 id ok).2.2.2.2.2.2.2.1
  · simp [killJobs]
  · show (destroy s1 id ok).listed id = false
    rw [(destroy_eq s1 id ok).2.1]
    simp [s1, upd]
  · intro hok
    show ((destroy s1 id ok).srv id).exist = false
    have hd1 : (s1.srv id).destroyed = false := hd
    rw [((destroy_eq s1 id ok).2.2.2.2.2.2.2.2.2.2 hd1).1, hok]
    simp

example : ∃ s, run 60 {} [.bad 1 false, .note 0, .tick 5] = some s ∧ s.listed 1 = true ∧ (s.srv 1).destroyed = false ∧
    1 ∉ s.notes := ⟨_, rfl, rfl, rfl, by decide⟩

/-- C103: a timer confirms a server to be dead only if the server has been bad, without being found to be good, for the
whole of the configured time. -/
theorem C103_auto_only {auto id i : Nat} {es : List Ev} {s s' : S} {ok : Bool} (h : run auto {} es = some s)
    (hs : step auto s (.fire i ok) = some s') (hd : (s.srv id).destroyed = false) (hd' : (s'.srv id).destroyed = true) :
    ∃ es1 p es2, es = es1 ++ .bad id p :: es2 ∧ .good id ∉ es2 ∧ auto ≤ elapsed es2 := by
  have key : ∀ n es s, es.length = n → run auto {} es = some s → ∀ t, (s.srv id).bad = some t →
      (s.srv id).destroyed = false →
      ∃ es1 p es2, es = es1 ++ .bad id p :: es2 ∧ .good id ∉ es2 ∧ s.now = t + elapsed es2 := by
    apply run_ind (P := fun es s => ∀ t, (s.srv id).bad = some t → (s.srv id).destroyed = false →
      ∃ es1 p es2, es = es1 ++ .bad id p :: es2 ∧ .good id ∉ es2 ∧ s.now = t + elapsed es2)
    · intro t ht; simp at ht
    · intro es s e s' _ hi hs t ht hd
      -- the server was bad before, and it is another event
      have old : (∀ t, (s'.srv id).bad = some t → (s.srv id).bad = some t) → (s.srv id).destroyed = false → e ≠ .good id →
          s'.now = s.now + elapsed [e] →
          ∃ es1 p es2, es ++ [e] = es1 ++ .bad id p :: es2 ∧ .good id ∉ es2 ∧ s'.now = t + elapsed es2 := by
        intro h1 h2 h3 h4
        obtain ⟨es1, p, es2, g1, g2, g3⟩ := hi t (h1 t ht) h2
        refine ⟨es1, p, es2 ++ [e], by simp [g1], ?_, ?_⟩
        · intro hm
          rcases List.mem_append.mp hm with hm | hm
          · exact g2 hm
          · simp at hm; exact h3 hm.symm
        · rw [elapsed_snoc]; omega
      have dest : ∀ (s0 : S) k ok, (s0.srv = s.srv) → s'.srv = (destroy s0 k ok).srv →
          s'.srv id = s.srv id := by
        intro s0 k ok h1 h2
        obtain ⟨d1, d2, d3, d4, d5, d6, d7, d8, d9, d10, d11⟩ := destroy_eq s0 k ok
        by_cases e : id = k
        · subst e
          rw [h2, d8] at hd
          simp at hd
        · rw [h2, d9 id e, h1]
      cases e with
      | bad k p =>
        simp only [step, Option.some.injEq] at hs
        by_cases e : k = id
        · subst e
          subst hs
          refine ⟨es, p, [], by simp, by simp, ?_⟩
          simp [goneBad, upd] at ht
          simp [elapsed, goneBad, ht]
        · have e' : ¬ id = k := fun h => e h.symm
          subst hs
          have hsrv : (goneBad s k p).srv id = s.srv id := by simp [goneBad, upd, e']
          apply old
          · intro t ht
            have ht : ((goneBad s k p).srv id).bad = some t := ht
            rw [hsrv] at ht; exact ht
          · have hd : ((goneBad s k p).srv id).destroyed = false := hd
            rw [hsrv] at hd; exact hd
          · simp
          · simp [elapsed, goneBad]
      | good k =>
        simp only [step] at hs
        split at hs
        · rename_i hc
          simp only [Option.some.injEq] at hs
          unfold notBad at hs
          split at hs
          · simp only [if_true] at hs
            subst hs
            by_cases e : id = k
            · subst e; simp [upd] at ht
            · apply old
              · intro t ht; simpa [upd, e] using ht
              · simpa [upd, e] using hd
              · simp; exact fun h => e h.symm
              · simp [elapsed]
          · rename_i hc2
            simp only [Bool.false_eq_true, if_false] at hs
            subst hs
            by_cases e : id = k
            · subst e
              simp only [hd, Bool.and_eq_true, Bool.not_eq_true'] at hc hc2
              exact absurd ⟨trivial, hc.2⟩ hc2
            · exact old (fun t ht => ht) hd (by simp; exact fun h => e h.symm) (by simp [elapsed])
        · simp at hs
      | note i =>
        simp only [step] at hs
        split at hs
        · simp only [Option.some.injEq] at hs
          have hx : s'.srv = s.srv ∧ s'.now = s.now := by
            split at hs
            · split at hs <;> (subst hs; exact ⟨rfl, rfl⟩)
            · subst hs; exact ⟨rfl, rfl⟩
          exact old (by rw [hx.1]; exact fun t h => h) (by rw [← hx.1]; exact hd) (by simp) (by simp [elapsed, hx.2])
        · simp at hs
      | tick d =>
        simp only [step, Option.some.injEq] at hs
        subst hs
        exact old (fun t h => h) hd (by simp) (by simp [elapsed])
      | fire i ok =>
        simp only [step] at hs
        split at hs
        · rename_i k a hk
          split at hs
          · split at hs
            · split at hs
              · simp only [Option.some.injEq] at hs
                have hnow : s'.now = s.now := by
                  subst hs; exact (destroy_eq _ _ _).1
                have := dest { s with timers := s.timers.eraseIdx i, listed := upd s.listed k false } k ok rfl (by subst hs; rfl)
                exact old (by rw [this]; exact fun t h => h) (by rw [← this]; exact hd) (by simp) (by simp [elapsed, hnow])
              · simp only [Option.some.injEq] at hs
                subst hs
                exact old (fun t h => h) hd (by simp) (by simp [elapsed])
            · simp only [Option.some.injEq] at hs
              subst hs
              exact old (fun t h => h) hd (by simp) (by simp [elapsed])
          · simp at hs
        · simp at hs
      | ask k =>
        simp only [step] at hs
        split at hs
        · simp only [Option.some.injEq] at hs
          subst hs
          exact old (fun t h => h) hd (by simp) (by simp [elapsed])
        · simp at hs
      | confirm i ok =>
        simp only [step] at hs
        split at hs
        · rename_i k hk
          simp only [Option.some.injEq] at hs
          split at hs
          · have hnow : s'.now = s.now := by
              subst hs; exact (destroy_eq _ _ _).1
            have := dest { s with asks := s.asks.eraseIdx i, listed := upd s.listed k false } k ok rfl (by subst hs; rfl)
            exact old (by rw [this]; exact fun t h => h) (by rw [← this]; exact hd) (by simp) (by simp [elapsed, hnow])
          · subst hs
            exact old (fun t h => h) hd (by simp) (by simp [elapsed, killJobs])
        · simp at hs
      | take k =>
        simp only [step] at hs
        split at hs
        · simp only [Option.some.injEq] at hs
          subst hs
          exact old (fun t h => h) hd (by simp) (by simp [elapsed])
        · simp at hs
      | finish i ok =>
        simp only [step] at hs
        split at hs
        · rename_i k hk
          simp only [Option.some.injEq] at hs
          split at hs
          · have hnow : s'.now = s.now := by
              subst hs; exact (destroy_eq _ _ _).1
            have := dest { s with taken := s.taken.eraseIdx i } k ok rfl (by subst hs; rfl)
            exact old (by rw [this]; exact fun t h => h) (by rw [← this]; exact hd) (by simp) (by simp [elapsed, hnow])
          · subst hs
            exact old (fun t h => h) hd (by simp) (by simp [elapsed])
        · simp at hs
      | killHost k ok =>
        simp only [step, Option.some.injEq] at hs
        obtain ⟨d1, d2, d3, d4, d5, d6, d7, d8, d9, d10, d11⟩ :=
          destroy_eq { goneBad s k true with listed := upd (goneBad s k true).listed k false } k ok
        have hnow : s'.now = s.now := by subst hs; exact d1
        by_cases e : id = k
        · subst e
          subst hs
          have hd : ((destroy { goneBad s id true with listed := upd (goneBad s id true).listed id false } id ok).srv id).destroyed = false := hd
          rw [d8] at hd
          simp at hd
        · have hx : s'.srv id = s.srv id := by
            subst hs
            show (destroy { goneBad s k true with listed := upd (goneBad s k true).listed k false } k ok).srv id = s.srv id
            rw [d9 id e]
            simp [goneBad, upd, e]
          exact old (by rw [hx]; exact fun t h => h) (by rw [← hx]; exact hd) (by simp) (by simp [elapsed, hnow])
      | idle k ok =>
        simp only [step, Option.some.injEq] at hs
        have hnow : s'.now = s.now := by subst hs; exact (destroy_eq _ _ _).1
        have := dest s k ok rfl (by subst hs; rfl)
        exact old (by rw [this]; exact fun t h => h) (by rw [← this]; exact hd) (by simp) (by simp [elapsed, hnow])
  simp only [step] at hs
  split at hs
  · rename_i k a hk
    split at hs
    · split at hs
      · rename_i since hb
        have hb : (s.srv k).bad = some since := hb
        split at hs
        · rename_i hc
          simp only [Option.some.injEq] at hs
          have e : id = k := by
            apply Classical.byContradiction
            intro e
            have : s'.srv id = s.srv id := by
              subst hs
              exact (destroy_eq _ k ok).2.2.2.2.2.2.2.2.1 id e
            rw [this, hd] at hd'
            simp at hd'
          subst e
          obtain ⟨es1, p, es2, g1, g2, g3⟩ := key es.length es s rfl h since hb hd
          refine ⟨es1, p, es2, g1, g2, ?_⟩
          have hc : (s.listed id && decide (s.now - since ≥ auto)) = true := hc
          simp at hc
          omega
        · simp only [Option.some.injEq] at hs
          subst hs
          exact absurd hd' (by simp [hd])
      · simp only [Option.some.injEq] at hs
        subst hs
        exact absurd hd' (by simp [hd])
    · simp at hs
  · simp at hs

example : ∃ s s', run 60 {} [.bad 1 false, .note 0, .tick 70] = some s ∧ step 60 s (.fire 0 true) = some s' ∧
    (s.srv 1).destroyed = false ∧ (s'.srv 1).destroyed = true ∧ s'.killed = [1] := ⟨_, _, rfl, rfl, rfl, rfl, rfl⟩

theorem step_stays {auto id : Nat} {s s' : S} {e : Ev} (h : step auto s e = some s')
    (hd : (s.srv id).destroyed = true ∧ (s.srv id).bad.isSome = true) :
    ((s'.srv id).destroyed = true ∧ (s'.srv id).bad.isSome = true) ∧ (s'.srv id).exist = (s.srv id).exist := by
  have dest : ∀ (s0 : S) k ok, s0.srv = s.srv → (destroy s0 k ok).srv id = s.srv id := by
    intro s0 k ok h1
    obtain ⟨d1, d2, d3, d4, d5, d6, d7, d8, d9, d10, d11⟩ := destroy_eq s0 k ok
    by_cases e : id = k
    · subst e
      rw [d10 (by rw [h1]; exact hd.1), h1]
    · rw [d9 id e, h1]
  have fin : s'.srv id = s.srv id → ((s'.srv id).destroyed = true ∧ (s'.srv id).bad.isSome = true) ∧
      (s'.srv id).exist = (s.srv id).exist := by
    intro h; rw [h]; exact ⟨hd, rfl⟩
  cases e with
  | bad k p =>
    simp only [step, Option.some.injEq] at h
    subst h
    by_cases e : id = k
    · subst e; simp [goneBad, upd, hd.1]
    · exact fin (by simp [goneBad, upd, e])
  | good k =>
    simp only [step] at h
    split at h
    · simp only [Option.some.injEq] at h
      unfold notBad at h
      split at h
      · rename_i hc
        simp only [if_true] at h
        subst h
        by_cases e : id = k
        · subst e; simp [hd.1] at hc
        · exact fin (by simp [upd, e])
      · simp only [Bool.false_eq_true, if_false] at h
        subst h; exact fin rfl
    · simp at h
  | note i =>
    simp only [step] at h
    split at h
    · simp only [Option.some.injEq] at h
      split at h
      · split at h <;> (subst h; exact fin rfl)
      · subst h; exact fin rfl
    · simp at h
  | tick d =>
    simp only [step, Option.some.injEq] at h
    subst h; exact fin rfl
  | fire i ok =>
    simp only [step] at h
    split at h
    · rename_i k a hk
      split at h
      · split at h
        · split at h
          · simp only [Option.some.injEq] at h
            subst h
            exact fin (dest { s with timers := s.timers.eraseIdx i, listed := upd s.listed k false } k ok rfl)
          · simp only [Option.some.injEq] at h
            subst h; exact fin rfl
        · simp only [Option.some.injEq] at h
          subst h; exact fin rfl
      · simp at h
    · simp at h
  | ask k =>
    simp only [step] at h
    split at h
    · simp only [Option.some.injEq] at h
      subst h; exact fin rfl
    · simp at h
  | confirm i ok =>
    simp only [step] at h
    split at h
    · rename_i k hk
      simp only [Option.some.injEq] at h
      split at h
      · subst h
        exact fin (dest { s with asks := s.asks.eraseIdx i, listed := upd s.listed k false } k ok rfl)
      · subst h; exact fin rfl
    · simp at h
  | take k =>
    simp only [step] at h
    split at h
    · simp only [Option.some.injEq] at h
      subst h; exact fin rfl
    · simp at h
  | finish i ok =>
    simp only [step] at h
    split at h
    · rename_i k hk
      simp only [Option.some.injEq] at h
      split at h
      · subst h
        exact fin (dest { s with taken := s.taken.eraseIdx i } k ok rfl)
      · subst h; exact fin rfl
    · simp at h
  | killHost k ok =>
    simp only [step, Option.some.injEq] at h
    subst h
    obtain ⟨d1, d2, d3, d4, d5, d6, d7, d8, d9, d10, d11⟩ :=
      destroy_eq { goneBad s k true with listed := upd (goneBad s k true).listed k false } k ok
    by_cases e : id = k
    · subst e
      have hg : ((goneBad s id true).srv id).destroyed = true := by simp [goneBad, upd, hd.1]
      have hx := d10 hg
      have hy : (killJobs (destroy { goneBad s id true with listed := upd (goneBad s id true).listed id false } id ok) id).srv id
          = (goneBad s id true).srv id := hx
      rw [hy]
      simp [goneBad, upd, hd.1]
    · apply fin
      show (destroy { goneBad s k true with listed := upd (goneBad s k true).listed k false } k ok).srv id = s.srv id
      rw [d9 id e]
      simp [goneBad, upd, e]
  | idle k ok =>
    simp only [step, Option.some.injEq] at h
    subst h
    exact fin (dest s k ok rfl)

/-- C103: a server that was destroyed is never good again. -/
theorem C103_destroyed {auto id : Nat} : ∀ {es : List Ev} {s s' : S}, run auto s es = some s' →
    (s.srv id).destroyed = true ∧ (s.srv id).bad.isSome = true →
    ((s'.srv id).destroyed = true ∧ (s'.srv id).bad.isSome = true) ∧ (s'.srv id).exist = (s.srv id).exist := by
  intro es
  induction es with
  | nil =>
    intro s s' h hd
    simp only [run, Option.some.injEq] at h
    subst h; exact ⟨hd, rfl⟩
  | cons e es ih =>
    intro s s' h hd
    simp only [run] at h
    split at h
    · rename_i s1 h1
      obtain ⟨a, b⟩ := step_stays h1 hd
      obtain ⟨c, d⟩ := ih h a
      exact ⟨c, d.trans b⟩
    · simp at h

/-- C103: a server with a permanent problem that has gone bad stays so. -/
theorem C103_permanent {auto id : Nat} {s s' : S} {e : Ev} (h : step auto s e = some s') (hp : (s.srv id).perm = true)
    (hb : (s.srv id).bad.isSome = true) : (s'.srv id).perm = true ∧ (s'.srv id).bad.isSome = true := by
  have dest : ∀ (s0 : S) k ok, (s0.srv id).perm = true → (s0.srv id).bad.isSome = true →
      ((destroy s0 k ok).srv id).perm = true ∧ ((destroy s0 k ok).srv id).bad.isSome = true := by
    intro s0 k ok h1 h2
    obtain ⟨d1, d2, d3, d4, d5, d6, d7, d8, d9, d10, d11⟩ := destroy_eq s0 k ok
    by_cases e : id = k
    · subst e
      by_cases hd : (s0.srv id).destroyed = true
      · rw [d10 hd]; exact ⟨h1, h2⟩
      · obtain ⟨e1, e2, e3⟩ := d11 (by simpa using hd)
        exact ⟨e3.trans h1, e2⟩
    · rw [d9 id e]; exact ⟨h1, h2⟩
  cases e with
  | bad k p =>
    simp only [step, Option.some.injEq] at h
    subst h
    by_cases e : id = k
    · subst e; simp [goneBad, upd, hp]
    · simp [goneBad, upd, e, hp, hb]
  | good k =>
    simp only [step] at h
    split at h
    · rename_i hc
      simp only [Option.some.injEq] at h
      by_cases e : id = k
      · subst e; simp [hp] at hc
      · unfold notBad at h
        split at h
        · simp only [if_true] at h
          subst h
          simp [upd, e, hp, hb]
        · simp only [Bool.false_eq_true, if_false] at h
          subst h; exact ⟨hp, hb⟩
    · simp at h
  | note i =>
    simp only [step] at h
    split at h
    · simp only [Option.some.injEq] at h
      split at h
      · split at h <;> (subst h; exact ⟨hp, hb⟩)
      · subst h; exact ⟨hp, hb⟩
    · simp at h
  | tick d =>
    simp only [step, Option.some.injEq] at h
    subst h; exact ⟨hp, hb⟩
  | fire i ok =>
    simp only [step] at h
    split at h
    · rename_i k a hk
      split at h
      · split at h
        · split at h
          · simp only [Option.some.injEq] at h
            subst h
            exact dest _ k ok hp hb
          · simp only [Option.some.injEq] at h
            subst h; exact ⟨hp, hb⟩
        · simp only [Option.some.injEq] at h
          subst h; exact ⟨hp, hb⟩
      · simp at h
    · simp at h
  | ask k =>
    simp only [step] at h
    split at h
    · simp only [Option.some.injEq] at h
      subst h; exact ⟨hp, hb⟩
    · simp at h
  | confirm i ok =>
    simp only [step] at h
    split at h
    · rename_i k hk
      simp only [Option.some.injEq] at h
      split at h
      · subst h
        exact dest _ k ok hp hb
      · subst h; exact ⟨hp, hb⟩
    · simp at h
  | take k =>
    simp only [step] at h
    split at h
    · simp only [Option.some.injEq] at h
      subst h; exact ⟨hp, hb⟩
    · simp at h
  | finish i ok =>
    simp only [step] at h
    split at h
    · rename_i k hk
      simp only [Option.some.injEq] at h
      split at h
      · subst h
        exact dest _ k ok hp hb
      · subst h; exact ⟨hp, hb⟩
    · simp at h
  | killHost k ok =>
    simp only [step, Option.some.injEq] at h
    subst h
    apply dest
    · by_cases e : id = k
      · simp [goneBad, upd, e]
      · simp [goneBad, upd, e, hp]
    · by_cases e : id = k
      · simp [goneBad, upd, e]
      · simp [goneBad, upd, e, hb]
  | idle k ok =>
    simp only [step, Option.some.injEq] at h
    subst h
    exact dest s k ok hp hb

example : ∃ s, run 0 {} [.bad 1 true, .note 0] = some s ∧ (s.srv 1).perm = true ∧ (s.srv 1).bad.isSome = true :=
  ⟨_, rfl, rfl, rfl⟩

/-- C103 (for a server that still is in the list and bad when it is confirmed): jobs on a server are only killed when the
server has been destroyed and taken out of the list. -/
theorem C103_killed_partial {auto id : Nat} {s s' : S} {e : Ev} (h : step auto s e = some s')
    (hk : s'.killed = s.killed ++ [id])
    (hc : ∀ i ok, e = .confirm i ok → s.listed id = true ∧ (s.srv id).bad.isSome = true) :
    (s'.srv id).destroyed = true ∧ s'.listed id = false := by
  have same : s'.killed = s.killed → (s'.srv id).destroyed = true ∧ s'.listed id = false := by
    intro h'
    rw [h'] at hk
    simp at hk
  have kill : ∀ (s0 : S) k ok, s0.killed = s.killed →
      s' = killJobs (destroy { s0 with listed := upd s0.listed k false } k ok) k →
      (s'.srv id).destroyed = true ∧ s'.listed id = false := by
    intro s0 k ok h1 h2
    obtain ⟨d1, d2, d3, d4, d5, d6, d7, d8, d9, d10, d11⟩ :=
      destroy_eq { s0 with listed := upd s0.listed k false } k ok
    have e : k = id := by
      have : s'.killed = s.killed ++ [k] := by
        rw [h2, ← h1]
        show (destroy { s0 with listed := upd s0.listed k false } k ok).killed ++ [k] = _
        rw [d7]
      rw [this] at hk
      simpa using hk
    subst e
    subst h2
    refine ⟨d8, ?_⟩
    show (destroy { s0 with listed := upd s0.listed k false } k ok).listed k = false
    rw [d2]
    simp [upd]
  cases e with
  | bad k p =>
    simp only [step, Option.some.injEq] at h
    exact same (by subst h; rfl)
  | good k =>
    simp only [step] at h
    split at h
    · simp only [Option.some.injEq] at h
      apply same
      unfold notBad at h
      split at h
      · simp only [if_true] at h
        subst h; rfl
      · simp only [Bool.false_eq_true, if_false] at h
        subst h; rfl
    · simp at h
  | note i =>
    simp only [step] at h
    split at h
    · simp only [Option.some.injEq] at h
      apply same
      split at h
      · split at h <;> (subst h; rfl)
      · subst h; rfl
    · simp at h
  | tick d =>
    simp only [step, Option.some.injEq] at h
    exact same (by subst h; rfl)
  | fire i ok =>
    simp only [step] at h
    split at h
    · rename_i k a hk
      split at h
      · split at h
        · split at h
          · simp only [Option.some.injEq] at h
            exact kill { s with timers := s.timers.eraseIdx i } k ok rfl h.symm
          · simp only [Option.some.injEq] at h
            exact same (by subst h; rfl)
        · simp only [Option.some.injEq] at h
          exact same (by subst h; rfl)
      · simp at h
    · simp at h
  | ask k =>
    simp only [step] at h
    split at h
    · simp only [Option.some.injEq] at h
      exact same (by subst h; rfl)
    · simp at h
  | confirm i ok =>
    obtain ⟨c1, c2⟩ := hc i ok rfl
    simp only [step] at h
    split at h
    · rename_i k hki
      simp only [Option.some.injEq] at h
      split at h
      · exact kill { s with asks := s.asks.eraseIdx i } k ok rfl h.symm
      · rename_i hn
        have e : k = id := by
          have : s'.killed = s.killed ++ [k] := by rw [← h]; rfl
          rw [this] at hk
          simpa using hk
        subst e
        exact absurd (by simp [c1, c2]) hn
    · simp at h
  | take k =>
    simp only [step] at h
    split at h
    · simp only [Option.some.injEq] at h
      exact same (by subst h; rfl)
    · simp at h
  | finish i ok =>
    simp only [step] at h
    split at h
    · rename_i k hk
      simp only [Option.some.injEq] at h
      apply same
      split at h
      · subst h; exact (destroy_eq _ _ _).2.2.2.2.2.2.1
      · subst h; rfl
    · simp at h
  | killHost k ok =>
    simp only [step, Option.some.injEq] at h
    exact kill (goneBad s k true) k ok rfl h.symm
  | idle k ok =>
    simp only [step, Option.some.injEq] at h
    apply same
    subst h
    exact (destroy_eq _ _ _).2.2.2.2.2.2.1

example : ∃ s s', run 0 {} [.bad 1 false, .note 0, .ask 1] = some s ∧ step 0 s (.confirm 0 true) = some s' ∧
    s.listed 1 = true ∧ (s.srv 1).bad.isSome = true ∧ s'.killed = [1] := ⟨_, _, rfl, rfl, rfl, rfl, rfl⟩

/-- C103: a server that is killed by its host name, or confirmed to be dead while it is in the list and bad, is destroyed and
leaves the list, and the jobs on it are killed. -/
theorem C103_confirmed {auto id : Nat} {s : S} (ok : Bool) {e : Ev}
    (h : e = .killHost id ok ∨ ∃ i, e = .confirm i ok ∧ s.asks[i]? = some id ∧ s.listed id = true ∧
      (s.srv id).bad.isSome = true) :
    ∃ s', step auto s e = some s' ∧ (s'.srv id).destroyed = true ∧ s'.listed id = false ∧ s'.killed = s.killed ++ [id] ∧
      (ok = true → (s.srv id).destroyed = false → (s'.srv id).exist = false) := by
  have key : ∀ s0 : S, s0.killed = s.killed → (s0.srv id).destroyed = (s.srv id).destroyed →
      ∃ s', some (killJobs (destroy { s0 with listed := upd s0.listed id false } id ok) id) = some s' ∧
        (s'.srv id).destroyed = true ∧ s'.listed id = false ∧ s'.killed = s.killed ++ [id] ∧
      (ok = true → (s.srv id).destroyed = false → (s'.srv id).exist = false) := by
    intro s0 h1 h2
    obtain ⟨d1, d2, d3, d4, d5, d6, d7, d8, d9, d10, d11⟩ :=
      destroy_eq { s0 with listed := upd s0.listed id false } id ok
    refine ⟨_, rfl, d8, ?_, ?_, ?_⟩
    · show (destroy { s0 with listed := upd s0.listed id false } id ok).listed id = false
      rw [d2]; simp [upd]
    · show (destroy { s0 with listed := upd s0.listed id false } id ok).killed ++ [id] = _
      rw [d7, ← h1]
    · intro h3 h4
      show ((destroy { s0 with listed := upd s0.listed id false } id ok).srv id).exist = false
      rw [(d11 (h2.trans h4)).1, h3]; simp
  rcases h with h | ⟨i, h, h1, h2, h3⟩
  · subst h
    exact key (goneBad s id true) rfl (by simp [goneBad, upd])
  · subst h
    simp only [step, h1, h2, h3, Bool.and_self, if_true]
    exact key { s with asks := s.asks.eraseIdx i } rfl rfl

example : ∃ s : S, run 0 {} [.bad 1 false, .note 0, .ask 1] = some s ∧ s.asks[0]? = some 1 ∧ s.listed 1 = true ∧
    (s.srv 1).bad.isSome = true := ⟨_, rfl, rfl, rfl, rfl⟩

/-- C103: the timer leaves alone a server that is not in the list any more: one that got good, or that a user confirmed to be
dead before. -/
theorem C103_timer {auto id i : Nat} {s s' : S} {ok : Bool} (h : step auto s (.fire i ok) = some s')
    (hl : s.listed id = false) : s'.srv id = s.srv id ∧ s'.killed.count id = s.killed.count id := by
  simp only [step] at h
  split at h
  · rename_i k a hk
    split at h
    · split at h
      · split at h
        · rename_i hc
          simp only [Option.some.injEq] at h
          have e : ¬ id = k := by
            intro e
            subst e
            have hc : (s.listed id && _) = true := hc
            simp [hl] at hc
          obtain ⟨d1, d2, d3, d4, d5, d6, d7, d8, d9, d10, d11⟩ :=
            destroy_eq { s with timers := s.timers.eraseIdx i, listed := upd s.listed k false } k ok
          subst h
          refine ⟨d9 id e, ?_⟩
          show ((destroy { s with timers := s.timers.eraseIdx i, listed := upd s.listed k false } k ok).killed ++ [k]).count id = _
          rw [d7]
          have e' : ¬ k = id := fun h => e h.symm
          simp [List.count_cons, e']
        · simp only [Option.some.injEq] at h
          subst h; exact ⟨rfl, rfl⟩
      · simp only [Option.some.injEq] at h
        subst h; exact ⟨rfl, rfl⟩
    · simp at h
  · simp at h

example : ∃ s s', run 60 {} [.bad 1 false, .note 0, .take 1, .tick 70] = some s ∧ s.listed 1 = false ∧
    step 60 s (.fire 0 true) = some s' := ⟨_, _, rfl, rfl, rfl⟩

/-! ### Violations -/

/-- C103 is violated: the list is copied before the lock is taken, so that the jobs on a server that was found to be good in
the meantime are killed when bad servers are confirmed to be dead, and the server is reported as confirmed though it is not
destroyed. -/
theorem C103_violated_good : ∃ es s, run 0 {} es = some s ∧ s.killed = [1] ∧ (s.srv 1).destroyed = false ∧
    (s.srv 1).bad = none ∧ s.notes = [] ∧ (s.srv 1).exist = true :=
  ⟨[.bad 1 false, .note 0, .ask 1, .good 1, .note 0, .confirm 0 true], _, rfl, rfl, rfl, rfl, rfl, rfl⟩

/-- C103 is violated: if the provider fails to destroy a server that was confirmed to be dead, the server counts as
destroyed and its jobs as dead, but the machine runs for ever: it is not listed, and nothing that anybody can do with wr
makes it go away. -/
theorem C103_violated_leak : ∃ es s, run 0 {} es = some s ∧ s.killed = [1] ∧ s.listed 1 = false ∧
    ∀ more s', run 0 s more = some s' → (s'.srv 1).exist = true := by
  refine ⟨[.bad 1 false, .note 0, .ask 1, .confirm 0 false], _, rfl, rfl, rfl, ?_⟩
  intro more s' h
  exact (C103_destroyed (id := 1) h ⟨rfl, rfl⟩).2

/-- C103 is violated: confirming a server to be dead over the REST API or on the status page destroys it, but does not kill
the jobs on it. -/
theorem C103_violated_jobs : ∃ es s, run 0 {} es = some s ∧ (s.srv 1).destroyed = true ∧ (s.srv 1).exist = false ∧
    s.killed = [] ∧ s.taken = [] ∧ s.listed 1 = false :=
  ⟨[.bad 1 false, .note 0, .take 1, .finish 0 true], _, rfl, rfl, rfl, rfl, rfl, rfl⟩

end Verif.Server.BadServers
