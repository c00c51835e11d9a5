import Verif.Server.Push
/-
Invariants of the model of details on web pages.
-/
namespace Verif.Server.Push

theorem run_append (es fs : List Ev) (s : S) : run s (es ++ fs) = (run s es).bind fun t => run t fs := by
  induction es generalizing s with
  | nil => rfl
  | cons e es ih =>
    simp only [List.cons_append, run]
    cases step s e with
    | none => rfl
    | some u => simp [ih]

theorem run_inv {P : S → Prop} (hstep : ∀ s e t, P s → step s e = some t → P t) :
    ∀ (es : List Ev) (s t : S), P s → run s es = some t → P t := by
  intro es
  induction es with
  | nil => intro s t hs h; simp [run] at h; subst h; exact hs
  | cons e es ih =>
    intro s t hs h
    simp only [run] at h
    cases h1 : step s e with
    | none => simp [h1] at h
    | some u => simp [h1] at h; exact ih u t (hstep s e u hs h1) h

theorem awaits_iff (s : S) (c k : Nat) : awaits s c k = true ↔
    (∃ ks, ks ∈ s.pend ∧ k ∈ ks) ∨ (∃ w, w ∈ s.work ∧ k ∈ w.keys ∧ (c, k) ∈ w.subs) := by
  simp [awaits]

/-- erasing an element of a list keeps the others -/
theorem mem_erase_or {α : Type} {l : List α} {i : Nat} {a x : α} (h : l[i]? = some a) (hx : x ∈ l) : x = a ∨ x ∈ l.eraseIdx i := by
  induction l generalizing i with
  | nil => simp at hx
  | cons b l ih =>
    cases i with
    | zero => simp at h; subst h; simpa using hx
    | succ i =>
      simp at h
      rcases List.mem_cons.1 hx with h1 | h1
      · right; simp [h1]
      · rcases ih h h1 with h2 | h2
        · left; exact h2
        · right; simp [h2]

theorem mem_set_or {α : Type} {l : List α} {i : Nat} {a b x : α} (h : l[i]? = some a) (hx : x ∈ l) : x = a ∨ x ∈ l.set i b := by
  obtain ⟨hi, he⟩ := List.getElem?_eq_some_iff.1 h
  obtain ⟨j, hj, hje⟩ := List.getElem_of_mem hx
  by_cases hij : i = j
  · subst hij; left; rw [← hje, ← he]
  · right
    apply List.mem_iff_getElem.2
    exact ⟨j, by simpa using hj, by rw [List.getElem_set_ne hij]; exact hje⟩

theorem mem_set_self' {α : Type} {l : List α} {i : Nat} {a b : α} (h : l[i]? = some a) : b ∈ l.set i b := by
  obtain ⟨hi, -⟩ := List.getElem?_eq_some_iff.1 h
  exact List.mem_set hi _

/-- subscriptions are of open pages, and their details have been written or are going to be -/
structure Inv (s : S) : Prop where
  live : ∀ c k, (c, k) ∈ s.subs → c ∈ s.conns
  told : ∀ c k, (c, k) ∈ s.subs → (c, k) ∉ s.late → awaits s c k = true ∨ ⟨c, k, s.ver k⟩ ∈ s.fly ∨ ⟨c, k, s.ver k⟩ ∈ s.got

theorem inv_init : Inv {} := ⟨by intro c k h; simp at h, by intro c k h; simp at h⟩

theorem inv_step (s : S) (e : Ev) (t : S) (h : Inv s) (hs : step s e = some t) : Inv t := by
  obtain ⟨hl, ht⟩ := h
  cases e with
  | openConn c0 =>
    simp only [step] at hs
    split at hs
    · cases hs
    · cases hs
      exact ⟨fun c k hc => List.mem_cons_of_mem _ (hl c k hc), fun c k hc hn => ht c k hc hn⟩
  | close c0 =>
    simp only [step] at hs; cases hs
    refine ⟨?_, ?_⟩
    · intro c k hc
      simp only [List.mem_filter] at hc ⊢
      exact ⟨hl c k hc.1, hc.2⟩
    · intro c k hc hn
      exact ht c k (List.mem_filter.1 hc).1 hn
  | change ks =>
    simp only [step] at hs; cases hs
    refine ⟨hl, ?_⟩
    intro c k hc hn
    by_cases hk : k ∈ ks
    · left; rw [awaits_iff]; left; exact ⟨ks, by simp, hk⟩
    · have hn' : (c, k) ∉ s.late := fun hm => hn (List.mem_filter.2 ⟨hm, by simpa using hk⟩)
      rcases ht c k hc hn' with h1 | h1
      · left
        rw [awaits_iff] at h1 ⊢
        rcases h1 with ⟨l, h1, h2⟩ | h1
        · left; exact ⟨l, by simp [h1], h2⟩
        · right; exact h1
      · right; simpa [hk] using h1
  | touch k0 =>
    simp only [step] at hs; cases hs
    refine ⟨hl, ?_⟩
    intro c k hc hn
    simp only [List.mem_append, not_or] at hn
    rcases ht c k hc hn.1 with h1 | h1
    · left; exact h1
    · by_cases hk : k = k0
      · have := hn.2
        simp only [List.mem_filter, hk, hc] at this
        left
        subst hk
        show awaits s c k = true
        cases ha : awaits s c k with
        | true => rfl
        | false => exact absurd ⟨hc, by simp [ha]⟩ this
      · right; simpa [hk] using h1
  | begin i =>
    simp only [step] at hs
    cases hp : s.pend[i]? with
    | none => rw [hp] at hs; cases hs
    | some ks =>
      rw [hp] at hs; cases hs
      refine ⟨hl, ?_⟩
      intro c k hc hn
      rcases ht c k hc hn with h1 | h1
      · left
        rw [awaits_iff] at h1 ⊢
        rcases h1 with ⟨l, h1, h2⟩ | ⟨w, h1, h2⟩
        · rcases mem_erase_or hp h1 with rfl | h3
          · right; exact ⟨⟨l, s.subs⟩, by simp, h2, hc⟩
          · left; exact ⟨l, h3, h2⟩
        · right; exact ⟨w, by simp [h1], h2⟩
      · right; exact h1
  | push i =>
    simp only [step] at hs
    cases hp : s.work[i]? with
    | none => rw [hp] at hs; cases hs
    | some w0 =>
      obtain ⟨ks0, sb⟩ := w0
      rw [hp] at hs
      cases ks0 with
      | nil =>
        cases hs
        refine ⟨hl, ?_⟩
        intro c k hc hn
        rcases ht c k hc hn with h1 | h1
        · left
          rw [awaits_iff] at h1 ⊢
          rcases h1 with h1 | ⟨w, h1, h2⟩
          · left; exact h1
          · rcases mem_erase_or hp h1 with rfl | h3
            · simp at h2
            · right; exact ⟨w, h3, h2⟩
        · right; exact h1
      | cons k0 ks =>
        cases hs
        refine ⟨hl, ?_⟩
        intro c k hc hn
        rcases ht c k hc hn with h1 | h1
        · rw [awaits_iff] at h1
          rcases h1 with h1 | ⟨w, h1, h2, h3⟩
          · left; rw [awaits_iff]; left; exact h1
          · rcases mem_set_or (b := ⟨ks, sb⟩) hp h1 with rfl | h4
            · rcases List.mem_cons.1 h2 with h5 | h5
              · subst h5
                right; left
                refine List.mem_append_right _ ?_
                simp only [doPush, readers, List.mem_map, List.mem_filter]
                exact ⟨c, ⟨⟨(c, k), ⟨h3, by simp⟩, rfl⟩, by simpa using hl c k hc⟩, rfl⟩
              · left; rw [awaits_iff]; right
                exact ⟨_, mem_set_self' hp, h5, h3⟩
            · left; rw [awaits_iff]; right; exact ⟨w, h4, h2, h3⟩
        · right
          rcases h1 with h1 | h1
          · left; exact List.mem_append_left _ h1
          · right; exact h1
  | ask c0 ks =>
    simp only [step] at hs
    split at hs
    · cases hs; exact ⟨hl, fun c k hc hn => ht c k hc hn⟩
    · cases hs
  | answer i =>
    simp only [step] at hs
    cases hp : s.asks[i]? with
    | none => rw [hp] at hs; cases hs
    | some ms =>
      rw [hp] at hs; cases hs
      refine ⟨?_, ?_⟩
      · intro c k hc
        simp only [List.mem_append, List.mem_filter, List.mem_map] at hc
        rcases hc with hc | ⟨⟨m, ⟨_, hm⟩, he⟩, _⟩
        · exact hl c k hc
        · cases he; simpa using hm
      · intro c k hc hn
        simp only [List.mem_append, not_or] at hn
        obtain ⟨hn1, hn2⟩ := hn
        by_cases hm : (c, k) ∈ (ms.filter (·.conn ∈ s.conns)).map fun m => (m.conn, m.key)
        · obtain ⟨m, hm2, he⟩ := List.mem_map.1 hm
          cases he
          by_cases hv : m.ver = s.ver m.key
          · right; right
            show (⟨m.conn, m.key, s.ver m.key⟩ : Msg) ∈ s.got ++ _
            rw [← hv]
            exact List.mem_append_right _ hm2
          · left
            show awaits s m.conn m.key = true
            cases ha : awaits s m.conn m.key with
            | true => rfl
            | false =>
              exfalso; apply hn2
              exact List.mem_map.2 ⟨m, List.mem_filter.2 ⟨hm2, by simp [hv, ha]⟩, rfl⟩
        · have hc' : (c, k) ∈ s.subs := by
            rcases List.mem_append.1 hc with hc | hc
            · exact hc
            · exact absurd (List.mem_filter.1 hc).1 hm
          have hn' : (c, k) ∉ s.late := fun hx => hn1 (List.mem_filter.2 ⟨hx, by simpa using hm⟩)
          rcases ht c k hc' hn' with h1 | h1 | h1
          · left; exact h1
          · right; left; exact h1
          · right; right; exact List.mem_append_left _ h1
  | deliver i =>
    simp only [step] at hs
    cases hp : s.fly[i]? with
    | none => rw [hp] at hs; cases hs
    | some m =>
      rw [hp] at hs; cases hs
      refine ⟨hl, ?_⟩
      intro c k hc hn
      rcases ht c k hc hn with h1 | h1 | h1
      · left; exact h1
      · rcases mem_erase_or hp h1 with h2 | h2
        · right; right
          subst h2
          show _ ∈ (if c ∈ s.conns then _ else _)
          rw [if_pos (hl c k hc)]
          simp
        · right; left; exact h2
      · right; right
        show _ ∈ (if _ then _ else _)
        split
        · exact List.mem_append_left _ h1
        · exact h1
  | unsub c0 k0 =>
    simp only [step] at hs; cases hs
    exact ⟨fun c k hc => hl c k (List.mem_filter.1 hc).1, fun c k hc hn => ht c k (List.mem_filter.1 hc).1 hn⟩
  | unsubAll c0 =>
    simp only [step] at hs; cases hs
    exact ⟨fun c k hc => hl c k (List.mem_filter.1 hc).1, fun c k hc hn => ht c k (List.mem_filter.1 hc).1 hn⟩

theorem inv_run (es : List Ev) (t : S) (h : run {} es = some t) : Inv t := run_inv inv_step es {} t inv_init h

end Verif.Server.Push
