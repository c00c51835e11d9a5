import Verif.Server.PushOrder
/-
C117: details of jobs on the status web page. A page that was shown details of a job is told of later changes of it, so that what it
shows last are the details the job has; it is told of no jobs it did not ask for, and of nothing after it unsubscribed or closed.
-/
namespace Verif.Server.Push

/-- no callback is going to look at a job, and nothing is waiting to be written -/
def quiet (t : S) : Prop := t.pend = [] ∧ t.work = [] ∧ t.fly = []

/-- what the page shows of the job: the last details that were written to it -/
def shown (t : S) (c k : Nat) : Option Nat := (about c k t.got).getLast?.map (·.ver)

theorem not_awaits {t : S} (h : quiet t) (c k : Nat) : ¬ awaits t c k = true := by
  simp [awaits, h.1, h.2.1]

/-- **C117**, told (partial: details that are set after the callback looked at the job, and changes between the reading of the details for a
page and its subscription, are not told of): when everything has been done, an open page that is subscribed to a job has been written the
details the job has, unless the subscription is one of those that missed a change. -/
theorem C117_told_partial (es : List Ev) (t : S) (h : run {} es = some t) (hq : quiet t) (c k : Nat) (hs : (c, k) ∈ t.subs)
    (hl : (c, k) ∉ t.late) : ⟨c, k, t.ver k⟩ ∈ t.got := by
  rcases (inv_run es t h).told c k hs hl with h1 | h1 | h1
  · exact absurd h1 (not_awaits hq c k)
  · simp [hq.2.2] at h1
  · exact h1

/-- The same without the ghost: a page is subscribed to a job and waits for no answer; the job is moved to another sub-queue, other details
of it are not set after that, and the page asks for nothing more. When everything has been done and the page is still subscribed, it has been
written the details the job has. -/
theorem C117_change_told (es fs : List Ev) (s u t : S) (c k : Nat) (ks : List Nat) (h1 : run {} es = some s)
    (hsub : (c, k) ∈ s.subs) (hna : ∀ ms, ms ∈ s.asks → ∀ m, m ∈ ms → m.conn ≠ c) (hk : k ∈ ks)
    (h2 : step s (.change ks) = some u) (h3 : run u fs = some t) (hq : quiet t)
    (hf : ∀ e, e ∈ fs → e ≠ .touch k ∧ ∀ l, e ≠ .ask c l) (hs : (c, k) ∈ t.subs) : ⟨c, k, t.ver k⟩ ∈ t.got := by
  have hu : ((∀ ms, ms ∈ u.asks → ∀ m, m ∈ ms → m.conn ≠ c) ∧ (c, k) ∉ u.late) := by
    simp only [step] at h2; cases h2
    refine ⟨hna, ?_⟩
    intro hx
    simp [List.mem_filter, hk] at hx
  have hall : run {} (es ++ .change ks :: fs) = some t := by
    rw [run_append, h1]
    simp only [Option.bind_some, run, h2]
    exact h3
  refine C117_told_partial _ t hall hq c k hs ?_
  clear hall h1 h2 hs hq hsub
  induction fs generalizing u with
  | nil => simp [run] at h3; subst h3; exact hu.2
  | cons e fs ih =>
    simp only [run] at h3
    cases hst : step u e with
    | none => simp [hst] at h3
    | some v =>
      simp [hst] at h3
      refine ih v h3 (fun e' he' => hf e' (by simp [he'])) ?_
      obtain ⟨hua, hul⟩ := hu
      have he := hf e (by simp)
      cases e with
      | openConn c0 =>
        simp only [step] at hst
        split at hst
        · cases hst
        · cases hst; exact ⟨hua, hul⟩
      | close c0 => simp only [step] at hst; cases hst; exact ⟨hua, hul⟩
      | change l => simp only [step] at hst; cases hst; exact ⟨hua, fun hx => hul (List.mem_filter.1 hx).1⟩
      | touch k0 =>
        simp only [step] at hst; cases hst
        refine ⟨hua, ?_⟩
        intro hx
        rcases List.mem_append.1 hx with hx | hx
        · exact hul hx
        · have := (List.mem_filter.1 hx).2
          simp at this
          exact he.1 (by rw [this.1])
      | begin i =>
        simp only [step] at hst
        split at hst
        · cases hst; exact ⟨hua, hul⟩
        · cases hst
      | push i =>
        simp only [step] at hst
        split at hst
        · cases hst; exact ⟨hua, hul⟩
        · cases hst; exact ⟨hua, hul⟩
        · cases hst
      | ask c0 l =>
        simp only [step] at hst
        split at hst
        · cases hst
          refine ⟨?_, hul⟩
          intro ms hms m hm hmc
          rcases List.mem_append.1 hms with h4 | h4
          · exact hua ms h4 m hm hmc
          · simp at h4; subst h4
            obtain ⟨k', -, rfl⟩ := List.mem_map.1 hm
            simp only at hmc
            subst hmc
            exact he.2 l rfl
        · cases hst
      | answer i =>
        simp only [step] at hst
        cases hp : u.asks[i]? with
        | none => rw [hp] at hst; cases hst
        | some ms =>
          rw [hp] at hst; cases hst
          refine ⟨fun ms' h4 => hua ms' (List.mem_of_mem_eraseIdx h4), ?_⟩
          intro hx
          rcases List.mem_append.1 hx with hx | hx
          · exact hul (List.mem_filter.1 hx).1
          · obtain ⟨m, hm, hmp⟩ := List.mem_map.1 hx
            cases hmp
            exact hua ms (List.mem_of_getElem? hp) m (List.mem_filter.1 (List.mem_filter.1 hm).1).1 rfl
      | deliver i =>
        simp only [step] at hst
        split at hst
        · cases hst; exact ⟨hua, hul⟩
        · cases hst
      | unsub c0 k0 => simp only [step] at hst; cases hst; exact ⟨hua, hul⟩
      | unsubAll c0 => simp only [step] at hst; cases hst; exact ⟨hua, hul⟩

/-- two pages; one of them asks for two jobs, the other for one; a job changes twice, and writes are done in another order -/
def story : List Ev :=
  [.openConn 1, .openConn 2, .ask 1 [7, 8], .ask 2 [7], .answer 1, .answer 0, .change [7, 9], .touch 7, .begin 0, .push 0, .deliver 1,
    .change [7], .begin 0, .push 1, .push 0, .push 0, .push 0, .deliver 0, .deliver 0, .deliver 0]

example : ∃ t, run {} story = some t ∧ quiet t ∧ (1, 7) ∈ t.subs ∧ (1, 7) ∉ t.late ∧ t.ver 7 = 3 ∧ shown t 2 7 = some 3 ∧
    (t.got.map fun m => (m.conn, m.key, m.ver)) = [(2, 7, 0), (1, 7, 0), (1, 8, 0), (1, 7, 2), (2, 7, 2), (2, 7, 3), (1, 7, 3)] :=
  ⟨_, rfl, by unfold quiet; decide +kernel, by decide +kernel, by decide +kernel, by decide +kernel, by decide +kernel,
    by decide +kernel⟩

/-- **C117**, shown last (partial: when the writes are done in the order in which they were started, and no page asks twice for a job):
then what a page shows is what it was told, and that are the details the job has. -/
theorem C117_shown_partial (es : List Ev) (t : S) (h : run {} es = some t) (hq : quiet t) (ho : inOrder es) (hn : (asked es).Nodup)
    (c k : Nat) (hs : (c, k) ∈ t.subs) (hl : (c, k) ∉ t.late) : shown t c k = some (t.ver k) := by
  have := ord_run es [] {} t inv_init ord_init h (by simpa using hn) ho
  rcases this.last c k hs hl with h1 | h1
  · exact absurd h1 (not_awaits hq c k)
  · rw [hq.2.2, List.append_nil] at h1
    simp [shown, h1]

example : ∃ (t : S) (es : List Ev), run {} es = some t ∧ quiet t ∧ inOrder es ∧ (asked es).Nodup ∧ (1, 7) ∈ t.subs ∧ (1, 7) ∉ t.late ∧
    t.ver 7 = 2 ∧ shown t 1 7 = some 2 := by
  refine ⟨_, [.openConn 1, .ask 1 [7, 8], .answer 0, .change [7], .change [7], .begin 0, .push 0, .push 0, .begin 0, .push 0, .push 0,
    .deliver 0, .deliver 0], rfl, by unfold quiet; decide +kernel, ?_, by decide +kernel, by decide +kernel, by decide +kernel,
    by decide +kernel, by decide +kernel⟩
  intro e he i h
  subst h
  simp at he
  exact he

/-- **C117**, violated by the code: the goroutines of two changes of a job write in the other order: the page shows the older details,
and nothing is going to correct it. -/
theorem C117_violated_order : ∃ (es : List Ev) (t : S), run {} es = some t ∧ quiet t ∧ (1, 7) ∈ t.subs ∧ (1, 7) ∉ t.late ∧ t.ver 7 = 2 ∧
    shown t 1 7 = some 1 :=
  ⟨[.openConn 1, .ask 1 [7], .answer 0, .change [7], .begin 0, .push 0, .push 0, .change [7], .begin 0, .push 0, .push 0, .deliver 1,
    .deliver 0], _, rfl, by unfold quiet; decide +kernel, by decide +kernel, by decide +kernel, by decide +kernel, by decide +kernel⟩

/-- **C117**, violated by the code: the job changes after its details were read for the page and before the page is subscribed. The callback
finds no subscription: the page is never told. -/
theorem C117_violated_between : ∃ (es : List Ev) (t : S), run {} es = some t ∧ quiet t ∧ t.asks = [] ∧ (1, 7) ∈ t.subs ∧ t.ver 7 = 1 ∧
    (∀ m, m ∈ t.got → m.ver = 0) ∧ t.got ≠ [] ∧ inOrder es :=
  ⟨[.openConn 1, .ask 1 [7], .change [7], .begin 0, .push 0, .push 0, .answer 0], _, rfl, by unfold quiet; decide +kernel,
    by decide +kernel, by decide +kernel, by decide +kernel, by decide +kernel, by decide +kernel, by
      intro e he i h; subst h; simp at he⟩

/-- **C117**, violated by the code: a job is released; its callback looks at it before the exit code and the new state are set in it, which
starts no callback: the page is told the old ones. -/
theorem C117_violated_release : ∃ (es : List Ev) (t : S), run {} es = some t ∧ quiet t ∧ (1, 7) ∈ t.subs ∧ t.ver 7 = 2 ∧
    (∀ m, m ∈ t.got → m.ver < 2) ∧ inOrder es :=
  ⟨[.openConn 1, .ask 1 [7], .answer 0, .change [7], .begin 0, .push 0, .push 0, .touch 7, .deliver 0], _, rfl,
    by unfold quiet; decide +kernel, by decide +kernel, by decide +kernel, by decide +kernel, by
      intro e he i h; subst h; simp at he; exact he⟩

/-- everything that was written or is on its way was asked for, and is not newer than the job -/
structure Asked (A : List (Nat × Nat)) (s : S) : Prop where
  asks : ∀ ms, ms ∈ s.asks → ∀ m, m ∈ ms → pair m ∈ A ∧ m.ver ≤ s.ver m.key
  subs : ∀ p, p ∈ s.subs → p ∈ A
  work : ∀ w, w ∈ s.work → ∀ p, p ∈ w.subs → p ∈ A
  fly : ∀ m, m ∈ s.fly → pair m ∈ A ∧ m.ver ≤ s.ver m.key
  got : ∀ m, m ∈ s.got → pair m ∈ A ∧ m.ver ≤ s.ver m.key

set_option maxHeartbeats 1000000 in
theorem asked_step (A : List (Nat × Nat)) (s : S) (e : Ev) (t : S) (h : Asked A s) (hs : step s e = some t) : Asked (A ++ asked [e]) t := by
  have h0 : Asked (A ++ asked [e]) s := by
    obtain ⟨h1, h2, h3, h4, h5⟩ := h
    constructor
    · intro ms hms m hm; have := h1 ms hms m hm; exact ⟨List.mem_append_left _ this.1, this.2⟩
    · intro p hp; exact List.mem_append_left _ (h2 p hp)
    · intro w hw p hp; exact List.mem_append_left _ (h3 w hw p hp)
    · intro m hm; have := h4 m hm; exact ⟨List.mem_append_left _ this.1, this.2⟩
    · intro m hm; have := h5 m hm; exact ⟨List.mem_append_left _ this.1, this.2⟩
  clear h
  obtain ⟨h1, h2, h3, h4, h5⟩ := h0
  have mono : ∀ (f : Nat → Nat), (∀ k, s.ver k ≤ f k) → ∀ (l : List Msg), (∀ m, m ∈ l → pair m ∈ A ++ asked [e] ∧ m.ver ≤ s.ver m.key) →
      ∀ m, m ∈ l → pair m ∈ A ++ asked [e] ∧ m.ver ≤ f m.key := by
    intro f hf l hl m hm
    exact ⟨(hl m hm).1, Nat.le_trans (hl m hm).2 (hf m.key)⟩
  cases e with
  | openConn c0 =>
    simp only [step] at hs
    split at hs
    · cases hs
    · cases hs; exact ⟨h1, h2, h3, h4, h5⟩
  | close c0 => simp only [step] at hs; cases hs; exact ⟨h1, fun p hp => h2 p (List.mem_filter.1 hp).1, h3, h4, h5⟩
  | change ks =>
    simp only [step] at hs; cases hs
    have hf : ∀ k, s.ver k ≤ (if k ∈ ks then s.ver k + 1 else s.ver k) := by intro k; split <;> omega
    exact ⟨fun ms hms => mono _ hf ms (h1 ms hms), h2, h3, mono _ hf _ h4, mono _ hf _ h5⟩
  | touch k0 =>
    simp only [step] at hs; cases hs
    have hf : ∀ k, s.ver k ≤ (if k = k0 then s.ver k + 1 else s.ver k) := by intro k; split <;> omega
    exact ⟨fun ms hms => mono _ hf ms (h1 ms hms), h2, h3, mono _ hf _ h4, mono _ hf _ h5⟩
  | begin i =>
    simp only [step] at hs
    split at hs
    · cases hs
      refine ⟨h1, h2, ?_, h4, h5⟩
      intro w hw p hp
      rcases List.mem_append.1 hw with hw | hw
      · exact h3 w hw p hp
      · simp at hw; subst hw; exact h2 p hp
    · cases hs
  | push i =>
    simp only [step] at hs
    cases hp : s.work[i]? with
    | none => rw [hp] at hs; cases hs
    | some w0 =>
      obtain ⟨ks0, sb⟩ := w0
      have hw0 := List.mem_of_getElem? hp
      rw [hp] at hs
      cases ks0 with
      | nil => cases hs; exact ⟨h1, h2, fun w hw => h3 w (List.mem_of_mem_eraseIdx hw), h4, h5⟩
      | cons k0 ks =>
        cases hs
        refine ⟨h1, h2, ?_, ?_, h5⟩
        · intro w hw p hpw
          rcases List.mem_or_eq_of_mem_set hw with hw | hw
          · exact h3 w hw p hpw
          · subst hw; exact h3 _ hw0 p hpw
        · intro m hm
          rcases List.mem_append.1 hm with hm | hm
          · exact h4 m hm
          · simp only [doPush, readers, List.mem_map, List.mem_filter] at hm
            obtain ⟨c, ⟨⟨p, ⟨hp1, hp2⟩, hp3⟩, _⟩, he⟩ := hm
            subst he
            refine ⟨h3 _ hw0 _ ?_, Nat.le_refl _⟩
            have : p = (c, k0) := by
              obtain ⟨p1, p2⟩ := p
              simp at hp2 hp3
              simp [hp2, hp3]
            subst this; exact hp1
  | ask c0 ks =>
    simp only [step] at hs
    split at hs
    · cases hs
      refine ⟨?_, h2, h3, h4, h5⟩
      intro ms hms m hm
      rcases List.mem_append.1 hms with hms | hms
      · exact h1 ms hms m hm
      · simp at hms; subst hms
        obtain ⟨k, hk, rfl⟩ := List.mem_map.1 hm
        refine ⟨List.mem_append_right _ ?_, Nat.le_refl _⟩
        simp only [asked, List.append_nil]
        exact List.mem_map.2 ⟨k, hk, rfl⟩
    · cases hs
  | answer i =>
    simp only [step] at hs
    cases hp : s.asks[i]? with
    | none => rw [hp] at hs; cases hs
    | some ms =>
      have hm0 := List.mem_of_getElem? hp
      rw [hp] at hs; cases hs
      refine ⟨fun ms' hms => h1 ms' (List.mem_of_mem_eraseIdx hms), ?_, h3, h4, ?_⟩
      · intro p hpm
        rcases List.mem_append.1 hpm with hpm | hpm
        · exact h2 p hpm
        · obtain ⟨m, hm, he⟩ := List.mem_map.1 (List.mem_filter.1 hpm).1
          exact he ▸ (h1 ms hm0 m (List.mem_filter.1 hm).1).1
      · intro m hm
        rcases List.mem_append.1 hm with hm | hm
        · exact h5 m hm
        · exact h1 ms hm0 m (List.mem_filter.1 hm).1
  | deliver i =>
    simp only [step] at hs
    cases hp : s.fly[i]? with
    | none => rw [hp] at hs; cases hs
    | some m0 =>
      have hm0 := List.mem_of_getElem? hp
      rw [hp] at hs; cases hs
      refine ⟨h1, h2, h3, fun m hm => h4 m (List.mem_of_mem_eraseIdx hm), ?_⟩
      intro m hm
      have hm : m ∈ (if m0.conn ∈ s.conns then s.got ++ [m0] else s.got) := hm
      split at hm
      · rcases List.mem_append.1 hm with hm | hm
        · exact h5 m hm
        · simp at hm; subst hm; exact h4 _ hm0
      · exact h5 m hm
  | unsub c0 k0 => simp only [step] at hs; cases hs; exact ⟨h1, fun p hp => h2 p (List.mem_filter.1 hp).1, h3, h4, h5⟩
  | unsubAll c0 => simp only [step] at hs; cases hs; exact ⟨h1, fun p hp => h2 p (List.mem_filter.1 hp).1, h3, h4, h5⟩

theorem asked_run (es : List Ev) : ∀ (A : List (Nat × Nat)) (s t : S), Asked A s → run s es = some t → Asked (A ++ asked es) t := by
  induction es with
  | nil => intro A s t h hr; simp [run] at hr; subst hr; simpa [asked] using h
  | cons e es ih =>
    intro A s t h hr
    simp only [run] at hr
    cases h1 : step s e with
    | none => simp [h1] at hr
    | some u =>
      simp [h1] at hr
      rw [asked_cons, ← List.append_assoc]
      exact ih _ u t (asked_step A s e u h h1) hr

theorem mem_asked {p : Nat × Nat} {es : List Ev} (h : p ∈ asked es) : ∃ ks, .ask p.1 ks ∈ es ∧ p.2 ∈ ks := by
  induction es with
  | nil => simp [asked] at h
  | cons e es ih =>
    cases e with
    | ask c ks =>
      simp only [asked] at h
      rcases List.mem_append.1 h with h | h
      · obtain ⟨k, hk, rfl⟩ := List.mem_map.1 h
        exact ⟨ks, by simp, hk⟩
      · obtain ⟨l, h1, h2⟩ := ih h; exact ⟨l, by simp [h1], h2⟩
    | _ =>
      simp only [asked] at h
      obtain ⟨l, h1, h2⟩ := ih h; exact ⟨l, by simp [h1], h2⟩

/-- **C117**, only what was asked for: a page that was written details of a job had asked for that job; and they are details the job has or
had. -/
theorem C117_only_asked (es : List Ev) (t : S) (h : run {} es = some t) (m : Msg) (hm : m ∈ t.got) :
    (∃ ks, .ask m.conn ks ∈ es ∧ m.key ∈ ks) ∧ m.ver ≤ t.ver m.key := by
  have := asked_run es [] {} t ⟨by simp, by simp, by simp, by simp, by simp⟩ h
  have h1 := this.got m hm
  simp only [List.nil_append] at h1
  exact ⟨mem_asked h1.1, h1.2⟩

/-- a page that is not open (any more), or -- with `only` -- a job of a page nothing is left of -/
def gone (s : S) (c : Nat) : Prop := c ∉ s.conns ∧ c ∈ s.used

theorem gone_step (s : S) (e : Ev) (t : S) (c : Nat) (h : gone s c) (hs : step s e = some t) :
    gone t c ∧ (t.got.filter fun m => m.conn = c) = s.got.filter fun m => m.conn = c := by
  obtain ⟨h1, h2⟩ := h
  cases e with
  | openConn c0 =>
    simp only [step] at hs
    split at hs
    · cases hs
    · rename_i hn
      cases hs
      refine ⟨⟨?_, List.mem_cons_of_mem _ h2⟩, rfl⟩
      intro hx
      rcases List.mem_cons.1 hx with hx | hx
      · subst hx; exact hn h2
      · exact h1 hx
  | close c0 => simp only [step] at hs; cases hs; exact ⟨⟨fun hx => h1 (List.mem_filter.1 hx).1, h2⟩, rfl⟩
  | change ks => simp only [step] at hs; cases hs; exact ⟨⟨h1, h2⟩, rfl⟩
  | touch k => simp only [step] at hs; cases hs; exact ⟨⟨h1, h2⟩, rfl⟩
  | begin i =>
    simp only [step] at hs
    split at hs
    · cases hs; exact ⟨⟨h1, h2⟩, rfl⟩
    · cases hs
  | push i =>
    simp only [step] at hs
    split at hs
    · cases hs; exact ⟨⟨h1, h2⟩, rfl⟩
    · cases hs; exact ⟨⟨h1, h2⟩, rfl⟩
    · cases hs
  | ask c0 ks =>
    simp only [step] at hs
    split at hs
    · cases hs; exact ⟨⟨h1, h2⟩, rfl⟩
    · cases hs
  | answer i =>
    simp only [step] at hs
    split at hs
    · cases hs
      refine ⟨⟨h1, h2⟩, ?_⟩
      simp only [List.filter_append, List.filter_filter]
      rename_i ms _
      have hz : (ms.filter fun a => decide (a.conn = c) && decide (a.conn ∈ s.conns)) = [] := by
        simp only [List.filter_eq_nil_iff]
        intro m _ hm
        simp at hm
        exact h1 (hm.1 ▸ hm.2)
      rw [hz, List.append_nil]
    · cases hs
  | deliver i =>
    simp only [step] at hs
    split at hs
    · rename_i m hp
      cases hs
      refine ⟨⟨h1, h2⟩, ?_⟩
      show (if m.conn ∈ s.conns then s.got ++ [m] else s.got).filter _ = _
      split
      · rename_i hm
        have : m.conn ≠ c := fun hx => h1 (hx ▸ hm)
        simp [List.filter_append, this]
      · rfl
    · cases hs
  | unsub c0 k => simp only [step] at hs; cases hs; exact ⟨⟨h1, h2⟩, rfl⟩
  | unsubAll c0 => simp only [step] at hs; cases hs; exact ⟨⟨h1, h2⟩, rfl⟩

theorem used_of_conn (es : List Ev) (s : S) (h : run {} es = some s) : ∀ c, c ∈ s.conns → c ∈ s.used := by
  refine run_inv (P := fun s => ∀ c, c ∈ s.conns → c ∈ s.used) ?_ es {} s (by simp) h
  intro s e t hp hs
  cases e <;> simp only [step] at hs <;> (try split at hs) <;> cases hs <;> try exact hp
  · intro c hc
    rcases List.mem_cons.1 hc with hc | hc
    · simp [hc]
    · exact List.mem_cons_of_mem _ (hp c hc)
  · intro c hc; exact hp c (List.mem_filter.1 hc).1

/-- **C117**, closed: nothing is written to a page after it was closed, whatever was on its way. -/
theorem C117_closed (es fs : List Ev) (s u t : S) (c : Nat) (h1 : run {} es = some s) (ho : c ∈ s.conns)
    (h2 : step s (.close c) = some u) (h3 : run u fs = some t) :
    (t.got.filter fun m => m.conn = c) = s.got.filter fun m => m.conn = c := by
  have hu : gone u c ∧ u.got = s.got := by
    simp only [step] at h2; cases h2
    exact ⟨⟨by simp, used_of_conn es s h1 c ho⟩, rfl⟩
  rw [← hu.2]
  have hg := hu.1
  clear hu h1 h2 ho
  induction fs generalizing u with
  | nil => simp [run] at h3; subst h3; rfl
  | cons e fs ih =>
    simp only [run] at h3
    cases hst : step u e with
    | none => simp [hst] at h3
    | some v =>
      simp [hst] at h3
      have := gone_step u e v c hg hst
      rw [ih v h3 this.1, this.2]

example : ∃ s u t, run {} (story.take 10) = some s ∧ 1 ∈ s.conns ∧ step s (.close 1) = some u ∧
    run u [.deliver 1, .deliver 0, .change [7], .begin 0, .push 1] = some t ∧ (t.got.filter fun m => m.conn = 1).length = 2 :=
  ⟨_, _, _, rfl, by decide +kernel, rfl, rfl, by decide +kernel⟩

/-- nothing is left that would write details of the job to the page -/
structure Over (s : S) (c k : Nat) : Prop where
  subs : (c, k) ∉ s.subs
  work : ∀ w, w ∈ s.work → (c, k) ∉ w.subs
  fly : (c, k) ∉ s.fly.map pair
  asks : ∀ ms, ms ∈ s.asks → (c, k) ∉ ms.map pair

theorem over_step (s : S) (e : Ev) (t : S) (c k : Nat) (h : Over s c k) (he : ∀ ks, e = .ask c ks → k ∉ ks) (hs : step s e = some t) :
    Over t c k ∧ about c k t.got = about c k s.got := by
  obtain ⟨h1, h2, h3, h4⟩ := h
  cases e with
  | openConn c0 =>
    simp only [step] at hs
    split at hs
    · cases hs
    · cases hs; exact ⟨⟨h1, h2, h3, h4⟩, rfl⟩
  | close c0 => simp only [step] at hs; cases hs; exact ⟨⟨fun hx => h1 (List.mem_filter.1 hx).1, h2, h3, h4⟩, rfl⟩
  | change ks => simp only [step] at hs; cases hs; exact ⟨⟨h1, h2, h3, h4⟩, rfl⟩
  | touch k0 => simp only [step] at hs; cases hs; exact ⟨⟨h1, h2, h3, h4⟩, rfl⟩
  | begin i =>
    simp only [step] at hs
    split at hs
    · cases hs
      refine ⟨⟨h1, ?_, h3, h4⟩, rfl⟩
      intro w hw
      rcases List.mem_append.1 hw with hw | hw
      · exact h2 w hw
      · simp at hw; subst hw; exact h1
    · cases hs
  | push i =>
    simp only [step] at hs
    cases hp : s.work[i]? with
    | none => rw [hp] at hs; cases hs
    | some w0 =>
      obtain ⟨ks0, sb⟩ := w0
      have hw0 := List.mem_of_getElem? hp
      rw [hp] at hs
      cases ks0 with
      | nil => cases hs; exact ⟨⟨h1, fun w hw => h2 w (List.mem_of_mem_eraseIdx hw), h3, h4⟩, rfl⟩
      | cons k0 ks =>
        cases hs
        refine ⟨⟨h1, ?_, ?_, h4⟩, rfl⟩
        · intro w hw
          rcases List.mem_or_eq_of_mem_set hw with hw | hw
          · exact h2 w hw
          · subst hw; exact h2 ⟨k0 :: ks, sb⟩ hw0
        · intro hx
          simp only [List.map_append, List.mem_append] at hx
          rcases hx with hx | hx
          · exact h3 hx
          · obtain ⟨m, hm, hmp⟩ := List.mem_map.1 hx
            simp only [doPush, readers, List.mem_map, List.mem_filter] at hm
            obtain ⟨c', ⟨⟨p, ⟨hp1, hp2⟩, hp3⟩, _⟩, he⟩ := hm
            subst he
            cases hmp
            have : p = (c', k0) := by
              obtain ⟨p1, p2⟩ := p
              simp at hp2 hp3
              simp [hp2, hp3]
            subst this; exact h2 _ hw0 hp1
  | ask c0 ks =>
    simp only [step] at hs
    split at hs
    · cases hs
      refine ⟨⟨h1, h2, h3, ?_⟩, rfl⟩
      intro ms hms hx
      rcases List.mem_append.1 hms with hms | hms
      · exact h4 ms hms hx
      · simp at hms; subst hms
        obtain ⟨m, hm, hmp⟩ := List.mem_map.1 hx
        obtain ⟨k', hk', rfl⟩ := List.mem_map.1 hm
        cases hmp
        exact he ks rfl hk'
    · cases hs
  | answer i =>
    simp only [step] at hs
    cases hp : s.asks[i]? with
    | none => rw [hp] at hs; cases hs
    | some ms =>
      have hm0 := h4 ms (List.mem_of_getElem? hp)
      rw [hp] at hs; cases hs
      have hm1 : (c, k) ∉ (ms.filter (·.conn ∈ s.conns)).map pair := by
        intro hx
        obtain ⟨m, hm, hmp⟩ := List.mem_map.1 hx
        exact hm0 (List.mem_map.2 ⟨m, (List.mem_filter.1 hm).1, hmp⟩)
      refine ⟨⟨?_, h2, h3, fun ms' hms => h4 ms' (List.mem_of_mem_eraseIdx hms)⟩, ?_⟩
      · intro hx
        rcases List.mem_append.1 hx with hx | hx
        · exact h1 hx
        · exact hm1 (List.mem_filter.1 hx).1
      · show about c k (s.got ++ _) = _
        rw [about_append, about_nil hm1, List.append_nil]
  | deliver i =>
    simp only [step] at hs
    cases hp : s.fly[i]? with
    | none => rw [hp] at hs; cases hs
    | some m0 =>
      have hm0 := List.mem_of_getElem? hp
      rw [hp] at hs; cases hs
      refine ⟨⟨h1, h2, ?_, h4⟩, ?_⟩
      · intro hx
        obtain ⟨m, hm, hmp⟩ := List.mem_map.1 hx
        exact h3 (List.mem_map.2 ⟨m, List.mem_of_mem_eraseIdx hm, hmp⟩)
      · show about c k (if _ then _ else _) = _
        split
        · rw [about_append, about_nil (ms := [m0]) ?_, List.append_nil]
          intro hx
          simp at hx
          exact h3 (List.mem_map.2 ⟨m0, hm0, hx.symm⟩)
        · rfl
  | unsub c0 k0 => simp only [step] at hs; cases hs; exact ⟨⟨fun hx => h1 (List.mem_filter.1 hx).1, h2, h3, h4⟩, rfl⟩
  | unsubAll c0 => simp only [step] at hs; cases hs; exact ⟨⟨fun hx => h1 (List.mem_filter.1 hx).1, h2, h3, h4⟩, rfl⟩

/-- **C117**, unsubscribed: a page has unsubscribed from a job (or from all) at a time when no callback or write was going on and no request
of it was being answered: it is written no details of that job until it asks for them again. -/
theorem C117_unsubscribed (fs : List Ev) (s u t : S) (c k : Nat) (e : Ev) (he : e = .unsub c k ∨ e = .unsubAll c)
    (hw : s.work = []) (hf : s.fly = []) (ha : ∀ ms, ms ∈ s.asks → ∀ m, m ∈ ms → m.conn ≠ c)
    (h2 : step s e = some u) (h3 : run u fs = some t) (hn : ∀ ks, .ask c ks ∈ fs → k ∉ ks) : about c k t.got = about c k s.got := by
  have hu : Over u c k ∧ u.got = s.got := by
    have ha' : ∀ ms, ms ∈ s.asks → (c, k) ∉ ms.map pair := by
      intro ms hms hx
      obtain ⟨m, hm, hmp⟩ := List.mem_map.1 hx
      cases hmp
      exact ha ms hms m hm rfl
    rcases he with rfl | rfl
    · simp only [step] at h2; cases h2
      exact ⟨⟨by simp, by simp [hw], by simp [hf], ha'⟩, rfl⟩
    · simp only [step] at h2; cases h2
      exact ⟨⟨by simp, by simp [hw], by simp [hf], ha'⟩, rfl⟩
  rw [← hu.2]
  have hg := hu.1
  clear hu h2 hw hf ha he
  induction fs generalizing u with
  | nil => simp [run] at h3; subst h3; rfl
  | cons e fs ih =>
    simp only [run] at h3
    cases hst : step u e with
    | none => simp [hst] at h3
    | some v =>
      simp [hst] at h3
      have := over_step u e v c k hg (fun ks hx => hn ks (by simp [hx])) hst
      rw [ih v h3 (fun ks hx => hn ks (by simp [hx])) this.1, this.2]

example : ∃ s u t, run {} story = some s ∧ s.work = [] ∧ s.fly = [] ∧ s.asks = [] ∧ step s (.unsub 1 7) = some u ∧
    run u [.change [7, 8], .begin 0, .push 0, .push 0, .push 0, .deliver 1, .deliver 0] = some t ∧
    about 1 7 t.got = about 1 7 s.got ∧ (about 1 8 t.got).length = 2 ∧ (about 2 7 t.got).length = 4 :=
  ⟨_, _, _, rfl, by decide +kernel, by decide +kernel, by decide +kernel, rfl, rfl, by decide +kernel, by decide +kernel,
    by decide +kernel⟩

/-- **C117**, subscribed: a page that asked for jobs and is answered while it is open has been written their details and is subscribed to all of
them; subscriptions that were there stay. -/
theorem C117_subscribes (s t : S) (i : Nat) (ms : List Msg) (hi : s.asks[i]? = some ms) (hs : step s (.answer i) = some t) :
    (∀ m, m ∈ ms → m.conn ∈ s.conns → (m.conn, m.key) ∈ t.subs ∧ m ∈ t.got) ∧ ∀ p, p ∈ s.subs → p ∈ t.subs := by
  simp only [step, hi] at hs
  cases hs
  refine ⟨?_, fun p hp => List.mem_append_left _ hp⟩
  intro m hm hc
  have hf : m ∈ ms.filter (·.conn ∈ s.conns) := List.mem_filter.2 ⟨hm, by simpa using hc⟩
  refine ⟨?_, List.mem_append_right _ hf⟩
  by_cases hx : (m.conn, m.key) ∈ s.subs
  · exact List.mem_append_left _ hx
  · exact List.mem_append_right _ (List.mem_filter.2 ⟨List.mem_map.2 ⟨m, hf, rfl⟩, by simpa using hx⟩)

example : ∃ s t, run {} (story.take 4) = some s ∧ s.asks[0]? = some [⟨1, 7, 0⟩, ⟨1, 8, 0⟩] ∧ step s (.answer 0) = some t ∧
    t.subs = [(1, 7), (1, 8)] := ⟨_, _, rfl, by decide +kernel, rfl, by decide +kernel⟩

/-- **C117**: one page's requests change no other page's subscriptions. -/
theorem C117_others (s t : S) (c c' k : Nat) (e : Ev) (he : e = .unsubAll c ∨ e = .close c ∨ ∃ k', e = .unsub c k') (hc : c' ≠ c)
    (hs : step s e = some t) : (c', k) ∈ t.subs ↔ (c', k) ∈ s.subs := by
  rcases he with rfl | rfl | ⟨k', rfl⟩ <;> simp only [step] at hs <;> cases hs <;> simp [List.mem_filter, hc]

/-- **C117**: unsubscribing from a job keeps the subscriptions to others. -/
theorem C117_other_jobs (s t : S) (c k k' : Nat) (hk : k' ≠ k) (hs : step s (.unsub c k) = some t) :
    ((c, k') ∈ t.subs ↔ (c, k') ∈ s.subs) ∧ (c, k) ∉ t.subs := by
  simp only [step] at hs; cases hs
  simp [List.mem_filter, hk]

end Verif.Server.Push
