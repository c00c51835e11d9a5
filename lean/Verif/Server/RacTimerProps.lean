import Verif.Server.RacTimer

/-! # C94: ready jobs are looked at again and again -/

namespace Verif.Server.RacTimer

/-! ## Specification -/

/-- What happens by itself, without jobs becoming ready, requests or the end of the server. -/
def Internal : Ev → Prop
  | .call | .cb | .expire | .chk _ => True
  | _ => False

/-- The callback and the checker wait for each other: the callback has racmutex and waits for a value from the timer that
the checker has taken already. -/
def Stuck (s : St) : Prop := s.timer = .off ∧ (s.cb = .stop ∨ s.cb = .receive)

/-- Not yet returned, and has not seen what is ready. -/
def waiting (c : Chk) : Bool := c = .select || c = .fired

/-! ## Lemmas -/

structure Inv (s : St) : Prop where
  lock : s.locked = true ↔ s.cb = .stop ∨ s.cb = .receive
  one : s.chks.count .select + s.chks.count .fired ≤ 1
  off : s.checking = false → s.chks.count .select = 0 ∧ s.chks.count .fired = 0
  on : s.checking = true → s.stopped = false → s.chks.count .select + s.chks.count .fired = 1
  sel : s.chks.count .select = 1 → s.timer ≠ .off
  fir : s.chks.count .fired = 1 → s.timer = .off
  timer : s.checking = true → s.timer = .off → s.chks.count .fired = 1
  hold : s.cb = .stop ∨ s.cb = .receive → s.checking = true
  rec' : s.cb = .receive → s.timer = .off
  recall : s.recall = true → s.cb ≠ .idle
  seen : s.ready > 0 → s.drain = false → s.stopped = false → s.calls > 0 ∨ s.recall = true ∨
    (s.cb ≠ .idle ∧ s.cb ≠ .done) ∨ s.checking = true ∨ s.chks.count .trigger > 0

theorem inv_init : Inv {} := by
  constructor <;> simp

private theorem count_set : ∀ {l : List Chk} {i : Nat} {a b c : Chk}, l[i]? = some a →
    (l.set i b).count c + (if a = c then 1 else 0) = l.count c + (if b = c then 1 else 0)
  | [], i, a, b, c, h => by simp at h
  | x :: xs, 0, a, b, c, h => by
    simp only [List.getElem?_cons_zero, Option.some.injEq] at h
    subst h
    simp only [List.set_cons_zero, List.count_cons, beq_iff_eq]; omega
  | x :: xs, i + 1, a, b, c, h => by
    simp only [List.getElem?_cons_succ] at h
    have := count_set (b := b) (c := c) h
    simp only [List.set_cons_succ, List.count_cons]; omega

private theorem inv_ready {s : St} (h : Inv s) : Inv (readyAdded s) := by
  obtain ⟨lock, one, off, on, sel, fir, timer, hold, rec', recall, seen⟩ := h
  unfold readyAdded
  split
  · rename_i hc
    constructor <;> simp_all
  · rename_i hc
    constructor <;> simp_all

private theorem inv_cb {s : St} (h : Inv s) : Inv (cbStep s) := by
  have h' := h
  obtain ⟨lock, one, off, on, sel, fir, timer, hold, rec', recall, seen⟩ := h
  unfold cbStep
  cases hc : s.cb with
  | idle => exact h'
  | start =>
    simp only
    split
    · constructor <;> simp_all
      intro a b c
      simp_all
    · constructor <;> simp_all
  | body => simp only; constructor <;> simp_all
  | lock =>
    simp only
    split
    · exact h'
    · split
      · constructor <;> simp_all
      · rename_i hl hch
        have h0 := off (by simpa using hch)
        constructor <;> simp_all [List.count_append, List.count_cons]
  | stop =>
    simp only
    split
    · constructor <;> simp_all
    · constructor <;> simp_all
  | receive =>
    simp only
    split
    · rename_i he
      exact absurd (rec' hc) (by simp [he])
    · exact h'
  | done =>
    simp only
    split
    · constructor <;> simp_all
    · constructor <;> simp_all
  | again => simp only; constructor <;> simp_all

private theorem inv_chk {s : St} (h : Inv s) (i : Nat) : Inv (chkStep s i) := by
  have h' := h
  obtain ⟨lock, one, off, on, sel, fir, timer, hold, rec', recall, seen⟩ := h
  unfold chkStep
  cases hi : s.chks[i]? with
  | none => exact h'
  | some c =>
    have cs : ∀ (b c' : Chk), (s.chks.set i b).count c' + (if c = c' then 1 else 0) = s.chks.count c' + (if b = c' then 1 else 0) :=
      fun b c' => count_set hi
    cases c with
    | select =>
      simp only
      have hpos : s.chks.count .select = 1 := by
        have : 0 < s.chks.count .select := List.count_pos_iff.2 (List.mem_of_getElem? hi)
        omega
      have hch : s.checking = true := by
        cases hk : s.checking with
        | true => rfl
        | false => have := (off hk).1; omega
      split
      · rename_i hst
        have c1 := cs .gone .select; have c2 := cs .gone .fired; have c3 := cs .gone .trigger
        simp only [reduceCtorEq, if_false, if_true] at c1 c2 c3
        have ht := sel hpos
        constructor <;> simp_all <;> omega
      · split
        · rename_i hst ht
          have c1 := cs .fired .select; have c2 := cs .fired .fired; have c3 := cs .fired .trigger
          simp only [reduceCtorEq, if_false, if_true] at c1 c2 c3
          constructor <;> simp_all <;> omega
        · exact h'
    | fired =>
      simp only
      have hpos : s.chks.count .fired = 1 := by
        have : 0 < s.chks.count .fired := List.count_pos_iff.2 (List.mem_of_getElem? hi)
        omega
      split
      · exact h'
      · rename_i hl
        have hl' : s.locked = false := by simpa using hl
        have hcb : ¬ (s.cb = .stop ∨ s.cb = .receive) := fun e => by rw [lock.2 e] at hl'; cases hl'
        by_cases hr : s.ready > 0
        · have c1 := cs .trigger .select; have c2 := cs .trigger .fired; have c3 := cs .trigger .trigger
          simp only [reduceCtorEq, if_false, if_true] at c1 c2 c3
          rw [if_pos hr]
          have e1 : (s.chks.set i .trigger).count .select = 0 := by omega
          have e2 : (s.chks.set i .trigger).count .fired = 0 := by omega
          have e3 : (s.chks.set i .trigger).count .trigger > 0 := by omega
          constructor <;> simp_all
        · have c1 := cs .gone .select; have c2 := cs .gone .fired
          simp only [reduceCtorEq, if_false, if_true] at c1 c2
          rw [if_neg hr]
          have e1 : (s.chks.set i .gone).count .select = 0 := by omega
          have e2 : (s.chks.set i .gone).count .fired = 0 := by omega
          constructor <;> simp_all
    | trigger =>
      have c1 := cs .gone .select; have c2 := cs .gone .fired
      simp only [reduceCtorEq, if_false] at c1 c2
      have e1 : (s.chks.set i .gone).count .select = s.chks.count .select := by omega
      have e2 : (s.chks.set i .gone).count .fired = s.chks.count .fired := by omega
      unfold readyAdded
      simp only
      split
      · constructor <;> simp_all
      · constructor <;> simp_all
    | gone => exact h'

theorem inv_step {s : St} (h : Inv s) (e : Ev) : Inv (step s e) := by
  cases e with
  | push =>
    obtain ⟨lock, one, off, on, sel, fir, timer, hold, rec', recall, seen⟩ := h
    constructor <;> simp_all [step]
  | pop =>
    obtain ⟨lock, one, off, on, sel, fir, timer, hold, rec', recall, seen⟩ := h
    constructor <;> simp_all [step]
    intro h; exact seen (by omega)
  | call =>
    simp only [step]
    split
    · unfold readyAdded
      obtain ⟨lock, one, off, on, sel, fir, timer, hold, rec', recall, seen⟩ := h
      simp only
      split
      · constructor <;> simp_all
      · constructor <;> simp_all
    · exact h
  | cb => exact inv_cb h
  | expire =>
    simp only [step]
    split
    · obtain ⟨lock, one, off, on, sel, fir, timer, hold, rec', recall, seen⟩ := h
      constructor <;> simp_all
    · exact h
  | chk i => exact inv_chk h i
  | pause =>
    obtain ⟨lock, one, off, on, sel, fir, timer, hold, rec', recall, seen⟩ := h
    constructor <;> simp_all [step]
  | resume =>
    simp only [step]
    split
    · obtain ⟨lock, one, off, on, sel, fir, timer, hold, rec', recall, seen⟩ := h
      unfold readyAdded
      simp only
      split
      · constructor <;> simp_all
      · constructor <;> simp_all
    · exact h
  | stop =>
    obtain ⟨lock, one, off, on, sel, fir, timer, hold, rec', recall, seen⟩ := h
    constructor <;> simp_all [step]

theorem inv_run {s : St} (h : Inv s) : ∀ es, Inv (run s es)
  | [] => h
  | e :: es => inv_run (s := step s e) (inv_step h e) es

/-- The callback can come to schedule runners without anything from outside. -/
def Reach (s : St) : Prop := ∃ es, (∀ e ∈ es, Internal e) ∧ (run s es).runs > s.runs

private theorem reach_step {s : St} (e : Ev) (he : Internal e) (hr : (step s e).runs = s.runs) (h : Reach (step s e)) :
    Reach s := by
  obtain ⟨es, hes, hrun⟩ := h
  refine ⟨e :: es, ?_, ?_⟩
  · intro x hx
    rcases List.mem_cons.1 hx with rfl | hx
    · exact he
    · exact hes x hx
  · show (run (step s e) es).runs > s.runs
    omega

private theorem reach_body {s : St} (h : s.cb = .body) : Reach s :=
  ⟨[.cb], by simp [Internal], by simp [run, step, cbStep, h]⟩

/-- Jobs are ready and the server is up. -/
private structure Up (s : St) : Prop where
  inv : Inv s
  ready : s.ready > 0
  drain : s.drain = false
  stopped : s.stopped = false

private theorem reach_start {s : St} (u : Up s) (h : s.cb = .start) : Reach s := by
  apply reach_step .cb trivial
  · simp [step, cbStep, h, u.drain, u.stopped]
  · apply reach_body
    simp [step, cbStep, h, u.drain, u.stopped]

private theorem up_ready {s : St} (u : Up s) : Up (readyAdded s) := by
  refine ⟨inv_ready u.inv, ?_, ?_, ?_⟩ <;> unfold readyAdded <;> split <;> simp [u.ready, u.drain, u.stopped]

private theorem up_cb {s : St} (u : Up s) : Up (step s .cb) := by
  refine ⟨inv_step u.inv .cb, ?_, ?_, ?_⟩ <;> simp only [step, cbStep] <;> cases hc : s.cb <;> simp only <;>
    (repeat' split) <;> first | exact u.ready | exact u.drain | exact u.stopped

private theorem up_chk {s : St} (u : Up s) (i : Nat) : Up (step s (.chk i)) := by
  refine ⟨inv_step u.inv (.chk i), ?_, ?_, ?_⟩ <;> simp only [step, chkStep, readyAdded] <;>
    (repeat' split) <;> first | exact u.ready | exact u.drain | exact u.stopped

private theorem up_call {s : St} (u : Up s) : Up (step s .call) := by
  refine ⟨inv_step u.inv .call, ?_, ?_, ?_⟩ <;> simp only [step, readyAdded] <;>
    (repeat' split) <;> first | exact u.ready | exact u.drain | exact u.stopped

private theorem up_expire {s : St} (u : Up s) : Up (step s .expire) := by
  refine ⟨inv_step u.inv .expire, ?_, ?_, ?_⟩ <;> simp only [step] <;>
    (repeat' split) <;> first | exact u.ready | exact u.drain | exact u.stopped

private theorem reach_calls {s : St} (u : Up s) (h : s.cb = .idle) (hc : s.calls > 0) : Reach s := by
  apply reach_step .call trivial
  · simp [step, hc, readyAdded, h]
  · apply reach_start (up_call u)
    simp [step, hc, readyAdded, h]

private theorem reach_again {s : St} (u : Up s) (h : s.cb = .again) : Reach s := by
  apply reach_step .cb trivial
  · simp [step, cbStep, h]
  · apply reach_calls (up_cb u)
    · simp [step, cbStep, h]
    · simp [step, cbStep, h]

private theorem reach_trigger {s : St} (u : Up s) (h : s.cb = .idle) {i : Nat} (hi : s.chks[i]? = some .trigger) : Reach s := by
  apply reach_step (.chk i) trivial
  · simp [step, chkStep, hi, readyAdded, h]
  · apply reach_start (up_chk u i)
    simp [step, chkStep, hi, readyAdded, h]

private theorem index {l : List Chk} {c : Chk} (h : l.count c > 0) : ∃ i : Nat, l[i]? = some c := by
  obtain ⟨i, hi, e⟩ := List.getElem_of_mem (List.count_pos_iff.1 h)
  exact ⟨i, by rw [List.getElem?_eq_getElem hi, e]⟩

private theorem get_set {l : List Chk} {i : Nat} {a b : Chk} (h : l[i]? = some a) : (l.set i b)[i]? = some b := by
  have : i < l.length := by
    rcases Nat.lt_or_ge i l.length with h' | h'
    · exact h'
    · rw [List.getElem?_eq_none h'] at h; cases h
  simp [this]

private theorem unlocked {s : St} (i : Inv s) (h : s.cb ≠ .stop) (h' : s.cb ≠ .receive) : s.locked = false := by
  cases hl : s.locked with
  | false => rfl
  | true => rcases i.lock.1 hl with e | e <;> contradiction

private theorem reach_fired {s : St} (u : Up s) (h : s.cb = .idle) {i : Nat} (hi : s.chks[i]? = some .fired) : Reach s := by
  have hl := unlocked u.inv (by simp [h]) (by simp [h])
  have hr := u.ready
  have e : step s (.chk i) = { s with checking := false, chks := s.chks.set i .trigger } := by
    simp [step, chkStep, hi, hl, hr]
  apply reach_step (.chk i) trivial
  · rw [e]
  · apply reach_trigger (up_chk u i) (i := i)
    · rw [e]; exact h
    · rw [e]; exact get_set hi

private theorem reach_select {s : St} (u : Up s) (h : s.cb = .idle) {i : Nat} (hi : s.chks[i]? = some .select) : Reach s := by
  have main : ∀ s' : St, Up s' → s'.cb = .idle → s'.chks[i]? = some .select → s'.timer = .expired → Reach s' := by
    intro s' u' h hi ht
    have e : step s' (.chk i) = { s' with timer := .off, chks := s'.chks.set i .fired } := by
      simp [step, chkStep, hi, u'.stopped, ht]
    apply reach_step (.chk i) trivial
    · rw [e]
    · apply reach_fired (up_chk u' i) (i := i)
      · rw [e]; exact h
      · rw [e]; exact get_set hi
  have hpos : s.chks.count .select = 1 := by
    have : 0 < s.chks.count .select := List.count_pos_iff.2 (List.mem_of_getElem? hi)
    have := u.inv.one
    omega
  cases ht : s.timer with
  | off => exact absurd ht (u.inv.sel hpos)
  | expired => exact main s u h hi ht
  | armed =>
    apply reach_step .expire trivial
    · simp [step, ht]
    · apply main _ (up_expire u) <;> simp [step, ht, h, hi]

private theorem reach_idle {s : St} (u : Up s) (h : s.cb = .idle) : Reach s := by
  rcases u.inv.seen u.ready u.drain u.stopped with hc | hc | hc | hc | hc
  · exact reach_calls u h hc
  · exact absurd h (u.inv.recall hc)
  · exact absurd h hc.1
  · have := u.inv.on hc u.stopped
    rcases Nat.eq_zero_or_pos (s.chks.count .select) with h0 | h0
    · obtain ⟨i, hi⟩ := index (l := s.chks) (c := .fired) (by omega)
      exact reach_fired u h hi
    · obtain ⟨i, hi⟩ := index h0
      exact reach_select u h hi
  · obtain ⟨i, hi⟩ := index hc
    exact reach_trigger u h hi

private theorem reach_done {s : St} (u : Up s) (h : s.cb = .done) : Reach s := by
  apply reach_step .cb trivial
  · simp only [step, cbStep, h]; split <;> rfl
  · cases hr : s.recall with
    | true => exact reach_again (up_cb u) (by simp [step, cbStep, h, hr])
    | false => exact reach_idle (up_cb u) (by simp [step, cbStep, h, hr])

private theorem reach_lock {s : St} (u : Up s) (h : s.cb = .lock) : Reach s := by
  have off : ∀ s' : St, Up s' → s'.cb = .lock → s'.checking = false → Reach s' := by
    intro s' u' h hc
    have hl := unlocked u'.inv (by simp [h]) (by simp [h])
    apply reach_step .cb trivial
    · simp [step, cbStep, h, hl, hc]
    · exact reach_done (up_cb u') (by simp [step, cbStep, h, hl, hc])
  have hl := unlocked u.inv (by simp [h]) (by simp [h])
  cases hc : s.checking with
  | false => exact off s u h hc
  | true =>
    have := u.inv.on hc u.stopped
    rcases Nat.eq_zero_or_pos (s.chks.count .select) with h0 | h0
    · obtain ⟨i, hi⟩ := index (l := s.chks) (c := .fired) (by omega)
      have hr := u.ready
      have e : step s (.chk i) = { s with checking := false, chks := s.chks.set i .trigger } := by
        simp [step, chkStep, hi, hl, hr]
      apply reach_step (.chk i) trivial
      · rw [e]
      · apply off _ (up_chk u i) <;> rw [e]
        exact h
    · have ht : s.timer ≠ .off := u.inv.sel (by omega)
      have e : step s .cb = { s with locked := true, cb := .stop } := by simp [step, cbStep, h, hl, hc]
      apply reach_step .cb trivial
      · rw [e]
      · apply reach_step .cb trivial
        · rw [e]; simp [step, cbStep, ht]
        · apply reach_done (up_cb (up_cb u))
          rw [e]; simp [step, cbStep, ht]

private theorem reach_up {s : St} (u : Up s) (h : ¬ Stuck s) : Reach s := by
  cases hc : s.cb with
  | idle => exact reach_idle u hc
  | start => exact reach_start u hc
  | body => exact reach_body hc
  | lock => exact reach_lock u hc
  | stop =>
    have ht : s.timer ≠ .off := fun e => h ⟨e, .inl hc⟩
    apply reach_step .cb trivial
    · simp [step, cbStep, hc, ht]
    · apply reach_done (up_cb u)
      simp [step, cbStep, hc, ht]
  | receive => exact absurd ⟨u.inv.rec' hc, .inr hc⟩ h
  | done => exact reach_done u hc
  | again => exact reach_again u hc

private theorem stuck_step {s : St} (hl : s.locked = true) (h : Stuck s) (e : Ev) :
    Stuck (step s e) ∧ (step s e).locked = true ∧ (step s e).runs = s.runs ∧ (step s e).checking = s.checking := by
  obtain ⟨ht, hc⟩ := h
  have hni : s.cb ≠ .idle := by rcases hc with e | e <;> simp [e]
  cases e with
  | push => exact ⟨⟨ht, hc⟩, hl, rfl, rfl⟩
  | pop => exact ⟨⟨ht, hc⟩, hl, rfl, rfl⟩
  | call =>
    simp only [step, readyAdded]
    split
    · exact ⟨⟨ht, hc⟩, hl, rfl, rfl⟩
    · exact ⟨⟨ht, hc⟩, hl, rfl, rfl⟩
  | cb =>
    rcases hc with e | e
    · simp [step, cbStep, e, ht, Stuck, hl]
    · simp [step, cbStep, e, ht, Stuck, hl]
  | expire =>
    simp only [step, ht]
    exact ⟨⟨ht, hc⟩, hl, rfl, rfl⟩
  | chk i =>
    simp only [step, chkStep]
    split
    · split
      · exact ⟨⟨ht, hc⟩, hl, rfl, rfl⟩
      · rw [if_neg (by simp [ht])]
        exact ⟨⟨ht, hc⟩, hl, rfl, rfl⟩
    · rw [if_pos hl]
      exact ⟨⟨ht, hc⟩, hl, rfl, rfl⟩
    · rw [readyAdded, if_neg (by exact hni)]
      exact ⟨⟨ht, hc⟩, hl, rfl, rfl⟩
    · exact ⟨⟨ht, hc⟩, hl, rfl, rfl⟩
  | pause => exact ⟨⟨ht, hc⟩, hl, rfl, rfl⟩
  | resume =>
    simp only [step, readyAdded]
    split
    · exact ⟨⟨ht, hc⟩, hl, rfl, rfl⟩
    · exact ⟨⟨ht, hc⟩, hl, rfl, rfl⟩
  | stop => exact ⟨⟨ht, hc⟩, hl, rfl, rfl⟩

private theorem stuck_run {s : St} (hl : s.locked = true) (h : Stuck s) : ∀ es,
    Stuck (run s es) ∧ (run s es).locked = true ∧ (run s es).runs = s.runs
  | [] => ⟨h, hl, rfl⟩
  | e :: es => by
    obtain ⟨a, b, c, _⟩ := stuck_step hl h e
    obtain ⟨x, y, z⟩ := stuck_run b a es
    exact ⟨x, y, z.trans c⟩

private theorem count_waiting : ∀ l : List Chk, l.countP waiting = l.count .select + l.count .fired
  | [] => rfl
  | c :: l => by
    have := count_waiting l
    cases c <;> simp [waiting, List.count_cons, List.countP_cons, this] <;> omega

/-! ## Properties -/

/-- C94: at no time does more than one checker wait for the timer. -/
theorem C94_one (es : List Ev) : (run {} es).chks.countP waiting ≤ 1 := by
  rw [count_waiting]; exact (inv_run inv_init es).one

/-- C94: a checker that waits for the timer will hear from it: its time is yet to come, or has come. -/
theorem C94_armed (es : List Ev) (h : .select ∈ (run {} es).chks) : (run {} es).timer ≠ .off := by
  have i := inv_run inv_init es
  apply i.sel
  have := List.count_pos_iff.2 h
  have := i.one
  omega

/-- C94: whenever jobs are ready and the server is neither paused nor stopped, a run of the callback is going on or due, or
a checker is there that will ask for one. -/
theorem C94_due (es : List Ev) (hr : (run {} es).ready > 0) (hd : (run {} es).drain = false)
    (hs : (run {} es).stopped = false) :
    (run {} es).calls > 0 ∨ (run {} es).cb ≠ .idle ∨ ∃ c ∈ (run {} es).chks, c ≠ .gone := by
  have i := inv_run inv_init es
  rcases i.seen hr hd hs with h | h | h | h | h
  · exact .inl h
  · exact .inr (.inl (i.recall h))
  · exact .inr (.inl h.1)
  · have := i.on h hs
    rcases Nat.eq_zero_or_pos ((run {} es).chks.count .select) with h0 | h0
    · exact .inr (.inr ⟨.fired, List.count_pos_iff.1 (by omega), by simp⟩)
    · exact .inr (.inr ⟨.select, List.count_pos_iff.1 h0, by simp⟩)
  · exact .inr (.inr ⟨.trigger, List.count_pos_iff.1 h, by simp⟩)

/-- C94: racmutex is only held by a callback that deals with the timer. -/
theorem C94_lock (es : List Ev) (h : (run {} es).locked = true) : (run {} es).cb = .stop ∨ (run {} es).cb = .receive :=
  (inv_run inv_init es).lock.1 h

/-- C94: whenever jobs are ready and the server is neither paused nor stopped, then unless the callback and a checker wait
for each other, runners will be scheduled once more if all go on, although nothing happens from outside. -/
theorem C94_again_partial (es : List Ev) (hr : (run {} es).ready > 0) (hd : (run {} es).drain = false)
    (hs : (run {} es).stopped = false) (h : ¬ Stuck (run {} es)) :
    ∃ es', (∀ e ∈ es', Internal e) ∧ (run (run {} es) es').runs > (run {} es).runs :=
  reach_up ⟨inv_run inv_init es, hr, hd, hs⟩ h

example : (run {} [.push, .call, .cb, .cb]).ready > 0 ∧ ¬ Stuck (run {} [.push, .call, .cb, .cb]) := by
  refine ⟨by decide, ?_⟩
  rintro ⟨_, h⟩
  revert h
  decide

/-- C94: it does go on after a check: the job was not taken, the timer fires, runners are scheduled for the second time. -/
example : (run {} [.push, .call, .cb, .cb, .cb, .cb, .expire, .chk 0, .chk 0, .chk 0, .cb, .cb]).runs = 2 := by decide

/-- C94 violated: the checker has its value from the timer but not yet the lock; a callback takes the lock, cannot stop the
timer and waits for a value that will never come.  From then on, whatever happens, the lock is held and no runner is ever
scheduled again. -/
theorem C94_violated_deadlock :
    ∃ es, (run {} es).ready > 0 ∧ (run {} es).drain = false ∧ (run {} es).stopped = false ∧
      ∀ es', (run (run {} es) es').locked = true ∧ (run (run {} es) es').runs = (run {} es).runs := by
  refine ⟨[.push, .call, .cb, .cb, .cb, .cb, .expire, .chk 0, .push, .call, .cb, .cb, .cb], by decide, by decide, by decide, ?_⟩
  intro es'
  have := stuck_run (s := run {} [.push, .call, .cb, .cb, .cb, .cb, .expire, .chk 0, .push, .call, .cb, .cb, .cb])
    (by decide) ⟨by decide, .inl (by decide)⟩ es'
  exact ⟨this.2.1, this.2.2⟩

/-- C94 violated: the receive is never of any use: a callback that comes to it stays there. -/
theorem C94_violated_receive (es es' : List Ev) (h : (run {} es).cb = .receive) :
    (run (run {} es) es').locked = true ∧ (run (run {} es) es').runs = (run {} es).runs := by
  have i := inv_run inv_init es
  have := stuck_run (i.lock.2 (.inr h)) ⟨i.rec' h, .inr h⟩ es'
  exact ⟨this.2.1, this.2.2⟩

end Verif.Server.RacTimer
