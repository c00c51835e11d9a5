import Verif.Queue.TimerInv

/-! # C99: items leave the delay and run sub-queues in time, and the calls that put them there return -/

namespace Verif.Queue.Timer

/-! ## Specification -/

/-- Runs all of whose steps are allowed. -/
def runWhen (ok : S → Ev → Bool) (s : S) : List Ev → Option S
  | [] => some s
  | e :: es => if ok s e then (step s e).bind fun t => runWhen ok t es else none

/-- Nothing is going on: the goroutine sleeps, and every call has either returned or is only waiting for the answer. -/
def Quiet (s : S) : Prop :=
  s.proc = .sleep ∧ s.buf = false ∧ ∀ c ∈ s.calls, c.phase ≠ .checking ∧ c.phase ≠ .sending

/-- Calls take no time: time only passes while no call is about to look at when the goroutine wakes. -/
def prompt (s : S) : Ev → Bool
  | .tick _ => s.calls.all fun c => c.phase ≠ .checking
  | _ => true

/-- The steps of the goroutine. -/
def Ev.ofGoroutine : Ev → Bool
  | .compute | .announce _ | .fire | .receive | .stop => true
  | _ => false

/-- The steps of the goroutine and those of a call. -/
def Ev.of (c : Nat) : Ev → Bool
  | .check d | .send d => d = c
  | e => e.ofGoroutine

/-! ## Runs -/

theorem runWhen_run {ok : S → Ev → Bool} {es : List Ev} {s t : S} (h : runWhen ok s es = some t) : run s es = some t := by
  induction es generalizing s with
  | nil => exact h
  | cons e es ih =>
    rw [runWhen] at h
    rw [run]
    split at h
    · cases hx : step s e with
      | none => rw [hx] at h; cases h
      | some u => rw [hx] at h; exact ih h
    · cases h

theorem runWhen_inv {ok : S → Ev → Bool} (P : S → Prop)
    (hstep : ∀ s e t, P s → ok s e = true → step s e = some t → P t) {es : List Ev} {s t : S} (hs : P s)
    (h : runWhen ok s es = some t) : P t := by
  induction es generalizing s with
  | nil => cases h; exact hs
  | cons e es ih =>
    rw [runWhen] at h
    split at h
    · rename_i hok
      cases hx : step s e with
      | none => rw [hx] at h; cases h
      | some u => rw [hx] at h; exact ih (hstep s e u hs hok hx) h
    · cases h

theorem run_inv (P : S → Prop) (hstep : ∀ s e t, P s → step s e = some t → P t) {es : List Ev} {s t : S} (hs : P s)
    (h : run s es = some t) : P t := by
  induction es generalizing s with
  | nil => cases h; exact hs
  | cons e es ih =>
    rw [run] at h
    cases hx : step s e with
    | none => rw [hx] at h; cases h
    | some u => rw [hx] at h; exact ih (hstep s e u hs hx) h

theorem run_append {s t u : S} {as bs : List Ev} (h1 : run s as = some t) (h2 : run t bs = some u) :
    run s (as ++ bs) = some u := by
  induction as generalizing s with
  | nil => cases h1; exact h2
  | cons e es ih =>
    rw [run] at h1
    rw [List.cons_append, run]
    cases hx : step s e with
    | none => rw [hx] at h1; cases h1
    | some v => rw [hx] at h1; exact ih h1

theorem inv_init : Inv init := by intro e he; cases he

/-! ## In time -/

/-- C99: when nothing is going on, the goroutine wakes no later than each item is due, but for the time that the call which put
the item took to look at when it wakes. -/
theorem C99_in_time_partial (es : List Ev) (s : S) (h : runWhen calm init es = some s) (hq : Quiet s) :
    ∀ e ∈ s.entries, s.wake ≤ e.due + e.slack := by
  intro e he
  have I := runWhen_inv Inv (fun s e t hs hok hx => inv_step hs e hok hx) inv_init h e he
  rcases I.safe with h | h | ⟨j, h1, _⟩
  · exfalso
    rcases h with ⟨b, h⟩ | h | ⟨c, hc, h⟩
    · rw [hq.1] at h; cases h
    · rw [hq.2.1] at h; cases h
    · exact (hq.2.2 c hc).2 h
  · exact h
  · exfalso
    unfold relies at h1
    cases hx : e.call with
    | none => rw [hx] at h1; cases h1
    | some c =>
      rw [hx] at h1
      simp only [Option.bind_some] at h1
      cases hk : s.calls[c]? with
      | none => rw [hk] at h1; cases h1
      | some k =>
        rw [hk] at h1
        simp only [Option.bind_some] at h1
        rw [if_neg (hq.2.2 k (List.mem_of_getElem? hk)).1] at h1
        cases h1

/-- What holds if calls take no time. -/
def PInv (s : S) : Prop :=
  ∀ e ∈ s.entries, e.slack = 0 ∧ (∀ c, e.call = some c → c < s.calls.length) ∧ (relies s e ≠ none → e.set = s.now)

theorem relies_set {s t : S} {e : Entry} {c : Nat} {k : Call} (hc : t.calls = s.calls.set c k) (hk : k.phase ≠ .checking)
    (h : relies t e ≠ none) : relies s e ≠ none := by
  intro hn
  apply h
  unfold relies at hn ⊢
  rw [hc]
  cases hx : e.call with
  | none => rfl
  | some c' =>
    rw [hx] at hn
    by_cases hcc : c = c'
    · subst hcc
      simp only [Option.bind_some]
      rw [List.getElem?_set]
      by_cases hl : c < s.calls.length <;> simp [hl, hk]
    · simpa [List.getElem?_set, hcc] using hn

theorem pinv_step {s t : S} (hs : PInv s) (e : Ev) (hp : prompt s e = true) (h : step s e = some t) : PInv t := by
  have hplace : ∀ (call : Option Nat) (l : List (Nat × Nat)) (k : List Call) (u : S), u.now = s.now →
      u.calls = s.calls ++ k → u.entries = place s call l → (∀ c, call = some c → c < u.calls.length) → PInv u := by
    intro call l k u h1 h2 h3 h4 x hx
    rw [h3] at hx
    rcases mem_place hx with ⟨hx, _⟩ | ⟨p, _, rfl⟩
    · have I := hs x hx
      refine ⟨I.1, fun c hc => ?_, fun hr => ?_⟩
      · have := I.2.1 c hc
        rw [h2, List.length_append]; omega
      · rw [h1]; exact I.2.2 (by rw [← relies_append k h2 I.2.1]; exact hr)
    · exact ⟨rfl, h4, fun _ => h1.symm⟩
  have hsub : ∀ u : S, u.now = s.now → u.calls = s.calls → (∀ x ∈ u.entries, x ∈ s.entries) → PInv u := by
    intro u h1 h2 h3 x hx
    have I := hs x (h3 x hx)
    exact ⟨I.1, fun c hc => by rw [h2]; exact I.2.1 c hc, fun hr => by
      rw [h1]; exact I.2.2 (by rw [← relies_congr (t := u) h2 rfl]; exact hr)⟩
  have hset : ∀ (u : S) (c : Nat) (ph : Phase), u.now = s.now → u.calls = setCall s c ph → ph ≠ .checking →
      u.entries = s.entries → PInv u := by
    intro u c ph h1 h2 h3 h4 x hx
    rw [h4] at hx
    have I := hs x hx
    unfold setCall at h2
    rcases hk : s.calls[c]? with _ | k
    · rw [hk] at h2
      exact ⟨I.1, fun c hc => by rw [h2]; exact I.2.1 c hc, fun hr => by
        rw [h1]; exact I.2.2 (by rw [← relies_congr (t := u) h2 rfl]; exact hr)⟩
    · rw [hk] at h2
      refine ⟨I.1, fun c hc => by rw [h2, List.length_set]; exact I.2.1 c hc, fun hr => ?_⟩
      rw [h1]
      exact I.2.2 (relies_set (t := u) h2 h3 hr)
  cases e with
  | tick n =>
    cases h
    intro x hx
    have I := hs x hx
    refine ⟨I.1, I.2.1, fun hr => ?_⟩
    exfalso
    apply hr
    unfold relies
    simp only [prompt, List.all_eq_true, decide_eq_true_eq] at hp
    cases hx : x.call with
    | none => rfl
    | some c =>
      simp only [Option.bind_some]
      cases hk : s.calls[c]? with
      | none => rfl
      | some k => simp [hp k (List.mem_of_getElem? hk)]
  | put i d =>
    simp only [step] at h
    split at h
    · cases h
    · cases h
      refine hplace (some s.calls.length) [(i, d)] _ _ rfl rfl rfl ?_
      intro c hc; cases hc; simp
  | many l =>
    simp only [step] at h
    split at h
    · cases h
    · rcases hf : l.find? fun p => tooLate s p.2 with _ | j
      · rw [hf] at h; cases h
        exact hplace none l [] _ rfl (by simp) rfl (by simp)
      · rw [hf] at h; cases h
        refine hplace (some s.calls.length) l _ _ rfl rfl rfl ?_
        intro c hc; cases hc; simp
  | update i d =>
    simp only [step] at h
    split at h
    · cases h
    · cases h
      intro x hx
      obtain ⟨e, he, rfl⟩ := List.mem_map.mp hx
      have I := hs e he
      by_cases hi : e.id = i
      · rw [if_pos hi]; exact ⟨I.1, I.2.1, fun _ => rfl⟩
      · rw [if_neg hi]; exact ⟨I.1, I.2.1, I.2.2⟩
  | remove i =>
    simp only [step] at h
    split at h
    · cases h
    · cases h; exact hsub _ rfl rfl fun x hx => (List.mem_filter.mp hx).1
  | check c =>
    simp only [step] at h
    rcases hk : s.calls[c]? with _ | ⟨i, ph⟩
    · rw [hk] at h; cases h
    · cases ph with
      | checking =>
        rw [hk] at h
        simp only at h
        split at h
        · cases h; exact hset _ c .sending rfl rfl (by simp) rfl
        · cases h
          intro x hx
          obtain ⟨e, he, rfl⟩ := List.mem_map.mp hx
          have I := hs e he
          have hcalls : setCall s c .done = s.calls.set c ⟨i, .done⟩ := by simp [setCall, hk]
          by_cases hc : e.call = some c
          · rw [if_pos hc]
            have hr : relies s e ≠ none := by unfold relies; rw [hc]; simp [hk]
            refine ⟨by simp [I.2.2 hr], fun c' hc' => ?_, fun _ => I.2.2 hr⟩
            rw [hcalls, List.length_set]; exact I.2.1 c' hc'
          · rw [if_neg hc]
            refine ⟨I.1, fun c' hc' => ?_, fun hr => I.2.2 (relies_set hcalls (by simp) hr)⟩
            rw [hcalls, List.length_set]; exact I.2.1 c' hc'
      | sending => rw [hk] at h; cases h
      | waiting => rw [hk] at h; cases h
      | done => rw [hk] at h; cases h
  | send c =>
    simp only [step] at h
    rcases hk : s.calls[c]? with _ | ⟨i, ph⟩
    · rw [hk] at h; cases h
    · rw [hk] at h
      cases ph with
      | sending =>
        simp only at h
        split at h
        · cases h
        · cases h; exact hset _ c .waiting rfl rfl (by simp) rfl
      | checking => cases h
      | waiting => cases h
      | done => cases h
  | compute =>
    simp only [step] at h
    cases hp : s.proc <;> rw [hp] at h <;> cases h
    exact hsub _ rfl rfl fun x hx => hx
  | announce c =>
    simp only [step] at h
    cases hp : s.proc with
    | announce =>
      rw [hp] at h
      rcases hk : s.calls[c]? with _ | ⟨i, ph⟩
      · rw [hk] at h; cases h
      · rw [hk] at h
        cases ph with
        | waiting => cases h; exact hset _ c .done rfl rfl (by simp) rfl
        | checking => cases h
        | sending => cases h
        | done => cases h
    | compute b => rw [hp] at h; cases h
    | sleep => rw [hp] at h; cases h
    | ended => rw [hp] at h; cases h
  | fire =>
    simp only [step] at h
    split at h
    · cases h; exact hsub _ rfl rfl fun x hx => (List.mem_filter.mp hx).1
    · cases h
  | receive =>
    simp only [step] at h
    split at h
    · cases h; exact hsub _ rfl rfl fun x hx => hx
    · cases h
  | destroy =>
    simp only [step] at h
    split at h
    · cases h
    · cases h; intro x hx; cases hx
  | stop =>
    simp only [step] at h
    split at h
    · cases h; exact hsub _ rfl rfl fun x hx => hx
    · cases h

/-- C99: if calls take no time the goroutine wakes no later than each item is due. -/
theorem C99_exact_partial (es : List Ev) (s : S) (h : runWhen (fun s e => calm s e && prompt s e) init es = some s)
    (hq : Quiet s) : ∀ e ∈ s.entries, s.wake ≤ e.due := by
  have h1 : runWhen calm init es = some s := by
    have : ∀ (es : List Ev) (u v : S), runWhen (fun s e => calm s e && prompt s e) u es = some v →
        runWhen calm u es = some v := by
      intro es
      induction es with
      | nil => intro u v h; exact h
      | cons e es ih =>
        intro u v h
        rw [runWhen] at h ⊢
        by_cases hc : (calm u e && prompt u e) = true
        · rw [if_pos hc] at h
          rw [if_pos (by simp only [Bool.and_eq_true] at hc; exact hc.1)]
          cases hx : step u e with
          | none => rw [hx] at h; cases h
          | some w => rw [hx] at h; exact ih w v h
        · rw [if_neg hc] at h; cases h
    exact this es _ _ h
  have hP : PInv s := runWhen_inv PInv
    (fun s e t hs hok hx => pinv_step hs e (by simp only [Bool.and_eq_true] at hok; exact hok.2) hx)
    (by intro e he; cases he) h
  intro e he
  have := C99_in_time_partial es s h1 hq e he
  rw [(hP e he).1] at this
  exact this

/-- C99: an item that is overdue when nothing is going on leaves as soon as the goroutine is run: its timer has fired. -/
theorem C99_overdue_partial (es : List Ev) (s : S) (h : runWhen calm init es = some s) (hq : Quiet s) (e : Entry)
    (he : e ∈ s.entries) (hd : e.due + e.slack < s.now) :
    ∃ t, step s .fire = some t ∧ e ∉ t.entries := by
  have := C99_in_time_partial es s h hq e he
  refine ⟨{ s with proc := .compute false, entries := s.entries.filter fun e => ¬ e.due < s.now }, ?_, ?_⟩
  · simp only [step]
    rw [if_pos ⟨hq.1, by omega⟩]
  · intro hm
    have := (List.mem_filter.mp hm).2
    simp at this
    omega

/-- C99: the goroutine never takes an item before it is due, and takes all that are. -/
theorem C99_due (s t : S) (h : step s .fire = some t) (e : Entry) : e ∈ t.entries ↔ e ∈ s.entries ∧ s.now ≤ e.due := by
  simp only [step] at h
  split at h
  · cases h
    simp
  · cases h

/-! ## The calls return -/

def waits (c : Call) : Bool := c.phase = .waiting

def toAnswer : Proc → Nat
  | .compute true => 1
  | .announce => 1
  | _ => 0

/-- The calls that wait are those whose message the goroutine has not got, and the one it is about to answer. -/
def LInv (s : S) : Prop :=
  (s.proc ≠ .ended → s.calls.countP waits = (if s.buf then 1 else 0) + toAnswer s.proc) ∧ (s.proc = .ended → s.closing = true)

theorem count_set {s : S} {c i : Nat} {ph : Phase} (hk : s.calls[c]? = some ⟨i, ph⟩) (ph' : Phase) :
    (setCall s c ph').countP waits + (if ph = .waiting then 1 else 0) = s.calls.countP waits + (if ph' = .waiting then 1 else 0) := by
  obtain ⟨hl, hk'⟩ := List.getElem?_eq_some_iff.mp hk
  have e : setCall s c ph' = s.calls.set c ⟨i, ph'⟩ := by simp [setCall, hk]
  rw [e, List.countP_set hl, hk']
  have hw : ∀ q : Phase, waits ⟨i, q⟩ = decide (q = .waiting) := fun q => rfl
  rw [hw, hw]
  have hpos : ph = .waiting → 0 < s.calls.countP waits := by
    intro h
    rw [List.countP_pos_iff]
    exact ⟨⟨i, ph⟩, List.mem_of_getElem? hk, by simp [waits, h]⟩
  by_cases h1 : ph = .waiting
  · have := hpos h1
    by_cases h2 : ph' = .waiting <;> simp only [h1, h2, decide_true, decide_false, if_true] <;> simp <;> omega
  · by_cases h2 : ph' = .waiting <;> simp [h1, h2]

theorem setCall_get {s : S} {c i : Nat} {ph : Phase} (hk : s.calls[c]? = some ⟨i, ph⟩) (ph' : Phase) :
    (setCall s c ph')[c]? = some ⟨i, ph'⟩ := by
  obtain ⟨hl, _⟩ := List.getElem?_eq_some_iff.mp hk
  have e : setCall s c ph' = s.calls.set c ⟨i, ph'⟩ := by simp [setCall, hk]
  rw [e]
  simp [hl]

theorem linv_step {s t : S} (hs : LInv s) (e : Ev) (h : step s e = some t) : LInv t := by
  cases e with
  | tick n => cases h; exact hs
  | put i d =>
    simp only [step] at h
    split at h
    · cases h
    · cases h
      refine ⟨fun hp => ?_, hs.2⟩
      have := hs.1 hp
      simp [List.countP_append, waits] at this ⊢
      exact this
  | many l =>
    simp only [step] at h
    split at h
    · cases h
    · rcases hf : l.find? fun p => tooLate s p.2 with _ | j
      · rw [hf] at h; cases h; exact hs
      · rw [hf] at h; cases h
        refine ⟨fun hp => ?_, hs.2⟩
        have := hs.1 hp
        simp [List.countP_append, waits] at this ⊢
        exact this
  | update i d =>
    simp only [step] at h
    split at h
    · cases h
    · cases h; exact hs
  | remove i =>
    simp only [step] at h
    split at h
    · cases h
    · cases h; exact hs
  | check c =>
    simp only [step] at h
    rcases hk : s.calls[c]? with _ | ⟨i, ph⟩
    · rw [hk] at h; cases h
    · rw [hk] at h
      cases ph with
      | checking =>
        simp only at h
        split at h
        · cases h
          refine ⟨fun hp => ?_, hs.2⟩
          have := hs.1 hp
          have := count_set hk .sending
          simp at this ⊢; omega
        · cases h
          refine ⟨fun hp => ?_, hs.2⟩
          have := hs.1 hp
          have := count_set hk .done
          simp at this ⊢; omega
      | sending => cases h
      | waiting => cases h
      | done => cases h
  | send c =>
    simp only [step] at h
    rcases hk : s.calls[c]? with _ | ⟨i, ph⟩
    · rw [hk] at h; cases h
    · rw [hk] at h
      cases ph with
      | sending =>
        simp only at h
        split at h
        · cases h
        · rename_i hb
          cases h
          refine ⟨fun hp => ?_, hs.2⟩
          have := hs.1 hp
          have := count_set hk .waiting
          simp [hb] at *
          omega
      | checking => cases h
      | waiting => cases h
      | done => cases h
  | compute =>
    simp only [step] at h
    cases hp : s.proc with
    | compute b =>
      rw [hp] at h
      cases h
      refine ⟨fun _ => ?_, fun h => ?_⟩
      · have := hs.1 (by rw [hp]; simp)
        rw [hp] at this
        cases b <;> simpa [toAnswer] using this
      · cases b <;> simp at h
    | announce => rw [hp] at h; cases h
    | sleep => rw [hp] at h; cases h
    | ended => rw [hp] at h; cases h
  | announce c =>
    simp only [step] at h
    cases hp : s.proc with
    | announce =>
      rw [hp] at h
      rcases hk : s.calls[c]? with _ | ⟨i, ph⟩
      · rw [hk] at h; cases h
      · rw [hk] at h
        cases ph with
        | waiting =>
          cases h
          refine ⟨fun _ => ?_, fun h => by simp at h⟩
          have := hs.1 (by rw [hp]; simp)
          rw [hp] at this
          have := count_set hk .done
          simp [toAnswer] at *
          omega
        | checking => cases h
        | sending => cases h
        | done => cases h
    | compute b => rw [hp] at h; cases h
    | sleep => rw [hp] at h; cases h
    | ended => rw [hp] at h; cases h
  | fire =>
    simp only [step] at h
    split at h
    · rename_i hc
      cases h
      refine ⟨fun _ => ?_, fun h => by simp at h⟩
      have := hs.1 (by rw [hc.1]; simp)
      rw [hc.1] at this
      simpa [toAnswer] using this
    · cases h
  | receive =>
    simp only [step] at h
    split at h
    · rename_i hc
      cases h
      refine ⟨fun _ => ?_, fun h => by simp at h⟩
      have := hs.1 (by rw [hc.1]; simp)
      rw [hc.1] at this
      simpa [toAnswer, hc.2] using this
    · cases h
  | destroy =>
    simp only [step] at h
    split at h
    · cases h
    · cases h
      exact ⟨hs.1, fun _ => rfl⟩
  | stop =>
    simp only [step] at h
    split at h
    · rename_i hc
      cases h
      exact ⟨fun h => by simp at h, fun _ => hc.2⟩
    · cases h

theorem linv_run {es : List Ev} {s : S} (h : run init es = some s) : LInv s :=
  run_inv LInv (fun _ e _ hs hx => linv_step hs e hx) ⟨fun _ => rfl, fun h => by cases h⟩ h

/-- C99: the goroutine never waits for a call that is not waiting for it. -/
theorem C99_goroutine (es : List Ev) (s : S) (h : run init es = some s) (hp : s.proc = .announce) :
    ∃ (c : Nat) (i : Nat), s.calls[c]? = some ⟨i, .waiting⟩ := by
  have := (linv_run h).1 (by rw [hp]; simp)
  rw [hp] at this
  have hpos : 0 < s.calls.countP waits := by simp [toAnswer] at this; omega
  rw [List.countP_pos_iff] at hpos
  obtain ⟨k, hk, hw⟩ := hpos
  obtain ⟨c, hc⟩ := List.getElem?_of_mem hk
  refine ⟨c, k.id, ?_⟩
  rw [hc]
  simp only [waits, decide_eq_true_eq] at hw
  rw [← hw]

theorem done_of_announce {s : S} {c i : Nat} (hp : s.proc = .announce) (hk : s.calls[c]? = some ⟨i, .waiting⟩) :
    ∃ t, run s [.announce c] = some t ∧ t.calls[c]? = some ⟨i, .done⟩ ∧ t.proc = .sleep ∧ t.buf = s.buf ∧
      t.closing = s.closing ∧ ∀ d, d ≠ c → t.calls[d]? = s.calls[d]? := by
  obtain ⟨hl, _⟩ := List.getElem?_eq_some_iff.mp hk
  refine ⟨{ s with proc := .sleep, calls := setCall s c .done }, ?_, ?_, rfl, rfl, rfl, fun d hd => ?_⟩
  · simp [run, step, hp, hk]
  · exact setCall_get hk _
  · simp only [setCall, hk]
    rw [List.getElem?_set, if_neg (fun h => hd h.symm)]

theorem done_of_waiting {s : S} (hs : LInv s) (hcl : s.closing = false) {c i : Nat} (hk : s.calls[c]? = some ⟨i, .waiting⟩) :
    ∃ es t, (∀ e ∈ es, e.ofGoroutine = true) ∧ run s es = some t ∧ t.calls[c]? = some ⟨i, .done⟩ := by
  have hne : s.proc ≠ .ended := fun h => by have := hs.2 h; rw [hcl] at this; cases this
  have hpos : 0 < s.calls.countP waits := by
    rw [List.countP_pos_iff]
    exact ⟨_, List.mem_of_getElem? hk, by simp [waits]⟩
  have hcnt := hs.1 hne
  -- from the select, with a message
  have hsel : ∀ u : S, u.proc = .sleep → u.buf = true → u.calls[c]? = some ⟨i, .waiting⟩ →
      ∃ t, run u [.receive, .compute, .announce c] = some t ∧ t.calls[c]? = some ⟨i, .done⟩ := by
    intro u h1 h2 h3
    obtain ⟨hl, _⟩ := List.getElem?_eq_some_iff.mp h3
    have g1 : run u [.receive, .compute] = some { u with
        proc := .announce, buf := false, wake := wakeTime { u with proc := Proc.compute true, buf := false } } := by
      simp [run, step, h1, h2]
    obtain ⟨t, k1, k2, _⟩ := done_of_announce (s := { u with
      proc := .announce, buf := false, wake := wakeTime { u with proc := Proc.compute true, buf := false } }) rfl h3
    exact ⟨t, run_append g1 k1, k2⟩
  cases hp : s.proc with
  | ended => exact absurd hp hne
  | announce =>
    obtain ⟨t, h1, h2, _⟩ := done_of_announce hp hk
    exact ⟨[.announce c], t, by simp [Ev.ofGoroutine], h1, h2⟩
  | sleep =>
    rw [hp] at hcnt
    have hb : s.buf = true := by
      cases h : s.buf with
      | true => rfl
      | false =>
        have h0 : (if s.buf = true then 1 else 0) = 0 := by simp [h]
        simp only [toAnswer] at hcnt
        omega
    obtain ⟨t, h1, h2⟩ := hsel s hp hb hk
    exact ⟨_, t, by simp [Ev.ofGoroutine], h1, h2⟩
  | compute b =>
    cases b with
    | true =>
      have h1 : run s [.compute] = some { s with wake := wakeTime s, proc := .announce } := by simp [run, step, hp]
      obtain ⟨t, h2, h3, _⟩ := done_of_announce (s := { s with wake := wakeTime s, proc := .announce }) rfl hk
      exact ⟨[.compute] ++ [.announce c], t, by simp [Ev.ofGoroutine], run_append h1 h2, h3⟩
    | false =>
      rw [hp] at hcnt
      have hb : s.buf = true := by
        cases h : s.buf with
        | true => rfl
        | false =>
        have h0 : (if s.buf = true then 1 else 0) = 0 := by simp [h]
        simp only [toAnswer] at hcnt
        omega
      have h1 : run s [.compute] = some { s with wake := wakeTime s, proc := .sleep } := by simp [run, step, hp]
      obtain ⟨t, h2, h3⟩ := hsel { s with wake := wakeTime s, proc := .sleep } rfl hb hk
      exact ⟨[.compute] ++ _, t, by simp [Ev.ofGoroutine], run_append h1 h2, h3⟩

/-- the goroutine can free the channel -/
theorem free_buf {s : S} (hs : LInv s) (hcl : s.closing = false) (c i : Nat) (hk : s.calls[c]? = some ⟨i, .sending⟩) :
    ∃ es t, (∀ e ∈ es, e.ofGoroutine = true) ∧ run s es = some t ∧ t.calls[c]? = some ⟨i, .sending⟩ ∧ t.buf = false ∧
      t.closing = false := by
  have hne : s.proc ≠ .ended := fun h => by have := hs.2 h; rw [hcl] at this; cases this
  have hsel : ∀ u : S, u.proc = .sleep → u.calls[c]? = some ⟨i, .sending⟩ → u.closing = false →
      ∃ es t, (∀ e ∈ es, Ev.ofGoroutine e = true) ∧ run u es = some t ∧ t.calls[c]? = some ⟨i, .sending⟩ ∧ t.buf = false ∧
        t.closing = false := by
    intro u h1 h2 h3
    cases hb : u.buf with
    | false => exact ⟨[], u, by simp, rfl, h2, hb, h3⟩
    | true =>
      exact ⟨[.receive], { u with proc := .compute true, buf := false }, by simp [Ev.ofGoroutine], by simp [run, step, h1, hb],
        h2, rfl, h3⟩
  have hann : ∀ u : S, LInv u → u.proc = .announce → u.calls[c]? = some ⟨i, .sending⟩ → u.closing = false →
      ∃ es t, (∀ e ∈ es, Ev.ofGoroutine e = true) ∧ run u es = some t ∧ t.calls[c]? = some ⟨i, .sending⟩ ∧ t.buf = false ∧
        t.closing = false := by
    intro u hu h1 h2 h3
    have hcnt := hu.1 (by rw [h1]; simp)
    rw [h1] at hcnt
    have hpos : 0 < u.calls.countP waits := by simp [toAnswer] at hcnt; omega
    rw [List.countP_pos_iff] at hpos
    obtain ⟨k, hk', hw⟩ := hpos
    obtain ⟨d, hd⟩ := List.getElem?_of_mem hk'
    have hd' : u.calls[d]? = some ⟨k.id, .waiting⟩ := by
      simp only [waits, decide_eq_true_eq] at hw
      rw [hd, ← hw]
    obtain ⟨t, g1, _, g3, _, g5, g6⟩ := done_of_announce h1 hd'
    have hne' : c ≠ d := by rintro rfl; rw [h2] at hd'; cases hd'
    obtain ⟨es, v, k1, k2, k3⟩ := hsel t g3 (by rw [g6 c hne']; exact h2) (by rw [g5]; exact h3)
    refine ⟨[.announce d] ++ es, v, ?_, run_append g1 k2, k3⟩
    intro e he
    rcases List.mem_append.mp he with he | he
    · simp only [List.mem_singleton] at he; subst he; rfl
    · exact k1 e he
  cases hp : s.proc with
  | ended => exact absurd hp hne
  | announce => exact hann s hs hp hk hcl
  | sleep => exact hsel s hp hk hcl
  | compute b =>
    have hx : step s .compute = some { s with wake := wakeTime s, proc := if b then .announce else .sleep } := by
      simp [step, hp]
    have h1 : run s [.compute] = some { s with wake := wakeTime s, proc := if b then .announce else .sleep } := by
      simp [run, hx]
    have hL := linv_step hs .compute hx
    have fin : ∀ es t, (∀ e ∈ es, Ev.ofGoroutine e = true) →
        run { s with wake := wakeTime s, proc := if b then .announce else .sleep } es = some t →
        (∀ e ∈ [Ev.compute] ++ es, e.ofGoroutine = true) ∧ run s ([.compute] ++ es) = some t := by
      intro es t h h'
      refine ⟨fun e he => ?_, run_append h1 h'⟩
      rcases List.mem_append.mp he with he | he
      · simp only [List.mem_singleton] at he; subst he; rfl
      · exact h e he
    cases b with
    | true =>
      obtain ⟨es, t, k1, k2, k3⟩ := hann _ hL rfl hk hcl
      exact ⟨_, t, (fin es t k1 k2).1, (fin es t k1 k2).2, k3⟩
    | false =>
      obtain ⟨es, t, k1, k2, k3⟩ := hsel { s with wake := wakeTime s, proc := .sleep } rfl hk hcl
      exact ⟨_, t, (fin es t k1 k2).1, (fin es t k1 k2).2, k3⟩

/-- C99: every call returns: from every state of a queue that is not destroyed, steps of the call itself and of the goroutine
alone are enough to finish it. -/
theorem C99_returns_partial (es : List Ev) (s : S) (h : run init es = some s) (hcl : s.closing = false) (c : Nat) (k : Call)
    (hk : s.calls[c]? = some k) :
    ∃ es' t, (∀ e ∈ es', e.of c = true) ∧ run s es' = some t ∧ t.calls[c]? = some { k with phase := .done } := by
  have hs := linv_run h
  have lift : ∀ es' : List Ev, (∀ e ∈ es', e.ofGoroutine = true) → ∀ e ∈ es', e.of c = true := by
    intro es' h e he
    have := h e he
    cases e <;> simp_all [Ev.of, Ev.ofGoroutine]
  have hwait : ∀ u : S, LInv u → u.closing = false → u.calls[c]? = some ⟨k.id, .waiting⟩ →
      ∃ es' t, (∀ e ∈ es', e.of c = true) ∧ run u es' = some t ∧ t.calls[c]? = some ⟨k.id, .done⟩ := by
    intro u h1 h2 h3
    obtain ⟨es', t, g1, g2, g3⟩ := done_of_waiting h1 h2 h3
    exact ⟨es', t, lift es' g1, g2, g3⟩
  have hsend : ∀ u : S, LInv u → u.closing = false → u.calls[c]? = some ⟨k.id, .sending⟩ →
      ∃ es' t, (∀ e ∈ es', e.of c = true) ∧ run u es' = some t ∧ t.calls[c]? = some ⟨k.id, .done⟩ := by
    intro u h1 h2 h3
    obtain ⟨es1, v, g1, g2, g3, g4, g5⟩ := free_buf h1 h2 c k.id h3
    have hv : LInv v := run_inv LInv (fun _ e _ hs hx => linv_step hs e hx) h1 g2
    have hx : step v (.send c) = some { v with buf := true, calls := setCall v c .waiting } := by
      simp [step, g3, g4]
    obtain ⟨hl, _⟩ := List.getElem?_eq_some_iff.mp g3
    obtain ⟨es2, t, k1, k2, k3⟩ := hwait _ (linv_step hv (.send c) hx) g5 (setCall_get g3 _)
    refine ⟨es1 ++ ([.send c] ++ es2), t, ?_, run_append g2 (run_append (by simp [run, hx]) k2), k3⟩
    intro e he
    rcases List.mem_append.mp he with he | he
    · exact lift es1 g1 e he
    · rcases List.mem_append.mp he with he | he
      · simp only [List.mem_singleton] at he; subst he; simp [Ev.of]
      · exact k1 e he
  obtain ⟨i, ph⟩ := k
  obtain ⟨hl, _⟩ := List.getElem?_eq_some_iff.mp hk
  cases ph with
  | done => exact ⟨[], s, by simp, rfl, hk⟩
  | waiting => exact hwait s hs hcl hk
  | sending => exact hsend s hs hcl hk
  | checking =>
    by_cases ht : tooLate s (s.delays i) = true
    · have hx : step s (.check c) = some { s with calls := setCall s c .sending } := by simp [step, hk, ht]
      obtain ⟨es2, t, k1, k2, k3⟩ := hsend _ (linv_step hs (.check c) hx) hcl (setCall_get hk _)
      refine ⟨[.check c] ++ es2, t, ?_, run_append (by simp [run, hx]) k2, k3⟩
      intro e he
      rcases List.mem_append.mp he with he | he
      · simp only [List.mem_singleton] at he; subst he; simp [Ev.of]
      · exact k1 e he
    · have hx : step s (.check c) = some { s with
          calls := setCall s c .done
          entries := s.entries.map fun e => if e.call = some c then { e with slack := s.now - e.set } else e } := by
        simp [step, hk, ht]
      exact ⟨[.check c], _, by simp [Ev.of], by simp [run, hx]; rfl, setCall_get hk _⟩

/-! ## Violations -/

private theorem ex {α : Type} {e : Option α} {p : α → Bool} (h : e.any p = true) : ∃ a, e = some a ∧ p a = true := by
  cases e with
  | none => cases h
  | some a => exact ⟨a, rfl, h⟩

def quietB (s : S) : Bool :=
  s.proc = .sleep ∧ s.buf = false ∧ (s.calls.all fun c => c.phase ≠ .checking ∧ c.phase ≠ .sending)

theorem quietB_iff {s : S} (h : quietB s = true) : Quiet s := by
  simp only [quietB, List.all_eq_true, decide_eq_true_eq] at h
  exact ⟨h.1, h.2.1, fun c hc => h.2.2 c hc⟩

/-- C99 is violated by Update: an item whose delay is made shorter stays delayed for as long as it would have before. Here it is
50 minutes overdue, nothing is going on, and the goroutine goes on sleeping. -/
theorem C99_violated_update : ∃ (es : List Ev) (s : S) (e : Entry), run init es = some s ∧ Quiet s ∧ e ∈ s.entries ∧
    e.slack = 0 ∧ e.due + 2999000 ≤ s.now ∧ s.now < s.wake := by
  obtain ⟨s, h1, h2⟩ := ex (e := run init [.put 1 3500000, .check 0, .send 0, .receive, .compute, .announce 0, .update 1 1000,
      .tick 3000000])
    (p := fun s => quietB s && s.entries.any (fun e => e.slack = 0 ∧ e.due + 2999000 ≤ s.now) && decide (s.now < s.wake))
    (by decide +kernel)
  simp only [Bool.and_eq_true, List.any_eq_true, decide_eq_true_eq] at h2
  obtain ⟨⟨hq, e, he, h3⟩, h4⟩ := h2
  exact ⟨_, s, e, h1, quietB_iff hq, he, h3.1, h3.2, h4⟩

/-- C99 is violated by AddMany: it only looks again for the first item that is due before the goroutine wakes; if by then that
one no longer is, the others are forgotten. Here one that is due after a second is overdue by 50 minutes. -/
theorem C99_violated_many : ∃ (l : List (Nat × Nat)) (s : S) (e : Entry),
    run init [.tick 1, .many l, .tick 1, .check 0, .tick 3000000] = some s ∧ Quiet s ∧ e ∈ s.entries ∧
    e.slack ≤ 1 ∧ e.due + 2999000 ≤ s.now ∧ s.now < s.wake := by
  obtain ⟨s, h1, h2⟩ := ex (e := run init [.tick 1, .many [(1, 3599998), (2, 1000)], .tick 1, .check 0, .tick 3000000])
    (p := fun s => quietB s && s.entries.any (fun e => e.slack ≤ 1 ∧ e.due + 2999000 ≤ s.now) && decide (s.now < s.wake))
    (by decide +kernel)
  simp only [Bool.and_eq_true, List.any_eq_true, decide_eq_true_eq] at h2
  obtain ⟨⟨hq, e, he, h3⟩, h4⟩ := h2
  exact ⟨_, s, e, h1, quietB_iff hq, he, h3.1, h3.2, h4⟩

theorem ended_step {s t : S} {c i : Nat} (hp : s.proc = .ended) (hk : s.calls[c]? = some ⟨i, .waiting⟩) (e : Ev)
    (h : step s e = some t) : t.proc = .ended ∧ t.calls[c]? = some ⟨i, .waiting⟩ := by
  obtain ⟨hl, _⟩ := List.getElem?_eq_some_iff.mp hk
  have hset : ∀ (d j : Nat) (ph ph' : Phase), s.calls[d]? = some ⟨j, ph⟩ → ph ≠ .waiting →
      (setCall s d ph')[c]? = some ⟨i, .waiting⟩ := by
    intro d j ph ph' h1 h2
    simp only [setCall, h1]
    rw [List.getElem?_set]
    by_cases hd : d = c
    · subst hd; rw [hk] at h1; cases h1; exact absurd rfl h2
    · rw [if_neg hd]; exact hk
  cases e with
  | tick n => cases h; exact ⟨hp, hk⟩
  | put j d =>
    simp only [step] at h
    split at h
    · cases h
    · cases h; exact ⟨hp, by simp [List.getElem?_append_left hl, hk]⟩
  | many l =>
    simp only [step] at h
    split at h
    · cases h
    · rcases hf : l.find? fun p => tooLate s p.2 with _ | j
      · rw [hf] at h; cases h; exact ⟨hp, hk⟩
      · rw [hf] at h; cases h; exact ⟨hp, by simp [List.getElem?_append_left hl, hk]⟩
  | update j d =>
    simp only [step] at h
    split at h
    · cases h
    · cases h; exact ⟨hp, hk⟩
  | remove j =>
    simp only [step] at h
    split at h
    · cases h
    · cases h; exact ⟨hp, hk⟩
  | check d =>
    simp only [step] at h
    rcases hd : s.calls[d]? with _ | ⟨j, ph⟩
    · rw [hd] at h; cases h
    · rw [hd] at h
      cases ph with
      | checking =>
        simp only at h
        split at h
        · cases h; exact ⟨hp, hset d j _ _ hd (by simp)⟩
        · cases h; exact ⟨hp, hset d j _ _ hd (by simp)⟩
      | sending => cases h
      | waiting => cases h
      | done => cases h
  | send d =>
    simp only [step] at h
    rcases hd : s.calls[d]? with _ | ⟨j, ph⟩
    · rw [hd] at h; cases h
    · rw [hd] at h
      cases ph with
      | sending =>
        simp only at h
        split at h
        · cases h
        · cases h; exact ⟨hp, hset d j _ _ hd (by simp)⟩
      | checking => cases h
      | waiting => cases h
      | done => cases h
  | compute => simp [step, hp] at h
  | announce d => simp [step, hp] at h
  | fire => simp [step, hp] at h
  | receive => simp [step, hp] at h
  | destroy =>
    simp only [step] at h
    split at h
    · cases h
    · cases h; exact ⟨hp, hk⟩
  | stop => simp [step, hp] at h

/-- C99 is violated by Destroy: a call that put an item just before the queue was destroyed never returns. -/
theorem C99_violated_destroy : ∃ (es : List Ev) (s : S), run init es = some s ∧
    ∀ es' t, run s es' = some t → t.calls[0]? = some ⟨1, .waiting⟩ := by
  obtain ⟨s, h1, h2⟩ := ex (e := run init [.put 1 1000, .destroy, .stop, .check 0, .send 0])
    (p := fun s => decide (s.proc = .ended) && decide (s.calls[0]? = some (Call.mk 1 .waiting))) (by decide +kernel)
  simp only [Bool.and_eq_true, decide_eq_true_eq] at h2
  refine ⟨_, s, h1, fun es' t h => ?_⟩
  exact (run_inv (fun u => u.proc = .ended ∧ u.calls[0]? = some ⟨1, .waiting⟩)
    (fun u e v hu hx => ended_step hu.1 hu.2 e hx) h2 h).2

/-! ## The hypotheses are met -/

/-- an item is put, the goroutine is woken, and a second item is due later -/
example : ∃ s, runWhen (fun s e => calm s e && prompt s e) init
    [.put 1 2000, .check 0, .send 0, .receive, .compute, .announce 0, .put 2 5000, .check 1, .many [(3, 1000), (4, 1000)],
     .check 2, .send 2, .receive, .compute, .announce 2, .tick 1500] = some s ∧
    Quiet s ∧ s.entries.length = 4 ∧ s.wake = 1000 := by
  obtain ⟨s, h1, h2⟩ := ex (e := runWhen (fun s e => calm s e && prompt s e) init
    [.put 1 2000, .check 0, .send 0, .receive, .compute, .announce 0, .put 2 5000, .check 1, .many [(3, 1000), (4, 1000)],
     .check 2, .send 2, .receive, .compute, .announce 2, .tick 1500])
    (p := fun s => quietB s && decide (s.entries.length = 4) && decide (s.wake = 1000)) (by decide +kernel)
  simp only [Bool.and_eq_true, decide_eq_true_eq] at h2
  exact ⟨s, h1, quietB_iff h2.1.1, h2.1.2, h2.2⟩

/-- two calls wait at once -/
example : (run init [.put 1 2000, .put 2 1000, .check 0, .check 1, .send 0, .receive, .compute, .send 1]).any
    (fun s => s.calls.countP waits = 2 ∧ s.proc = .announce ∧ s.closing = false) = true := by decide +kernel

end Verif.Queue.Timer
