import Verif.Server.Stop
/-
Properties of stopping the manager: C120.
-/
namespace Verif.Server.Stop

/-- how far a call is -/
def rank : Ph → Nat
  | .kill => 0 | .look => 1 | .interval => 2 | .runners => 3 | .cleanup => 4 | .sock => 5 | .db => 6 | .queue => 7
  | .unkill => 8 | .undrain => 9 | .tell => 10 | .ended => 11

structure Up (s : S) : Prop where
  calls : s.calls = []
  sig : s.sigClosed = false
  kill : s.killRunners = false
  sock : s.sock = true
  db : s.db = true
  queue : s.queue = true
  done : s.done = none
  ret : s.returned = []
  told : ∀ r ∈ s.runners, r.told = false
  bl : (s.blocking = true → 0 < s.blocked)
  bl' : 0 < s.blocked → s.blocking = true

structure Down (s : S) (c : Call) : Prop where
  drain : rank c.ph ≤ 9 → s.drain = true
  drain' : 10 ≤ rank c.ph → s.drain = false
  kill : 1 ≤ rank c.ph → rank c.ph ≤ 8 → s.killRunners = true
  kill0 : rank c.ph = 0 → s.killRunners = false
  kill' : 9 ≤ rank c.ph → s.killRunners = false
  sock : rank c.ph ≤ 5 → s.sock = true
  sock' : 6 ≤ rank c.ph → s.sock = false
  db : rank c.ph ≤ 6 → s.db = true
  db' : 7 ≤ rank c.ph → s.db = false
  queue : rank c.ph ≤ 7 → s.queue = true
  queue' : 8 ≤ rank c.ph → s.queue = false
  done : rank c.ph ≤ 10 → s.done = none ∧ s.returned = []
  bl : rank c.ph ≤ 9 → s.blocking = true → 0 < s.blocked
  bl' : rank c.ph ≤ 9 → 0 < s.blocked → s.blocking = true
  tell : rank c.ph = 10 → 0 < s.blocked
  ret : rank c.ph = 11 → (s.done = some c.reason ∧ s.returned = [] ∧ 0 < s.blocked) ∨ (s.done = none ∧ s.returned = [c.reason]) ∨
    (s.done = none ∧ s.returned = [])

/-- in every state there is at most one call that found the server up: the first -/
def Inv (s : S) : Prop :=
  (s.up = true → Up s) ∧
  (s.up = false → ∃ c rest, s.calls = c :: rest ∧ c.did = true ∧ (∀ x ∈ rest, x.did = false ∧ x.ph = .ended) ∧ Down s c)

theorem inv_init : Inv {} := by
  refine ⟨fun _ => ?_, fun h => by cases h⟩
  constructor <;> simp

/-- a step that does not concern the call -/
theorem down_same {s t : S} {c : Call} (h : Down s c) (h1 : t.drain = s.drain) (h2 : t.killRunners = s.killRunners) (h3 : t.sock = s.sock)
    (h4 : t.db = s.db) (h5 : t.queue = s.queue) (h6 : t.done = s.done) (h7 : t.returned = s.returned) (h8 : t.blocking = s.blocking)
    (h9 : t.blocked = s.blocked) : Down t c := by
  obtain ⟨a1, a2, a3, a4, a5, a6, a7, a8, a9, a10, a11, a12, a13, a14, a15, a16⟩ := h
  constructor <;> simp only [h1, h2, h3, h4, h5, h6, h7, h8, h9] <;> assumption

theorem inv_same {s t : S} (h : Inv s) (h0 : t.up = s.up) (hc : t.calls = s.calls) (hsig : t.sigClosed = s.sigClosed)
    (hr : s.up = true → ∀ r ∈ t.runners, r.told = false) (h1 : s.up = false → t.drain = s.drain) (h2 : t.killRunners = s.killRunners)
    (h3 : t.sock = s.sock) (h4 : t.db = s.db) (h5 : t.queue = s.queue) (h6 : t.done = s.done) (h7 : t.returned = s.returned)
    (h8 : t.blocking = s.blocking) (h9 : t.blocked = s.blocked) : Inv t := by
  refine ⟨fun hu => ?_, fun hd => ?_⟩
  · have hu' : s.up = true := by rw [← h0]; exact hu
    obtain ⟨a1, a2, a3, a4, a5, a6, a7, a8, a9, a10, a11⟩ := h.1 hu'
    constructor <;> first | (simp only [hc, hsig, h2, h3, h4, h5, h6, h7, h8, h9]; assumption) | exact hr hu'
  · have hd' : s.up = false := by rw [← h0]; exact hd
    obtain ⟨c, rest, e1, e2, e3, e4⟩ := h.2 hd'
    exact ⟨c, rest, by rw [hc]; exact e1, e2, e3, down_same e4 (h1 hd') h2 h3 h4 h5 h6 h7 h8 h9⟩

theorem inv_begin (s : S) (w : Bool) (r : Reason) (b : Bool) (h : Inv s) : Inv (begin s w r b) := by
  unfold begin
  cases hu : s.up with
  | false =>
    simp only [Bool.not_false, if_true]
    obtain ⟨c, rest, e1, e2, e3, e4⟩ := h.2 hu
    refine ⟨fun hx => by simp [hu] at hx, fun _ => ⟨c, rest ++ [⟨w, r, false, .ended⟩], by simp [e1], e2, ?_,
      down_same e4 rfl rfl rfl rfl rfl rfl rfl rfl rfl⟩⟩
    intro x hx
    rcases List.mem_append.1 hx with hx | hx
    · exact e3 x hx
    · simp at hx; subst hx; simp
  | true =>
    simp only [Bool.not_true, if_neg Bool.false_ne_true]
    obtain ⟨a1, a2, a3, a4, a5, a6, a7, a8, a9, a10, a11⟩ := h.1 hu
    rw [if_neg (by simp [a2])]
    refine ⟨fun hx => by simp at hx, fun _ => ⟨⟨w, r, true, .kill⟩, [], by simp [a1], rfl, by simp, ?_⟩⟩
    constructor <;> simp [rank, *] <;> assumption

theorem begin_gone (s : S) (w : Bool) (r : Reason) (b : Bool) (h : Inv s) : (begin s w r b).gone = s.gone := by
  unfold begin
  cases hu : s.up with
  | false => rfl
  | true =>
    have := (h.1 hu).sig
    rw [if_neg (by simp), if_neg (by simp [this])]

theorem told_modify (l : List Runner) (i : Nat) (f : Runner → Runner) (hf : ∀ r ∈ l, (f r).told = false) (hl : ∀ r ∈ l, r.told = false) :
    ∀ r ∈ l.modify i f, r.told = false := by
  intro r hr
  induction l generalizing i with
  | nil => simp at hr
  | cons a l ih =>
    cases i with
    | zero =>
      simp only [List.modify_zero_cons, List.mem_cons] at hr
      rcases hr with rfl | hr
      · exact hf a (by simp)
      · exact hl r (by simp [hr])
    | succ i =>
      simp only [List.modify_succ_cons, List.mem_cons] at hr
      rcases hr with rfl | hr
      · exact hl r (by simp)
      · exact ih i (fun x hx => hf x (by simp [hx])) (fun x hx => hl x (by simp [hx])) hr

set_option maxHeartbeats 1000000 in
theorem down_go (s s' : S) (c : Call) (ph : Ph) (cs : List Call) (h : Down s c) (hn : next s c = some (s', ph)) :
    Down { s' with calls := cs } { c with ph := ph } ∧ s'.up = s.up ∧ rank c.ph < rank ph ∧ s'.gone = s.gone := by
  obtain ⟨a1, a2, a3, a4, a5, a6, a7, a8, a9, a10, a11, a12, a13, a14, a15, a16⟩ := h
  unfold next at hn
  cases hp : c.ph <;> rw [hp] at hn <;> simp only [hp, rank] at a1 a2 a3 a4 a5 a6 a7 a8 a9 a10 a11 a12 a13 a14 a15 a16 hn
  all_goals first
    | (cases hn; done)
    | (simp only [Option.some.injEq, Prod.mk.injEq] at hn
       obtain ⟨rfl, rfl⟩ := hn
       refine ⟨?_, rfl, ?_, rfl⟩
       · constructor <;> grind [rank]
       · grind [rank])
    | (split at hn
       · first
         | (cases hn; done)
         | (simp only [Option.some.injEq, Prod.mk.injEq] at hn
            obtain ⟨rfl, rfl⟩ := hn
            refine ⟨?_, rfl, ?_, rfl⟩
            · constructor <;> grind [rank]
            · grind [rank])
       · first
         | (cases hn; done)
         | (simp only [Option.some.injEq, Prod.mk.injEq] at hn
            obtain ⟨rfl, rfl⟩ := hn
            refine ⟨?_, rfl, ?_, rfl⟩
            · constructor <;> grind [rank]
            · grind [rank]))

theorem inv_step (s t : S) (e : Ev) (h : Inv s) (hs : step s e = some t) : Inv t := by
  unfold step at hs
  split at hs
  · cases hs
  cases e with
  | stop w => simp only [Option.some.injEq] at hs; subst hs; exact inv_begin s _ _ _ h
  | signal =>
    simp only at hs
    split at hs <;> simp only [Option.some.injEq] at hs <;> subst hs
    · apply inv_begin
      exact inv_same h rfl rfl rfl (fun hu => (h.1 hu).told) (fun _ => rfl) rfl rfl rfl rfl rfl rfl rfl rfl
    · exact inv_same h rfl rfl rfl (fun hu => (h.1 hu).told) (fun _ => rfl) rfl rfl rfl rfl rfl rfl rfl rfl
  | expire =>
    simp only at hs
    split at hs <;> simp only [Option.some.injEq, reduceCtorEq] at hs
    subst hs
    apply inv_begin
    exact inv_same h rfl rfl rfl (fun hu => (h.1 hu).told) (fun _ => rfl) rfl rfl rfl rfl rfl rfl rfl rfl
  | unhandle =>
    simp only at hs
    split at hs <;> simp only [Option.some.injEq, reduceCtorEq] at hs
    subst hs
    exact inv_same h rfl rfl rfl (fun hu => (h.1 hu).told) (fun _ => rfl) rfl rfl rfl rfl rfl rfl rfl rfl
  | drain =>
    simp only at hs
    split at hs <;> simp only [Option.some.injEq] at hs <;> subst hs
    · exact h
    · rename_i hc
      exact inv_same h rfl rfl rfl (fun hu => (h.1 hu).told) (fun hd => by simp [hd] at hc) rfl rfl rfl rfl rfl rfl rfl rfl
  | tick =>
    simp only at hs
    split at hs
    · cases hs
    split at hs
    · cases hs
      exact inv_same h rfl rfl rfl (fun hu => (h.1 hu).told) (fun _ => rfl) rfl rfl rfl rfl rfl rfl rfl rfl
    split at hs <;> simp only [Option.some.injEq] at hs <;> subst hs
    · exact h
    · apply inv_begin
      exact inv_same h rfl rfl rfl (fun hu => (h.1 hu).told) (fun _ => rfl) rfl rfl rfl rfl rfl rfl rfl rfl
  | block =>
    simp only [Option.some.injEq] at hs; subst hs
    refine ⟨fun hu => ?_, fun hd => ?_⟩
    · obtain ⟨a1, a2, a3, a4, a5, a6, a7, a8, a9, a10, a11⟩ := h.1 hu
      constructor <;> first | assumption | simp
    · obtain ⟨c, rest, e1, e2, e3, e4⟩ := h.2 hd
      obtain ⟨a1, a2, a3, a4, a5, a6, a7, a8, a9, a10, a11, a12, a13, a14, a15, a16⟩ := e4
      refine ⟨c, rest, e1, e2, e3, ?_⟩
      constructor <;> first | assumption | simp
      intro hr
      rcases a16 hr with ⟨b1, b2, _⟩ | ⟨b1, b2⟩ | ⟨b1, b2⟩ <;> simp [b1, b2]
  | unblock =>
    simp only at hs
    split at hs
    · rename_i r hr
      split at hs <;> simp only [Option.some.injEq, reduceCtorEq] at hs
      subst hs
      refine ⟨fun hu => ?_, fun hd => ?_⟩
      · have := (h.1 hu).done; rw [hr] at this; cases this
      · obtain ⟨c, rest, e1, e2, e3, e4⟩ := h.2 hd
        refine ⟨c, rest, e1, e2, e3, ?_⟩
        have hrk : rank c.ph = 11 := by
          have h1 := e4.done
          have h2 : rank c.ph ≤ 11 := by cases c.ph <;> simp [rank]
          by_cases h3 : rank c.ph ≤ 10
          · rw [(h1 h3).1] at hr; cases hr
          · omega
        obtain ⟨a1, a2, a3, a4, a5, a6, a7, a8, a9, a10, a11, a12, a13, a14, a15, a16⟩ := e4
        constructor <;> first | assumption | (intro hx; simp only at *; omega) | skip
        rcases a16 hrk with ⟨b1, b2, b3⟩ | ⟨b1, b2⟩ | ⟨b1, b2⟩
        · rw [hr] at b1; cases b1; simp [b2]
        · rw [hr] at b1; cases b1
        · rw [hr] at b1; cases b1
    · cases hs
  | go i =>
    simp only at hs
    split at hs
    · cases hs
    · rename_i c' hc'
      split at hs
      · cases hs
      · rename_i s' ph hn
        simp only [Option.some.injEq] at hs; subst hs
        cases hu : s.up with
        | true => rw [(h.1 hu).calls] at hc'; simp at hc'
        | false =>
          obtain ⟨c, rest, e1, e2, e3, e4⟩ := h.2 hu
          cases i with
          | zero =>
            rw [e1] at hc'; simp at hc'; subst hc'
            obtain ⟨g1, g2, g3, _⟩ := down_go s s' c ph (s.calls.set 0 { c with ph := ph }) e4 hn
            refine ⟨fun hx => ?_, fun _ => ⟨{ c with ph := ph }, rest, by simp [e1], e2, e3, g1⟩⟩
            simp only at hx
            rw [g2, hu] at hx; cases hx
          | succ i =>
            rw [e1] at hc'
            simp only [List.getElem?_cons_succ] at hc'
            have := (e3 c' (List.mem_of_getElem? hc')).2
            simp [next, this] at hn
  | rac =>
    simp only at hs
    split at hs <;> simp only [Option.some.injEq] at hs <;> subst hs
    · exact h
    · exact inv_same h rfl rfl rfl (fun hu => (h.1 hu).told) (fun _ => rfl) rfl rfl rfl rfl rfl rfl rfl rfl
  | racAsks b =>
    simp only at hs
    split at hs <;> simp only [Option.some.injEq, reduceCtorEq] at hs
    subst hs
    exact inv_same h rfl rfl rfl (fun hu => (h.1 hu).told) (fun _ => rfl) rfl rfl rfl rfl rfl rfl rfl rfl
  | runnerStarts =>
    simp only at hs
    split at hs <;> simp only [Option.some.injEq, reduceCtorEq] at hs
    subst hs
    refine inv_same h rfl rfl rfl (fun hu => ?_) (fun _ => rfl) rfl rfl rfl rfl rfl rfl rfl rfl
    intro r hr
    rcases List.mem_append.1 hr with hr | hr
    · exact (h.1 hu).told r hr
    · simp at hr; subst hr; rfl
  | runnerEnds i =>
    simp only [Option.some.injEq] at hs; subst hs
    refine inv_same h rfl rfl rfl (fun hu => ?_) (fun _ => rfl) rfl rfl rfl rfl rfl rfl rfl rfl
    exact told_modify _ _ _ (fun r hr => (h.1 hu).told r hr) (h.1 hu).told
  | touch i =>
    simp only at hs
    split at hs <;> simp only [Option.some.injEq] at hs <;> subst hs
    · refine inv_same h rfl rfl rfl (fun hu => ?_) (fun _ => rfl) rfl rfl rfl rfl rfl rfl rfl rfl
      exact told_modify _ _ _ (fun r hr => by simp [(h.1 hu).told r hr, (h.1 hu).kill]) (h.1 hu).told
    · exact h
  | jobs n =>
    simp only at hs
    split at hs <;> simp only [Option.some.injEq, reduceCtorEq] at hs
    subst hs
    exact inv_same h rfl rfl rfl (fun hu => (h.1 hu).told) (fun _ => rfl) rfl rfl rfl rfl rfl rfl rfl rfl

theorem run_inv (P : S → Prop) (hp : ∀ s t e, P s → step s e = some t → P t) (es : List Ev) :
    ∀ (s t : S), P s → run s es = some t → P t := by
  induction es with
  | nil => intro s t h hr; simp only [run, Option.some.injEq] at hr; exact hr ▸ h
  | cons e es ih =>
    intro s t h hr
    simp only [run] at hr
    cases h1 : step s e with
    | none => rw [h1] at hr; cases hr
    | some u => rw [h1] at hr; exact ih u t (hp s u e h h1) hr

theorem inv_run (es : List Ev) (t : S) (h : run {} es = some t) : Inv t :=
  run_inv Inv (fun s t e hi hs => inv_step s t e hi hs) es {} t inv_init h

/-! ### the theorems -/

/-- the call that did the stopping -/
def stopper (s : S) : Option Call := s.calls.find? (·.did)

theorem stopper_head {s : S} {c : Call} (hi : Inv s) (h : stopper s = some c) : s.up = false ∧ s.calls[0]? = some c ∧ c.did = true ∧ Down s c := by
  cases hu : s.up with
  | true => simp [stopper, (hi.1 hu).calls] at h
  | false =>
    obtain ⟨d, rest, e1, e2, e3, e4⟩ := hi.2 hu
    simp only [stopper, e1, List.find?_cons, e2, Option.some.injEq] at h
    subst h
    exact ⟨rfl, by simp [e1], e2, e4⟩

/-- **C120**, once: whatever is called and whatever signals come, at the same time or not, exactly one call stops the server if any was made;
the others return at once, and closing a channel twice never kills the process. -/
theorem C120_once (es : List Ev) (t : S) (h : run {} es = some t) :
    (t.up = true → t.calls = []) ∧
    (t.up = false → ∃ c, t.calls.filter (·.did) = [c] ∧ stopper t = some c ∧ ∀ x ∈ t.calls, x.did = false → x.ph = .ended) ∧
    t.gone ≠ some .closed := by
  have hi := inv_run es t h
  refine ⟨fun hu => (hi.1 hu).calls, fun hd => ?_, ?_⟩
  · obtain ⟨c, rest, e1, e2, e3, e4⟩ := hi.2 hd
    refine ⟨c, ?_, by simp [stopper, e1, e2], ?_⟩
    · rw [e1, List.filter_cons_of_pos e2, List.filter_eq_nil_iff.2]
      intro x hx; simp [(e3 x hx).1]
    · intro x hx hn
      rw [e1] at hx
      rcases List.mem_cons.1 hx with rfl | hx
      · rw [e2] at hn; cases hn
      · exact (e3 x hx).2
  · have := run_inv (fun s => Inv s ∧ s.gone ≠ some .closed) (fun s u e hp hs => ⟨inv_step s u e hp.1 hs, ?_⟩) es {} t ⟨inv_init, by decide⟩ h
    · exact this.2
    · obtain ⟨hp, hg⟩ := hp
      unfold step at hs
      split at hs
      · cases hs
      rename_i hgn
      have hgn : s.gone = none := by simpa using hgn
      cases e with
      | stop w => simp only [Option.some.injEq] at hs; subst hs; rw [begin_gone s _ _ _ hp]; exact hg
      | signal =>
        simp only at hs
        split at hs <;> simp only [Option.some.injEq] at hs <;> subst hs
        · rw [begin_gone]
          · exact hg
          · exact inv_same hp rfl rfl rfl (fun hu => (hp.1 hu).told) (fun _ => rfl) rfl rfl rfl rfl rfl rfl rfl rfl
        · simp
      | expire =>
        simp only at hs
        split at hs <;> simp only [Option.some.injEq, reduceCtorEq] at hs
        subst hs
        rw [begin_gone]
        · exact hg
        · exact inv_same hp rfl rfl rfl (fun hu => (hp.1 hu).told) (fun _ => rfl) rfl rfl rfl rfl rfl rfl rfl rfl
      | tick =>
        simp only at hs
        split at hs
        · cases hs
        split at hs
        · cases hs; simp
        split at hs <;> simp only [Option.some.injEq] at hs <;> subst hs
        · exact hg
        · rw [begin_gone]
          · exact hg
          · exact inv_same hp rfl rfl rfl (fun hu => (hp.1 hu).told) (fun _ => rfl) rfl rfl rfl rfl rfl rfl rfl rfl
      | go i =>
        simp only at hs
        split at hs
        · cases hs
        · split at hs
          · cases hs
          · rename_i c hc _ s' ph hn
            simp only [Option.some.injEq] at hs; subst hs
            have : s'.gone = s.gone := by
              unfold next at hn
              cases hp : c.ph <;> rw [hp] at hn <;> simp only at hn <;> first
                | (cases hn; done)
                | (cases hn; rfl)
                | (split at hn <;> first | (cases hn; done) | (cases hn; rfl))
            simp only [this]; exact hg
      | _ =>
        simp only at hs
        first
          | (cases hs; simp only [setRunner]; exact hg)
          | (split at hs <;> first | (cases hs; done) | (cases hs; simp only [setRunner]; exact hg) | (cases hs; exact hg) | skip)
        try (split at hs <;> first | (cases hs; done) | (cases hs; exact hg))

/-- every request to stop has that effect: afterwards the server is not up, and there is the call that stops it -/
theorem C120_effect (es : List Ev) (s t : S) (w : Bool) (h : run {} es = some s) (hs : step s (.stop w) = some t) :
    t.up = false ∧ ∃ c, stopper t = some c ∧ (s.up = true → c = ⟨w, .stop, true, .kill⟩) := by
  have hi := inv_run es s h
  unfold step at hs
  split at hs
  · cases hs
  simp only [Option.some.injEq] at hs
  subst hs
  unfold begin
  cases hu : s.up with
  | false =>
    obtain ⟨c, rest, e1, e2, e3, e4⟩ := hi.2 hu
    refine ⟨by simp [hu], c, by simp [stopper, e1, e2], by simp⟩
  | true =>
    have h1 := hi.1 hu
    rw [if_neg (by simp), if_neg (by simp [h1.sig])]
    exact ⟨rfl, _, by simp [stopper, h1.calls], fun _ => rfl⟩

theorem stopper_begin {s : S} {c : Call} (hi : Inv s) (h : stopper s = some c) (w : Bool) (r : Reason) (b : Bool) :
    stopper (begin s w r b) = some c := by
  have hu := (stopper_head hi h).1
  unfold begin
  rw [if_pos (by simp [hu])]
  simp only [stopper, List.find?_append] at h ⊢
  simp [h]

/-- the call that stops the server only goes on -/
theorem stopper_step {s t : S} {e : Ev} {c : Call} (hi : Inv s) (h : stopper s = some c) (hs : step s e = some t) :
    ∃ c', stopper t = some c' ∧ c'.wait = c.wait ∧ c'.reason = c.reason ∧ rank c.ph ≤ rank c'.ph := by
  unfold step at hs
  split at hs
  · cases hs
  cases e with
  | go i =>
    simp only at hs
    split at hs
    · cases hs
    · rename_i c' hc'
      split at hs
      · cases hs
      · rename_i s' ph hn
        simp only [Option.some.injEq] at hs; subst hs
        obtain ⟨hu, h0, hd, hdn⟩ := stopper_head hi h
        obtain ⟨d, rest, e1, e2, e3, e4⟩ := hi.2 hu
        rw [e1] at h0; simp at h0; subst h0
        cases i with
        | zero =>
          rw [e1] at hc'; simp at hc'; subst hc'
          obtain ⟨_, _, g3, _⟩ := down_go s s' d ph [] e4 hn
          exact ⟨{ d with ph := ph }, by simp [stopper, e1, e2], rfl, rfl, by simp only; omega⟩
        | succ i =>
          rw [e1] at hc'
          simp only [List.getElem?_cons_succ] at hc'
          have := (e3 c' (List.mem_of_getElem? hc')).2
          simp [next, this] at hn
  | stop w =>
    simp only [Option.some.injEq] at hs; subst hs
    exact ⟨c, stopper_begin hi h _ _ _, rfl, rfl, Nat.le_refl _⟩
  | signal =>
    simp only at hs
    split at hs <;> simp only [Option.some.injEq] at hs <;> subst hs
    · refine ⟨c, stopper_begin ?_ ?_ _ _ _, rfl, rfl, Nat.le_refl _⟩
      · exact inv_same hi rfl rfl rfl (fun hu => (hi.1 hu).told) (fun _ => rfl) rfl rfl rfl rfl rfl rfl rfl rfl
      · exact h
    · exact ⟨c, h, rfl, rfl, Nat.le_refl _⟩
  | expire =>
    simp only at hs
    split at hs <;> simp only [Option.some.injEq, reduceCtorEq] at hs
    subst hs
    refine ⟨c, stopper_begin ?_ ?_ _ _ _, rfl, rfl, Nat.le_refl _⟩
    · exact inv_same hi rfl rfl rfl (fun hu => (hi.1 hu).told) (fun _ => rfl) rfl rfl rfl rfl rfl rfl rfl rfl
    · exact h
  | tick =>
    simp only at hs
    split at hs
    · cases hs
    split at hs
    · cases hs; exact ⟨c, h, rfl, rfl, Nat.le_refl _⟩
    split at hs <;> simp only [Option.some.injEq] at hs <;> subst hs
    · exact ⟨c, h, rfl, rfl, Nat.le_refl _⟩
    · refine ⟨c, stopper_begin ?_ ?_ _ _ _, rfl, rfl, Nat.le_refl _⟩
      · exact inv_same hi rfl rfl rfl (fun hu => (hi.1 hu).told) (fun _ => rfl) rfl rfl rfl rfl rfl rfl rfl rfl
      · exact h
  | unblock =>
    simp only at hs
    split at hs
    · split at hs <;> simp only [Option.some.injEq, reduceCtorEq] at hs
      subst hs; exact ⟨c, h, rfl, rfl, Nat.le_refl _⟩
    · cases hs
  | block => simp only [Option.some.injEq] at hs; subst hs; exact ⟨c, h, rfl, rfl, Nat.le_refl _⟩
  | runnerEnds i => simp only [Option.some.injEq] at hs; subst hs; exact ⟨c, h, rfl, rfl, Nat.le_refl _⟩
  | _ =>
    simp only at hs
    split at hs <;> simp only [Option.some.injEq, reduceCtorEq] at hs <;> subst hs <;> exact ⟨c, h, rfl, rfl, Nat.le_refl _⟩

theorem stopper_run (es : List Ev) : ∀ {s t : S} {c : Call}, Inv s → stopper s = some c → run s es = some t →
    ∃ c', stopper t = some c' ∧ c'.wait = c.wait ∧ c'.reason = c.reason ∧ rank c.ph ≤ rank c'.ph := by
  induction es with
  | nil => intro s t c _ h hr; simp only [run, Option.some.injEq] at hr; subst hr; exact ⟨c, h, rfl, rfl, Nat.le_refl _⟩
  | cons e es ih =>
    intro s t c hi h hr
    simp only [run] at hr
    cases h1 : step s e with
    | none => rw [h1] at hr; cases hr
    | some u =>
      rw [h1] at hr
      obtain ⟨d, d1, d2, d3, d4⟩ := stopper_step hi h h1
      obtain ⟨c', c1, c2, c3, c4⟩ := ih (inv_step s u e hi h1) d1 hr
      exact ⟨c', c1, by rw [c2, d2], by rw [c3, d3], Nat.le_trans d4 c4⟩

theorem run_append (es es' : List Ev) : ∀ s, run s (es ++ es') = (run s es).bind fun t => run t es' := by
  induction es with
  | nil => intro s; rfl
  | cons e es ih =>
    intro s
    simp only [List.cons_append, run]
    cases step s e with
    | none => rfl
    | some u => exact ih u

theorem rank_ended {p : Ph} (h : 11 ≤ rank p) : p = .ended := by cases p <;> simp [rank] at h ⊢

/-- **C120**, down: when the call that stops the server has returned, the database and the socket are closed and the queue is gone; nothing
that comes later changes that, and no request is answered. -/
theorem C120_down (es es' : List Ev) (s t : S) (c : Call) (h : run {} es = some s) (hc : stopper s = some c) (he : c.ph = .ended)
    (h' : run s es' = some t) :
    t.up = false ∧ t.db = false ∧ t.sock = false ∧ t.queue = false ∧ stopper t = some c ∧ ∀ i u, step t (.touch i) = some u → u = t := by
  have hi := inv_run es s h
  obtain ⟨c', c1, c2, c3, c4⟩ := stopper_run es' hi hc h'
  have hit : Inv t := run_inv Inv (fun s t e hi hs => inv_step s t e hi hs) es' s t hi h'
  have hr : rank c'.ph = 11 := by
    have := rank_ended (p := c'.ph) (by rw [he] at c4; exact c4)
    rw [this]; rfl
  obtain ⟨g1, g2, g3, g4⟩ := stopper_head hit c1
  obtain ⟨_, _, gd, _⟩ := stopper_head hi hc
  have hsock := g4.sock' (by omega)
  refine ⟨g1, g4.db' (by omega), hsock, g4.queue' (by omega), ?_, ?_⟩
  · rw [c1]
    have h5 : c'.ph = .ended := rank_ended (by omega)
    cases c; cases c'; simp_all
  · intro i u hu
    unfold step at hu
    split at hu
    · cases hu
    · simp [hsock] at hu; exact hu.symm

/-- **C120**, order: the database is open until the socket is closed, and the queue is there until the database is closed; touches are
answered, all with a kill, from the first step until the socket is closed. -/
theorem C120_order (es : List Ev) (s : S) (h : run {} es = some s) :
    (s.db = false → s.sock = false) ∧ (s.queue = false → s.db = false) ∧ (s.sock = false → s.up = false) := by
  have hi := inv_run es s h
  cases hu : s.up with
  | true => have := hi.1 hu; simp [this.db, this.queue, this.sock]
  | false =>
    obtain ⟨c, rest, e1, e2, e3, e4⟩ := hi.2 hu
    obtain ⟨a1, a2, a3, a4, a5, a6, a7, a8, a9, a10, a11, a12, a13, a14, a15, a16⟩ := e4
    refine ⟨?_, ?_, fun _ => rfl⟩
    · intro hd
      by_cases hk : rank c.ph ≤ 6
      · rw [a8 hk] at hd; cases hd
      · exact a7 (by omega)
    · intro hd
      by_cases hk : rank c.ph ≤ 7
      · rw [a10 hk] at hd; cases hd
      · exact a9 (by omega)

/-- **C120**, told: from the first step of the call until the socket is closed, every runner that is alive and touches is told to kill its
command. -/
theorem C120_told (es : List Ev) (s t : S) (c : Call) (i : Nat) (r : Runner) (h : run {} es = some s) (hc : stopper s = some c)
    (h1 : 1 ≤ rank c.ph) (h2 : rank c.ph ≤ 5) (hr : s.runners[i]? = some r) (ha : r.alive = true) (hs : step s (.touch i) = some t) :
    t.runners[i]? = some { r with told := true } := by
  have hi := inv_run es s h
  obtain ⟨g1, g2, g3, g4⟩ := stopper_head hi hc
  have b1 := g4.kill h1 (by omega)
  have b2 := g4.sock (by omega)
  have b3 := g4.queue (by omega)
  have b4 := g4.drain (by omega)
  unfold step at hs
  split at hs
  · cases hs
  · simp [b2, b3, b4] at hs
    subst hs
    simp [setRunner, List.getElem?_modify, hr, ha, b1]

/-- and no runner is told before the server is being stopped -/
theorem C120_told_only (es : List Ev) (s : S) (h : run {} es = some s) (r : Runner) (hr : r ∈ s.runners) (ht : r.told = true) : s.up = false := by
  have hi := inv_run es s h
  cases hu : s.up with
  | false => rfl
  | true => have := (hi.1 hu).told r hr; rw [this] at ht; cases ht

/-- **C120**, goes on: the call can always do its next step, unless it waits for runners that are alive; -/
theorem C120_goes_on (es : List Ev) (s : S) (c : Call) (h : run {} es = some s) (hg : s.gone = none) (hc : stopper s = some c)
    (he : c.ph ≠ .ended) (hw : ¬ (c.ph = .runners ∧ c.wait = true ∧ ∃ r ∈ s.runners, r.alive = true)) :
    ∃ t, step s (.go 0) = some t := by
  have hi := inv_run es s h
  obtain ⟨g1, g2, g3, g4⟩ := stopper_head hi hc
  unfold step
  rw [if_neg (by simp [hg])]
  simp only [g2]
  have : ∃ x, next s c = some x := by
    have hd := g4.done
    unfold next
    cases hp : c.ph <;> simp only <;> first
      | exact ⟨_, rfl⟩
      | exact absurd hp he
      | skip
    · rw [if_neg]
      · exact ⟨_, rfl⟩
      · intro hx
        apply hw
        simp only [hasRunners, Bool.and_eq_true, List.any_eq_true] at hx
        exact ⟨hp, hx.1, hx.2⟩
    · rw [if_pos (hd (by rw [hp]; simp [rank])).1]; exact ⟨_, rfl⟩
  obtain ⟨⟨s', ph⟩, hx⟩ := this
  rw [hx]
  exact ⟨_, rfl⟩

/-- and with eleven steps it has ended -/
theorem C120_ends (es : List Ev) (s t : S) (c : Call) (i : Nat) (h : run {} es = some s) (hc : stopper s = some c) (hs : step s (.go i) = some t) :
    ∃ c', stopper t = some c' ∧ rank c.ph < rank c'.ph ∧ rank c'.ph ≤ 11 := by
  have hi := inv_run es s h
  obtain ⟨hu, h0, hd, hdn⟩ := stopper_head hi hc
  unfold step at hs
  split at hs
  · cases hs
  simp only at hs
  split at hs
  · cases hs
  · rename_i c' hc'
    split at hs
    · cases hs
    · rename_i s' ph hn
      simp only [Option.some.injEq] at hs; subst hs
      obtain ⟨d, rest, e1, e2, e3, e4⟩ := hi.2 hu
      rw [e1] at h0; simp at h0; subst h0
      cases i with
      | zero =>
        rw [e1] at hc'; simp at hc'; subst hc'
        obtain ⟨_, _, g3, _⟩ := down_go s s' d ph [] e4 hn
        exact ⟨{ d with ph := ph }, by simp [stopper, e1, e2], g3, by cases ph <;> simp [rank]⟩
      | succ i =>
        rw [e1] at hc'
        simp only [List.getElem?_cons_succ] at hc'
        have := (e3 c' (List.mem_of_getElem? hc')).2
        simp [next, this] at hn

/-! Block -/

/-- a Block that began before the end has been answered, or is going to be -/
def Served (s : S) : Prop :=
  (s.up = true → 0 < s.blocked) ∧
  (∀ c, stopper s = some c → (rank c.ph ≤ 10 → 0 < s.blocked) ∧
    (rank c.ph = 11 → (s.done = some c.reason ∧ s.returned = [] ∧ 0 < s.blocked) ∨ (s.done = none ∧ s.returned = [c.reason])))

theorem begin_fields (s : S) (w : Bool) (r : Reason) (b : Bool) : (begin s w r b).blocked = s.blocked ∧ (begin s w r b).done = s.done ∧
    (begin s w r b).returned = s.returned := by
  unfold begin
  split
  · exact ⟨rfl, rfl, rfl⟩
  · split <;> exact ⟨rfl, rfl, rfl⟩

theorem served_begin {s : S} (hi : Inv s) (h : Served s) (w : Bool) (r : Reason) (b : Bool) : Served (begin s w r b) := by
  obtain ⟨b1, b2, b3⟩ := begin_fields s w r b
  cases hu : s.up with
  | false =>
    obtain ⟨c, rest, e1, e2, e3, e4⟩ := hi.2 hu
    have hst : stopper s = some c := by simp [stopper, e1, e2]
    have h2 := stopper_begin hi hst w r b
    have hup : (begin s w r b).up = false := by unfold begin; rw [if_pos (by simp [hu])]; exact hu
    refine ⟨fun hx => absurd (hup.symm.trans hx) Bool.false_ne_true, fun d hd => ?_⟩
    rw [h2] at hd; cases hd
    simp only [b1, b2, b3]
    exact h.2 c hst
  | true =>
    have h1 := hi.1 hu
    have hbe : begin s w r b = { s with sigClosed := s.sigClosed || b, sched := false, up := false, drain := true, calls := s.calls ++ [⟨w, r, true, .kill⟩] } := by
      unfold begin; rw [if_neg (by simp [hu]), if_neg (by simp [h1.sig])]
    rw [hbe]
    refine ⟨fun hx => by simp at hx, fun d hd => ?_⟩
    simp [stopper, h1.calls] at hd
    subst hd
    exact ⟨fun _ => h.1 hu, fun hx => by simp [rank] at hx⟩

theorem served_same {s t : S} (h : Served s) (h0 : t.up = s.up) (hc : t.calls = s.calls) (h1 : t.done = s.done) (h2 : t.returned = s.returned)
    (h3 : s.blocked ≤ t.blocked) : Served t := by
  have hst : stopper t = stopper s := by simp only [stopper, hc]
  refine ⟨fun hu => Nat.lt_of_lt_of_le (h.1 (h0 ▸ hu)) h3, fun c hx => ?_⟩
  rw [hst] at hx
  have := h.2 c hx
  refine ⟨fun hr => Nat.lt_of_lt_of_le (this.1 hr) h3, fun hr => ?_⟩
  rcases this.2 hr with ⟨g1, g2, g3⟩ | ⟨g1, g2⟩
  · exact Or.inl ⟨by rw [h1]; exact g1, by rw [h2]; exact g2, Nat.lt_of_lt_of_le g3 h3⟩
  · exact Or.inr ⟨by rw [h1]; exact g1, by rw [h2]; exact g2⟩

theorem next_blocked {s s' : S} {c : Call} {ph : Ph} (hn : next s c = some (s', ph)) : s'.blocked = s.blocked ∧ s'.returned = s.returned := by
  unfold next at hn
  cases hp : c.ph <;> rw [hp] at hn <;> simp only at hn <;> first
    | (cases hn; done)
    | (cases hn; exact ⟨rfl, rfl⟩)
    | (split at hn <;> first | (cases hn; done) | (cases hn; exact ⟨rfl, rfl⟩))

theorem served_step {s t : S} {e : Ev} (hi : Inv s) (h : Served s) (hs : step s e = some t) : Served t := by
  have hs0 := hs
  unfold step at hs
  split at hs
  · cases hs
  cases e with
  | go i =>
    simp only at hs
    split at hs
    · cases hs
    · rename_i c' hc'
      split at hs
      · cases hs
      · rename_i s' ph hn
        simp only [Option.some.injEq] at hs
        cases hu : s.up with
        | true => rw [(hi.1 hu).calls] at hc'; simp at hc'
        | false =>
          obtain ⟨d, rest, e1, e2, e3, e4⟩ := hi.2 hu
          have hst : stopper s = some d := by simp [stopper, e1, e2]
          cases i with
          | succ i =>
            rw [e1] at hc'
            simp only [List.getElem?_cons_succ] at hc'
            have := (e3 c' (List.mem_of_getElem? hc')).2
            simp [next, this] at hn
          | zero =>
            rw [e1] at hc'; simp at hc'; subst hc'
            obtain ⟨g1, g2, g3, _⟩ := down_go s s' d ph (s.calls.set 0 { d with ph := ph }) e4 hn
            obtain ⟨b1, b2⟩ := next_blocked hn
            subst hs
            refine ⟨fun hx => absurd ((g2.trans hu).symm.trans hx) Bool.false_ne_true, fun c hc => ?_⟩
            simp [stopper, e1, e2] at hc
            subst hc
            have h10 : rank d.ph ≤ 10 := by have : rank ph ≤ 11 := by cases ph <;> simp [rank]
                                            omega
            have hb := (h.2 d hst).1 h10
            refine ⟨fun _ => by simp only [b1]; exact hb, fun hr => ?_⟩
            simp only at hr ⊢
            have hph : ph = .ended := rank_ended (by omega)
            have hbk := e4.bl'
            have hdn := (e4.done h10).2
            unfold next at hn
            cases hp : d.ph <;> rw [hp] at hn hbk <;> simp only [rank] at hn hbk
            case undrain =>
              have hbl := hbk (by omega) hb
              simp only [hbl, if_true, Option.some.injEq, Prod.mk.injEq] at hn
              rw [← hn.2] at hph; cases hph
            case tell =>
              split at hn
              · cases hn; left; exact ⟨rfl, hdn, hb⟩
              · cases hn
            case look =>
              simp only [Option.some.injEq, Prod.mk.injEq] at hn
              have := hn.2; split at this <;> (rw [← this] at hph; cases hph)
            case runners => split at hn <;> cases hn <;> cases hph
            all_goals first
              | (cases hn; done)
              | (cases hn; cases hph; done)
  | stop w => simp only [Option.some.injEq] at hs; subst hs; exact served_begin hi h _ _ _
  | signal =>
    simp only at hs
    split at hs <;> simp only [Option.some.injEq] at hs <;> subst hs
    · refine served_begin ?_ ?_ _ _ _
      · exact inv_same hi rfl rfl rfl (fun hu => (hi.1 hu).told) (fun _ => rfl) rfl rfl rfl rfl rfl rfl rfl rfl
      · exact served_same h rfl rfl rfl rfl (Nat.le_refl _)
    · exact served_same h rfl rfl rfl rfl (Nat.le_refl _)
  | expire =>
    simp only at hs
    split at hs <;> simp only [Option.some.injEq, reduceCtorEq] at hs
    subst hs
    refine served_begin ?_ ?_ _ _ _
    · exact inv_same hi rfl rfl rfl (fun hu => (hi.1 hu).told) (fun _ => rfl) rfl rfl rfl rfl rfl rfl rfl rfl
    · exact served_same h rfl rfl rfl rfl (Nat.le_refl _)
  | tick =>
    simp only at hs
    split at hs
    · cases hs
    split at hs
    · cases hs; exact served_same h rfl rfl rfl rfl (Nat.le_refl _)
    split at hs <;> simp only [Option.some.injEq] at hs <;> subst hs
    · exact h
    · refine served_begin ?_ ?_ _ _ _
      · exact inv_same hi rfl rfl rfl (fun hu => (hi.1 hu).told) (fun _ => rfl) rfl rfl rfl rfl rfl rfl rfl rfl
      · exact served_same h rfl rfl rfl rfl (Nat.le_refl _)
  | unblock =>
    simp only at hs
    split at hs
    · rename_i r hr
      split at hs <;> simp only [Option.some.injEq, reduceCtorEq] at hs
      subst hs
      cases hu : s.up with
      | true => have := (hi.1 hu).done; rw [hr] at this; cases this
      | false =>
        obtain ⟨d, rest, e1, e2, e3, e4⟩ := hi.2 hu
        have hst : stopper s = some d := by simp [stopper, e1, e2]
        refine ⟨fun hx => by simp at hx, fun c hc => ?_⟩
        have hcd : c = d := by
          have : stopper s = some c := hc
          rw [hst] at this; exact (Option.some.inj this).symm
        subst hcd
        have h11 : ¬ rank c.ph ≤ 10 := fun h10 => by rw [(e4.done h10).1] at hr; cases hr
        refine ⟨fun h10 => absurd h10 h11, fun hx => ?_⟩
        rcases (h.2 c hst).2 hx with ⟨g1, g2, g3⟩ | ⟨g1, g2⟩
        · rw [hr] at g1; cases g1; right; exact ⟨rfl, by simp [g2]⟩
        · rw [hr] at g1; cases g1
    · cases hs
  | block => simp only [Option.some.injEq] at hs; subst hs; exact served_same h rfl rfl rfl rfl (Nat.le_succ _)
  | runnerEnds i => simp only [Option.some.injEq] at hs; subst hs; exact served_same h rfl rfl rfl rfl (Nat.le_refl _)
  | _ =>
    simp only at hs
    split at hs <;> simp only [Option.some.injEq, reduceCtorEq] at hs <;> subst hs <;> exact served_same h rfl rfl rfl rfl (Nat.le_refl _)

/-- **C120**, Block (partial: called before the server is stopped; and of several callers only one is told): once the call that stops the
server has ended, a Block has returned with its reason, or is able to; with that one, none returns anything else. -/
theorem C120_block_partial (es es' : List Ev) (s t : S) (c : Call) (h : run {} es = some s) (hu : s.up = true) (hb : 0 < s.blocked)
    (h' : run s es' = some t) (hc : stopper t = some c) (he : c.ph = .ended) :
    t.returned = [c.reason] ∨ (t.gone = none → ∃ u, step t .unblock = some u ∧ u.returned = [c.reason]) := by
  have hi := inv_run es s h
  have hsv : Served s := by
    refine ⟨fun _ => hb, fun c hc => ?_⟩
    simp [stopper, (hi.1 hu).calls] at hc
  have hend := run_inv (fun s => Inv s ∧ Served s) (fun s t e hp hs => ⟨inv_step s t e hp.1 hs, served_step hp.1 hp.2 hs⟩) es' s t ⟨hi, hsv⟩ h'
  rcases (hend.2.2 c hc).2 (by rw [he]; rfl) with ⟨g1, g2, g3⟩ | ⟨g1, g2⟩
  · right
    intro hg
    refine ⟨_, by unfold step; rw [if_neg (by simp [hg])]; simp only [g1]; rw [if_neg (by omega)], by simp [g2]⟩
  · left; exact g2

/-- at most one Block ever returns -/
theorem C120_block_one (es : List Ev) (t : S) (h : run {} es = some t) : t.returned.length ≤ 1 := by
  have hi := inv_run es t h
  cases hu : t.up with
  | true => simp [(hi.1 hu).ret]
  | false =>
    obtain ⟨c, rest, e1, e2, e3, e4⟩ := hi.2 hu
    by_cases hr : rank c.ph ≤ 10
    · simp [(e4.done hr).2]
    · have h11 : rank c.ph = 11 := by have : rank c.ph ≤ 11 := by cases c.ph <;> simp [rank]
                                      omega
      rcases e4.ret h11 with ⟨_, g2, _⟩ | ⟨_, g2⟩ | ⟨_, g2⟩ <;> simp [g2]

/-! the runners -/

/-- no callback that had begun before the server was stopped asks for runners after that -/
def calm (s : S) : List Ev → Prop
  | [] => True
  | e :: es => (e = .racAsks true → s.up = true) ∧ ∀ t, step s e = some t → calm t es

/-- nothing is scheduled once the server is being stopped, and the call that waits for the runners has waited -/
def Quiet (s : S) : Prop :=
  (s.up = false → s.sched = false) ∧ ∀ c, stopper s = some c → c.wait = true → 4 ≤ rank c.ph → hasRunners s = false

theorem quiet_same {s t : S} (h : Quiet s) (h0 : t.up = s.up) (hc : t.calls = s.calls) (h1 : s.up = false → t.sched = false)
    (h2 : s.up = false → hasRunners s = false → hasRunners t = false) (hi : Inv s) : Quiet t := by
  have hst : stopper t = stopper s := by simp only [stopper, hc]
  refine ⟨fun hu => h1 (h0 ▸ hu), fun c hx hw hr => ?_⟩
  rw [hst] at hx
  exact h2 (stopper_head hi hx).1 (h.2 c hx hw hr)

theorem quiet_begin {s : S} (hi : Inv s) (h : Quiet s) (w : Bool) (r : Reason) (b : Bool) : Quiet (begin s w r b) := by
  cases hu : s.up with
  | false =>
    obtain ⟨c, rest, e1, e2, e3, e4⟩ := hi.2 hu
    have hst : stopper s = some c := by simp [stopper, e1, e2]
    have h2 := stopper_begin hi hst w r b
    have hbe : begin s w r b = { s with calls := s.calls ++ [⟨w, r, false, .ended⟩] } := by unfold begin; rw [if_pos (by simp [hu])]
    refine ⟨fun _ => by rw [hbe]; exact h.1 hu, fun d hd hw hr => ?_⟩
    rw [h2] at hd; cases hd
    rw [hbe]
    exact h.2 c hst hw hr
  | true =>
    have h1 := hi.1 hu
    have hbe : begin s w r b = { s with sigClosed := s.sigClosed || b, sched := false, up := false, drain := true, calls := s.calls ++ [⟨w, r, true, .kill⟩] } := by
      unfold begin; rw [if_neg (by simp [hu]), if_neg (by simp [h1.sig])]
    rw [hbe]
    refine ⟨fun _ => rfl, fun d hd _ hr => ?_⟩
    simp [stopper, h1.calls] at hd
    subst hd
    simp [rank] at hr

theorem alive_modify (l : List Runner) (i : Nat) (f : Runner → Runner) (hf : ∀ r, (f r).alive = true → r.alive = true)
    (h : l.any (·.alive) = false) : (l.modify i f).any (·.alive) = false := by
  induction l generalizing i with
  | nil => simp
  | cons a l ih =>
    simp only [List.any_cons, Bool.or_eq_false_iff] at h
    cases i with
    | zero =>
      simp only [List.modify_zero_cons, List.any_cons, Bool.or_eq_false_iff]
      refine ⟨?_, h.2⟩
      cases hx : (f a).alive with
      | false => rfl
      | true => have := hf a hx; rw [h.1] at this; cases this
    | succ i =>
      simp only [List.modify_succ_cons, List.any_cons, Bool.or_eq_false_iff]
      exact ⟨h.1, ih i h.2⟩

theorem quiet_step {s t : S} {e : Ev} (hi : Inv s) (h : Quiet s) (hq : e = .racAsks true → s.up = true) (hs : step s e = some t) : Quiet t := by
  unfold step at hs
  split at hs
  · cases hs
  cases e with
  | go i =>
    simp only at hs
    split at hs
    · cases hs
    · rename_i c' hc'
      split at hs
      · cases hs
      · rename_i s' ph hn
        simp only [Option.some.injEq] at hs
        cases hu : s.up with
        | true => rw [(hi.1 hu).calls] at hc'; simp at hc'
        | false =>
          obtain ⟨d, rest, e1, e2, e3, e4⟩ := hi.2 hu
          have hst : stopper s = some d := by simp [stopper, e1, e2]
          cases i with
          | succ i =>
            rw [e1] at hc'
            simp only [List.getElem?_cons_succ] at hc'
            have := (e3 c' (List.mem_of_getElem? hc')).2
            simp [next, this] at hn
          | zero =>
            rw [e1] at hc'; simp at hc'; subst hc'
            have hsc := h.1 hu
            have h4 := h.2 d hst
            subst hs
            have hkey : s'.sched = false ∧ s'.runners = s.runners ∧ (d.wait = true → 4 ≤ rank ph → hasRunners s = false) := by
              unfold next at hn
              cases hp : d.ph <;> rw [hp] at hn h4 <;> simp only [rank] at hn h4
              case runners =>
                split at hn
                · cases hn
                · rename_i hc
                  cases hn
                  refine ⟨hsc, rfl, fun hw _ => ?_⟩
                  simpa [hw] using hc
              case look =>
                simp only [Option.some.injEq, Prod.mk.injEq] at hn
                obtain ⟨rfl, rfl⟩ := hn
                refine ⟨hsc, rfl, fun _ hr => ?_⟩
                split at hr <;> simp [rank] at hr
              case tell =>
                split at hn
                · cases hn; exact ⟨hsc, rfl, fun hw _ => h4 hw (by omega)⟩
                · cases hn
              all_goals first
                | (cases hn; done)
                | (cases hn; refine ⟨hsc, rfl, fun hw hr => ?_⟩; first | exact h4 hw (by omega) | (simp only [rank] at hr; omega))
                | (cases hn; refine ⟨rfl, rfl, fun hw hr => ?_⟩; exact h4 hw (by omega))
            refine ⟨fun _ => hkey.1, fun c hc hw hr => ?_⟩
            simp [stopper, e1, e2] at hc
            subst hc
            simp only [hasRunners, hkey.2.1]
            exact hkey.2.2 hw hr
  | stop w => simp only [Option.some.injEq] at hs; subst hs; exact quiet_begin hi h _ _ _
  | signal =>
    simp only at hs
    split at hs <;> simp only [Option.some.injEq] at hs <;> subst hs
    · refine quiet_begin ?_ ?_ _ _ _
      · exact inv_same hi rfl rfl rfl (fun hu => (hi.1 hu).told) (fun _ => rfl) rfl rfl rfl rfl rfl rfl rfl rfl
      · exact quiet_same h rfl rfl h.1 (fun _ => id) hi
    · exact quiet_same h rfl rfl h.1 (fun _ => id) hi
  | expire =>
    simp only at hs
    split at hs <;> simp only [Option.some.injEq, reduceCtorEq] at hs
    subst hs
    refine quiet_begin ?_ ?_ _ _ _
    · exact inv_same hi rfl rfl rfl (fun hu => (hi.1 hu).told) (fun _ => rfl) rfl rfl rfl rfl rfl rfl rfl rfl
    · exact quiet_same h rfl rfl h.1 (fun _ => id) hi
  | tick =>
    simp only at hs
    split at hs
    · cases hs
    split at hs
    · cases hs; exact quiet_same h rfl rfl h.1 (fun _ => id) hi
    split at hs <;> simp only [Option.some.injEq] at hs <;> subst hs
    · exact h
    · refine quiet_begin ?_ ?_ _ _ _
      · exact inv_same hi rfl rfl rfl (fun hu => (hi.1 hu).told) (fun _ => rfl) rfl rfl rfl rfl rfl rfl rfl rfl
      · exact quiet_same h rfl rfl h.1 (fun _ => id) hi
  | unblock =>
    simp only at hs
    split at hs
    · split at hs <;> simp only [Option.some.injEq, reduceCtorEq] at hs
      subst hs; exact quiet_same h rfl rfl h.1 (fun _ => id) hi
    · cases hs
  | racAsks b =>
    simp only at hs
    split at hs <;> simp only [Option.some.injEq, reduceCtorEq] at hs
    subst hs
    refine quiet_same h rfl rfl (fun hu => ?_) (fun _ => id) hi
    cases b with
    | false => simp [h.1 hu]
    | true => rw [hq rfl] at hu; cases hu
  | runnerStarts =>
    simp only at hs
    split at hs <;> simp only [Option.some.injEq, reduceCtorEq] at hs
    rename_i hsc
    subst hs
    refine quiet_same h rfl rfl h.1 (fun hu _ => ?_) hi
    rw [h.1 hu] at hsc; cases hsc
  | runnerEnds i =>
    simp only [Option.some.injEq] at hs; subst hs
    exact quiet_same h rfl rfl h.1 (fun _ hx => alive_modify _ _ _ (fun r hr => by simp at hr) hx) hi
  | touch i =>
    simp only at hs
    split at hs <;> simp only [Option.some.injEq] at hs <;> subst hs
    · exact quiet_same h rfl rfl h.1 (fun _ hx => alive_modify _ _ _ (fun r hr => hr) hx) hi
    · exact h
  | block => simp only [Option.some.injEq] at hs; subst hs; exact quiet_same h rfl rfl h.1 (fun _ => id) hi
  | _ =>
    simp only at hs
    split at hs <;> simp only [Option.some.injEq, reduceCtorEq] at hs <;> subst hs <;> exact quiet_same h rfl rfl h.1 (fun _ => id) hi

/-- **C120**, runners (partial: if no callback that had begun before asks the scheduler for runners): when a call that waits, and did stop
the server, has passed that point, and also when it has returned, there are no runners, and none start. -/
theorem C120_runners_partial (es : List Ev) (t : S) (c : Call) (h : run {} es = some t) (hq : calm {} es) (hc : stopper t = some c)
    (hw : c.wait = true) (he : 4 ≤ rank c.ph) : (∀ r ∈ t.runners, r.alive = false) ∧ step t .runnerStarts = none := by
  have key : ∀ (es : List Ev) (s : S), Inv s → Quiet s → calm s es → run s es = some t → Inv t ∧ Quiet t := by
    intro es
    induction es with
    | nil => intro s hi hq _ hr; simp only [run, Option.some.injEq] at hr; subst hr; exact ⟨hi, hq⟩
    | cons e es ih =>
      intro s hi hq hcm hr
      simp only [run] at hr
      cases h1 : step s e with
      | none => rw [h1] at hr; cases hr
      | some u =>
        rw [h1] at hr
        exact ih u (inv_step s u e hi h1) (quiet_step hi hq hcm.1 h1) (hcm.2 u h1) hr
  obtain ⟨hi, hqt⟩ := key es {} inv_init ⟨fun hx => (by cases hx), fun c hc => by simp [stopper] at hc⟩ hq h
  refine ⟨?_, ?_⟩
  · have := hqt.2 c hc hw he
    simpa [hasRunners] using this
  · have := hqt.1 (stopper_head hi hc).1
    unfold step
    split
    · rfl
    · simp [this]

theorem calm_of {es : List Ev} (h : .racAsks true ∉ es) : ∀ s, calm s es := by
  induction es with
  | nil => intro s; trivial
  | cons e es ih =>
    intro s
    simp only [List.mem_cons, not_or] at h
    exact ⟨fun he => absurd he.symm h.1, fun t _ => ih h.2 t⟩

/-! violations -/

/-- the first ten steps of the i-th call, up to where it tells Block -/
def gos (n : Nat) : List Ev := List.replicate n (.go 0)

/-- one runner is running -/
def busy : List Ev := [.rac, .racAsks true, .runnerStarts, .jobs 1]

/-- **C120**, violated by the code: a second Stop(true) returns at once, while there are runners and the database is open. -/
theorem C120_violated_second : ∃ (es : List Ev) (t : S), run {} es = some t ∧ t.calls[1]? = some ⟨true, .stop, false, .ended⟩ ∧
    hasRunners t = true ∧ t.db = true ∧ t.up = false := ⟨busy ++ [.stop true, .stop true], _, rfl, by decide⟩

/-- **C120**, violated by the code: a callback that had begun before makes runners start after the call has waited for them. -/
theorem C120_violated_runners : ∃ (es : List Ev) (t : S) (c : Call), run {} es = some t ∧ stopper t = some c ∧ c.wait = true ∧ c.ph = .ended ∧
    hasRunners t = true := 
  ⟨[.rac, .stop true] ++ gos 3 ++ [.racAsks true, .runnerStarts] ++ gos 6, _, ⟨true, .stop, true, .ended⟩, rfl, by decide, rfl, rfl, by decide⟩

/-- **C120**, violated by the code: if Stop is called while the server drains, the goroutine that waits for the jobs to end kills the process
when the queue is gone; a Block that waits is never told. -/
theorem C120_violated_drain : ∃ (es : List Ev) (t : S), run {} es = some t ∧ t.gone = some .nilQueue ∧ t.blocked = 1 ∧ t.returned = [] ∧
    t.done = none := ⟨[.block, .jobs 1, .drain, .stop false] ++ gos 7 ++ [.tick], _, rfl, by decide⟩

/-- **C120**, violated by the code: a second signal, or one after Stop was called, ends the process with the database open. -/
theorem C120_violated_signal : (∃ t : S, run {} [.signal, .signal] = some t ∧ t.gone = some .signal ∧ t.db = true) ∧
    ∃ t : S, run {} [.stop true, .unhandle, .signal] = some t ∧ t.gone = some .signal ∧ t.db = true := ⟨⟨_, rfl, by decide⟩, ⟨_, rfl, by decide⟩⟩

/-- **C120**, violated by the code: Stop without waiting: a runner that did not touch in time is never told, and lives on. -/
theorem C120_violated_untold : ∃ (es : List Ev) (s : S) (c : Call), run {} es = some s ∧ stopper s = some c ∧ c.ph = .ended ∧
    s.runners = [⟨true, false⟩] ∧
    ∀ (es' : List Ev) (t : S), run s es' = some t → ∃ a, t.runners[0]? = some ⟨a, false⟩ := by
  refine ⟨busy ++ [.stop false] ++ gos 10, _, ⟨false, .stop, true, .ended⟩, rfl, by decide, rfl, by decide, ?_⟩
  intro es' t h'
  have h0 := inv_run (busy ++ [.stop false] ++ gos 10) _ rfl
  have hp := run_inv (fun s => Inv s ∧ (∃ c, stopper s = some c ∧ c.ph = .ended) ∧ ∃ a, s.runners[0]? = some ⟨a, false⟩) ?_ es' _ t
    ⟨h0, ⟨_, rfl, rfl⟩, ⟨_, rfl⟩⟩ h'
  · exact hp.2.2
  · intro s t e ⟨hi, ⟨c, hc, he⟩, a, ha⟩ hs
    refine ⟨inv_step s t e hi hs, ?_, ?_⟩
    · obtain ⟨c', c1, _, _, c4⟩ := stopper_step hi hc hs
      exact ⟨c', c1, rank_ended (by rw [he] at c4; exact c4)⟩
    · have hsock := (stopper_head hi hc).2.2.2.sock' (by rw [he]; simp [rank])
      unfold step at hs
      split at hs
      · cases hs
      have hbeg : ∀ s : S, s.runners[0]? = some ⟨a, false⟩ → ∀ w r b, (begin s w r b).runners[0]? = some ⟨a, false⟩ := by
        intro s hs w r b
        unfold begin
        split
        · exact hs
        · split <;> exact hs
      cases e with
      | go i =>
        simp only at hs
        split at hs
        · cases hs
        · rename_i c' hc'
          split at hs
          · cases hs
          · rename_i s' ph hn
            simp only [Option.some.injEq] at hs
            subst hs
            refine ⟨a, ?_⟩
            simp only
            unfold next at hn
            cases hp : c'.ph <;> rw [hp] at hn <;> simp only at hn <;> first
              | (cases hn; done)
              | (cases hn; exact ha)
              | (split at hn <;> first | (cases hn; done) | (cases hn; exact ha))
      | stop w => simp only [Option.some.injEq] at hs; subst hs; exact ⟨a, hbeg _ ha _ _ _⟩
      | signal =>
        simp only at hs
        split at hs <;> simp only [Option.some.injEq] at hs <;> subst hs
        · refine ⟨a, hbeg _ ?_ _ _ _⟩; exact ha
        · exact ⟨a, ha⟩
      | expire =>
        simp only at hs
        split at hs <;> simp only [Option.some.injEq, reduceCtorEq] at hs
        subst hs
        refine ⟨a, hbeg _ ?_ _ _ _⟩; exact ha
      | tick =>
        simp only at hs
        split at hs
        · cases hs
        split at hs
        · cases hs; exact ⟨a, ha⟩
        split at hs <;> simp only [Option.some.injEq] at hs <;> subst hs
        · exact ⟨a, ha⟩
        · refine ⟨a, hbeg _ ?_ _ _ _⟩; exact ha
      | touch i => simp [hsock] at hs; subst hs; exact ⟨a, ha⟩
      | runnerStarts =>
        simp only at hs
        split at hs <;> simp only [Option.some.injEq, reduceCtorEq] at hs
        subst hs
        refine ⟨a, ?_⟩
        simp only
        rw [List.getElem?_append_left]
        · exact ha
        · exact (List.getElem?_eq_some_iff.1 ha).1
      | runnerEnds i =>
        simp only [Option.some.injEq] at hs; subst hs
        simp only [setRunner, List.getElem?_modify, ha]
        by_cases hz : i = 0 <;> simp [hz]
      | block => simp only [Option.some.injEq] at hs; subst hs; exact ⟨a, ha⟩
      | unblock =>
        simp only at hs
        split at hs
        · split at hs <;> simp only [Option.some.injEq, reduceCtorEq] at hs
          subst hs; exact ⟨a, ha⟩
        · cases hs
      | _ =>
        simp only at hs
        split at hs <;> simp only [Option.some.injEq, reduceCtorEq] at hs <;> subst hs <;> exact ⟨a, ha⟩

/-- **C120**, violated by the code: of two callers of Block only one is ever told; and a Block after the server was stopped waits for ever. -/
theorem C120_violated_block : (∃ t : S, run {} ([.block, .block, .stop true] ++ gos 10 ++ [.unblock]) = some t ∧ t.returned = [.stop] ∧
      t.blocked = 1 ∧ step t .unblock = none) ∧
    ∃ t : S, run {} ([.stop true] ++ gos 9 ++ [.block]) = some t ∧ (∃ c, stopper t = some c ∧ c.ph = .ended) ∧ t.blocked = 1 ∧
      step t .unblock = none ∧ step t (.go 0) = none := ⟨⟨_, rfl, by decide⟩, ⟨_, rfl, ⟨_, rfl, rfl⟩, by decide⟩⟩

/-- the first signal, and the expiry of the certificate, stop the server as Stop does, waiting for the runners, and say why -/
theorem C120_signal (es : List Ev) (s t : S) (h : run {} es = some s) (hu : s.up = true) :
    (step s .expire = some t → t.up = false ∧ stopper t = some ⟨true, .cert, true, .kill⟩) ∧
    (s.handled = true → step s .signal = some t → t.up = false ∧ stopper t = some ⟨true, .int, true, .kill⟩) := by
  have hc := ((inv_run es s h).1 hu).calls
  constructor
  · intro hs
    unfold step at hs
    split at hs
    · cases hs
    simp only at hs
    split at hs
    · simp only [begin, hu, Bool.not_true, Bool.false_eq_true, if_false, Bool.false_and, Option.some.injEq] at hs
      subst hs
      exact ⟨rfl, by simp [stopper, hc]⟩
    · cases hs
  · intro hh hs
    unfold step at hs
    split at hs
    · cases hs
    simp only [hh, if_true, begin, hu, Bool.not_true, Bool.false_eq_true, if_false, Bool.false_and, Option.some.injEq] at hs
    subst hs
    exact ⟨rfl, by simp [stopper, hc]⟩

theorem draining_step {s t : S} {e : Ev} (hi : Inv s) (hd : s.up = true → s.drain = true ∧ s.drainer = true) (hs : step s e = some t) :
    t.up = true → t.drain = true ∧ t.drainer = true := by
  intro hu
  have hus : s.up = true := by
    cases h : s.up with
    | true => rfl
    | false =>
      exfalso
      unfold step at hs
      split at hs
      · cases hs
      cases e <;> simp only [begin, h, next, setRunner] at hs <;> grind
  obtain ⟨h1, h2⟩ := hd hus
  have hc := (hi.1 hus).calls
  have hsig := (hi.1 hus).sig
  unfold step at hs
  split at hs
  · cases hs
  cases e <;> simp only [begin, hc, setRunner] at hs <;> grind

/-- Drain: from then on, as long as the server is up, no more runners are asked for, and the server stops, waiting for the runners, at the
first look that finds no job running, and not before. -/
theorem C120_drain (es es' : List Ev) (s t u : S) (h : run {} es = some s) (hd : step s .drain = some t) (hr : s.up = true) (hn : s.drain = false)
    (h' : run t es' = some u) (hu : u.up = true) (hg : u.gone = none) :
    step u .rac = some u ∧ (0 < u.running → step u .tick = some u) ∧
    (u.running = 0 → ∃ v, step u .tick = some v ∧ v.up = false ∧ stopper v = some ⟨true, .stop, true, .kill⟩) := by
  have hi := inv_run es s h
  have hit := inv_step s t _ hi hd
  have ht : t.up = true → t.drain = true ∧ t.drainer = true := by
    intro _
    unfold step at hd
    split at hd
    · cases hd
    simp only [hr, hn, Bool.not_true, Bool.or_self, Bool.false_eq_true, if_false, Option.some.injEq] at hd
    subst hd
    exact ⟨rfl, rfl⟩
  have key := run_inv (fun s => Inv s ∧ (s.up = true → s.drain = true ∧ s.drainer = true))
    (fun s t e hp hs => ⟨inv_step s t e hp.1 hs, draining_step hp.1 hp.2 hs⟩) es' t u ⟨hit, ht⟩ h'
  obtain ⟨h1, h2⟩ := key.2 hu
  have hq := (key.1.1 hu).queue
  have hc := (key.1.1 hu).calls
  have hsig := (key.1.1 hu).sig
  refine ⟨?_, ?_, ?_⟩
  · simp [step, hg, h1]
  · intro h0; simp [step, hg, h2, hq, h0]
  · intro h0
    refine ⟨_, by simp [step, hg, h2, hq, h0]; rfl, ?_⟩
    simp [begin, hu, hsig, stopper, hc]

example : ∃ s t u : S, run {} [.block, .jobs 2] = some s ∧ step s .drain = some t ∧ s.up = true ∧ s.drain = false ∧
    run t [.rac, .tick, .jobs 0] = some u ∧ u.up = true ∧ u.gone = none ∧ u.running = 0 := ⟨_, _, _, rfl, rfl, rfl, rfl, rfl, rfl, rfl, rfl⟩

/-! non-vacuity -/

/-- a graceful end: the runner touches, is told, ends; all is closed and Block is told -/
def graceful : List Ev :=
  [.block] ++ busy ++ [.stop true, .go 0, .go 0, .touch 0, .go 0, .runnerEnds 0] ++ gos 8 ++ [.unblock]

example : ∃ t : S, run {} graceful = some t ∧ t.returned = [.stop] ∧ t.runners = [⟨false, true⟩] ∧
    stopper t = some ⟨true, .stop, true, .ended⟩ ∧ t.db = false ∧ t.gone = none := ⟨_, rfl, by decide⟩
example : calm {} graceful := by
  simp only [graceful, busy, List.cons_append, List.nil_append, calm]
  refine ⟨by simp, fun t1 h1 => ⟨by simp, fun t2 h2 => ⟨fun _ => ?_, fun t3 _ => ?_⟩⟩⟩
  · cases h1; cases h2; rfl
  · have := calm_of (es := [.runnerStarts, .jobs 1, .stop true, .go 0, .go 0, .touch 0, .go 0, .runnerEnds 0] ++ gos 8 ++ [.unblock])
      (by decide) t3
    exact this
/-- while it waits for the runner it cannot go on -/
example : ∃ s : S, run {} (busy ++ [.stop true] ++ gos 3) = some s ∧ stopper s = some ⟨true, .stop, true, .runners⟩ ∧ step s (.go 0) = none :=
  ⟨_, rfl, by decide⟩
/-- a drain stops the server when the last job has ended -/
example : ∃ t : S, run {} [.jobs 1, .drain, .tick, .jobs 0, .tick] = some t ∧ stopper t = some ⟨true, .stop, true, .kill⟩ := ⟨_, rfl, by decide⟩

end Verif.Server.Stop
