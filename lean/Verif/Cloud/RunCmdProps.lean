import Verif.Cloud.RunCmd
/-
C119 (second part): the result of running a command on a cloud server.
-/
namespace Verif.Cloud.RunCmd

/-- bookkeeping -/
structure Book (s : S) : Prop where
  reg : s.registered = !s.closed
  closed : s.closed = true ↔ s.canceller = .ended
  cbuf : s.cancelCh = true → s.destroyed = true
  tell : s.finished = true → s.runner ≠ .wait ∧ s.runner ≠ .tell
  cmd : s.runner ≠ .wait → s.cmdEnded = true
  rpc : s.runner ≠ .leave
  cpc : s.canceller ≠ .tell
  r0 : s.runner = .wait ∨ s.runner = .tell ∨ s.runner = .out → s.rsent = 0
  r1 : s.runner = .err → s.rsent = 1
  r2 : s.runner = .done → s.rsent = 2
  r3 : s.runner = .ended → s.rsent = 3
  c0 : s.canceller = .wait ∨ s.canceller = .out → s.csent = 0
  c1 : s.canceller = .err → s.csent = 1
  c2 : s.canceller = .done → s.csent = 2
  c3 : s.canceller = .leave ∨ s.canceller = .ended → s.csent = 3 ∨ (s.csent = 0 ∧ s.cmdEnded = true)
  ended' : s.runner = .wait → s.cmdEnded = false
  told : s.canceller = .wait → s.runner ≠ .wait → s.runner ≠ .tell → s.finished = true
  asked : s.canceller = .wait → s.destroyed = true → s.cancelCh = true
  why : s.canceller = .out ∨ s.canceller = .err ∨ s.canceller = .done ∨ s.csent ≠ 0 → s.destroyed = true ∨ s.ctxDone = true

theorem book_init : Book {} := by constructor <;> simp

set_option maxHeartbeats 4000000 in
theorem book_step (s t : S) (e : Ev) (h : Book s) (hs : step s e = .ok t) : Book t := by
  obtain ⟨h1, h2, h3, h4, h5, h6, h7, h8, h9, h10, h11, h12, h13, h14, h15, h17, h18, h19, h16⟩ := h
  cases e with
  | cmdEnds =>
    simp only [step] at hs
    split at hs <;> cases hs
    constructor <;> grind
  | runner =>
    simp only [step] at hs
    split at hs
    · split at hs <;> cases hs
      constructor <;> grind
    · cases hr : s.runner <;> rw [hr] at hs <;> simp only [send] at hs
      all_goals first
        | (cases hs; done)
        | (split at hs <;> simp at hs <;> subst hs <;> constructor <;> grind)
        | grind
  | selCancel =>
    simp only [step] at hs
    split at hs <;> cases hs
    constructor <;> grind
  | selCtx =>
    simp only [step] at hs
    split at hs <;> cases hs
    constructor <;> grind
  | selFinished =>
    simp only [step] at hs
    split at hs <;> cases hs
    constructor <;> grind
  | canceller =>
    simp only [step] at hs
    split at hs
    · split at hs <;> cases hs
      constructor <;> grind
    · cases hr : s.canceller <;> rw [hr] at hs <;> simp only [send] at hs
      all_goals first
        | (cases hs; done)
        | (split at hs <;> simp at hs <;> subst hs <;> constructor <;> grind)
        | grind
  | main =>
    simp only [step] at hs
    split at hs
    all_goals first
      | (split at hs <;> cases hs <;> constructor <;> grind)
      | cases hs
  | destroy =>
    simp only [step] at hs
    split at hs
    · cases hs; constructor <;> grind
    · split at hs
      · split at hs
        · cases hs
        · split at hs
          · cases hs
          · cases hs; constructor <;> grind
      · cases hs; constructor <;> grind
  | ctxDone =>
    simp only [step] at hs
    cases hs; constructor <;> grind

/-- what is in the channels when `w`, who has sent `a` elements, was the first to send, and the other has sent `b` -/
def Chans (s : S) (w : Who) (a b : Nat) : Prop :=
  match s.main with
  | .wait => (a = 0 → s.outCh = none ∧ s.errCh = none ∧ s.doneCh = none) ∧ b = 0 ∧
      (a ≠ 0 → s.outCh = some w ∧ (2 ≤ a → s.errCh = some w) ∧ (a < 2 → s.errCh = none) ∧ (3 ≤ a → s.doneCh = some w) ∧
        (a < 3 → s.doneCh = none))
  | .gotDone d => d = w ∧ a = 3 ∧ b = 0 ∧ s.outCh = some w ∧ s.errCh = some w ∧ s.doneCh = none
  | .gotOut d o => d = w ∧ o = w ∧ a = 3 ∧ b ≤ 1 ∧ s.errCh = some w ∧ s.doneCh = none ∧ (b = 0 → s.outCh = none) ∧ (1 ≤ b → s.outCh ≠ none)
  | .returned d o e => d = w ∧ o = w ∧ e = w ∧ a = 3 ∧ (b = 0 → s.outCh = none) ∧ (1 ≤ b → s.outCh ≠ none) ∧ (b ≤ 1 → s.errCh = none) ∧
      (2 ≤ b → s.errCh ≠ none) ∧ (b ≤ 2 → s.doneCh = none) ∧ (3 ≤ b → s.doneCh ≠ none)

def Race (s : S) : Prop := Chans s .runner s.rsent s.csent ∨ Chans s .canceller s.csent s.rsent

theorem race_init : Race {} := by left; simp [Chans]

/-- nothing that concerns the caller -/
theorem race_same {s t : S} (h : Race s) (h1 : t.main = s.main) (h2 : t.outCh = s.outCh) (h3 : t.errCh = s.errCh) (h4 : t.doneCh = s.doneCh)
    (h5 : t.rsent = s.rsent) (h6 : t.csent = s.csent) : Race t := by
  simpa only [Race, Chans, h1, h2, h3, h4, h5, h6] using h

set_option maxHeartbeats 4000000 in
theorem race_step (s t : S) (e : Ev) (hb : Book s) (h : Race s) (hs : step s e = .ok t) : Race t := by
  obtain ⟨h1, h2, h3, h4, h5, h6, h7, h8, h9, h10, h11, h12, h13, h14, h15, h17, h18, h19, h16⟩ := hb
  cases e with
  | cmdEnds =>
    simp only [step] at hs
    split at hs <;> cases hs
    exact race_same h rfl rfl rfl rfl rfl rfl
  | runner =>
    simp only [step] at hs
    split at hs
    · split at hs <;> cases hs
      exact race_same h rfl rfl rfl rfl rfl rfl
    · cases hr : s.runner <;> rw [hr] at hs <;> simp only [send] at hs
      all_goals first
        | (cases hs; done)
        | (split at hs
           · rename_i s' pc heq
             split at heq
             · simp only [Option.some.injEq, Prod.mk.injEq] at heq
               obtain ⟨rfl, rfl⟩ := heq
               cases hs
               clear h1 h2 h3 h4 h5 h6 h7 h16
               cases hm : s.main <;> simp only [Race, Chans, hm] at h ⊢ <;> rcases h with h | h <;>
                 first | (left; grind) | (right; grind) | grind
             · cases heq
           · cases hs)
  | selCancel =>
    simp only [step] at hs
    split at hs <;> cases hs
    exact race_same h rfl rfl rfl rfl rfl rfl
  | selCtx =>
    simp only [step] at hs
    split at hs <;> cases hs
    exact race_same h rfl rfl rfl rfl rfl rfl
  | selFinished =>
    simp only [step] at hs
    split at hs <;> cases hs
    exact race_same h rfl rfl rfl rfl rfl rfl
  | canceller =>
    simp only [step] at hs
    split at hs
    · split at hs <;> cases hs
      exact race_same h rfl rfl rfl rfl rfl rfl
    · cases hr : s.canceller <;> rw [hr] at hs <;> simp only [send] at hs
      all_goals first
        | (cases hs; done)
        | (split at hs
           · rename_i s' pc heq
             split at heq
             · simp only [Option.some.injEq, Prod.mk.injEq] at heq
               obtain ⟨rfl, rfl⟩ := heq
               cases hs
               clear h1 h2 h3 h4 h5 h6 h7 h16
               cases hm : s.main <;> simp only [Race, Chans, hm] at h ⊢ <;> rcases h with h | h <;>
                 first | (left; grind) | (right; grind) | grind
             · cases heq
           · cases hs)
  | main =>
    have hr3 : s.rsent ≤ 3 := by cases hr : s.runner <;> grind
    have hc3 : s.csent ≤ 3 := by cases hr : s.canceller <;> grind
    cases hm : s.main <;> simp only [step, hm] at hs
    all_goals first
      | (cases hs; done)
      | (split at hs <;> cases hs
         clear h1 h2 h3 h4 h5 h6 h7 h16
         simp only [Race, Chans, hm] at h ⊢
         rcases h with h | h <;> first | (left; grind) | (right; grind) | grind)
  | destroy =>
    simp only [step] at hs
    split at hs
    · cases hs; exact h
    · split at hs
      · split at hs
        · cases hs
        · split at hs
          · cases hs
          · cases hs; exact race_same h rfl rfl rfl rfl rfl rfl
      · cases hs; exact race_same h rfl rfl rfl rfl rfl rfl
  | ctxDone =>
    simp only [step] at hs
    cases hs; exact race_same h rfl rfl rfl rfl rfl rfl

theorem inv_run (es : List Ev) : ∀ (s t : S), Book s ∧ Race s → run s es = .ok t → Book t ∧ Race t := by
  induction es with
  | nil => intro s t h hr; simp only [run] at hr; cases hr; exact h
  | cons e es ih =>
    intro s t h hr
    simp only [run] at hr
    cases h1 : step s e with
    | ok u => rw [h1] at hr; exact ih u t ⟨book_step s u e h.1 h1, race_step s u e h.1 h.2 h1⟩ hr
    | blocked => rw [h1] at hr; cases hr
    | panics => rw [h1] at hr; cases hr

/-- **C119**, one answer: whatever the order of steps, what RunCmd returns -- error, stdout, stderr -- is all from the command, which then has
ended, or all from the cancellation, and then the server was destroyed or the context done. They are never mixed. -/
theorem C119_one_answer (es : List Ev) (t : S) (h : run {} es = .ok t) (d o e : Who) (hm : t.main = .returned d o e) :
    d = o ∧ o = e ∧ (d = .runner → t.cmdEnded = true) ∧ (d = .canceller → t.destroyed = true ∨ t.ctxDone = true) := by
  obtain ⟨hb, hr⟩ := inv_run es {} t ⟨book_init, race_init⟩ h
  have hw : t.runner = .wait → t.rsent = 0 := fun hx => hb.r0 (Or.inl hx)
  have h1 := hb.cmd
  have h2 := hb.why
  simp only [Race, Chans, hm] at hr
  grind

/-- **C119**, not cancelled: when neither the server is destroyed nor the context done, the result is the command's. -/
theorem C119_not_cancelled (es : List Ev) (t : S) (h : run {} es = .ok t) (d o e : Who) (hm : t.main = .returned d o e)
    (hn : t.destroyed = false ∧ t.ctxDone = false) : (d, o, e) = (.runner, .runner, .runner) := by
  obtain ⟨h1, h2, _, h4⟩ := C119_one_answer es t h d o e hm
  subst h1; subst h2
  cases d with
  | runner => rfl
  | canceller => rcases h4 rfl with h5 | h5 <;> simp [hn.1, hn.2] at h5

/-- **C119**, no panic: neither Destroy nor the end of the call panics, in any order; and Destroy does not block on the channel. -/
theorem C119_no_panic (es : List Ev) : run {} es ≠ .panics := by
  have : ∀ (es : List Ev) (s : S), Book s ∧ Race s → run s es ≠ .panics := by
    intro es
    induction es with
    | nil => intro s _ h; simp only [run] at h; cases h
    | cons e es ih =>
      intro s h hr
      simp only [run] at hr
      cases h1 : step s e with
      | ok u => rw [h1] at hr; exact ih u ⟨book_step s u e h.1 h1, race_step s u e h.1 h.2 h1⟩ hr
      | blocked => rw [h1] at hr; cases hr
      | panics =>
        have hb := h.1
        have hc := hb.closed
        have hg := hb.reg
        cases e with
        | canceller =>
          simp only [step] at h1
          split at h1
          · split at h1
            · grind
            · cases h1
          · split at h1 <;> cases h1
        | destroy =>
          simp only [step] at h1
          split at h1
          · cases h1
          · split at h1
            · split at h1
              · grind
              · split at h1 <;> cases h1
            · cases h1
        | main =>
          simp only [step] at h1
          split at h1
          all_goals first
            | (split at h1 <;> cases h1; done)
            | (cases h1; done)
        | runner =>
          simp only [step] at h1
          split at h1
          · split at h1 <;> cases h1
          · split at h1 <;> cases h1
        | cmdEnds => simp only [step] at h1; split at h1 <;> cases h1
        | selCancel => simp only [step] at h1; split at h1 <;> cases h1
        | selCtx => simp only [step] at h1; split at h1 <;> cases h1
        | selFinished => simp only [step] at h1; split at h1 <;> cases h1
        | ctxDone => simp only [step] at h1; cases h1
  exact this es {} ⟨book_init, race_init⟩

theorem C119_destroy_free (es : List Ev) (s : S) (h : run {} es = .ok s) : ∃ t, step s .destroy = .ok t ∧ t.destroyed = true := by
  obtain ⟨hb, -⟩ := inv_run es {} s ⟨book_init, race_init⟩ h
  have h1 := hb.reg
  have h2 := hb.cbuf
  simp only [step]
  split
  · exact ⟨s, rfl, by assumption⟩
  · split
    · split
      · grind
      · split
        · grind
        · exact ⟨_, rfl, rfl⟩
    · exact ⟨_, rfl, rfl⟩

/-- the steps the program does by itself, without the command, Destroy or the context -/
def own : Ev → Bool
  | .cmdEnds | .destroy | .ctxDone => false
  | _ => true

/-- what is left to do of a goroutine -/
def left : Pc → Nat
  | .wait => 7
  | .tell => 6
  | .out => 5
  | .err => 4
  | .done => 3
  | .leave => 2
  | .ended => 0

def leftMain : Main → Nat
  | .wait => 3
  | .gotDone _ => 2
  | .gotOut _ _ => 1
  | .returned _ _ _ => 0

def todo (s : S) : Nat := left s.runner + left s.canceller + leftMain s.main

/-- **C119**, ends (1): the steps the program does by itself are bounded: each leaves less to do. -/
theorem C119_bounded (s t : S) (e : Ev) (ho : own e = true) (hs : step s e = .ok t) : todo t < todo s := by
  cases e with
  | cmdEnds => cases ho
  | destroy => cases ho
  | ctxDone => cases ho
  | runner =>
    simp only [step] at hs
    split at hs
    · split at hs <;> cases hs
      simp [todo, left, *]
    · cases hr : s.runner <;> rw [hr] at hs <;> simp only [send] at hs
      all_goals first
        | (cases hs; done)
        | (split at hs
           · rename_i s' pc heq
             split at heq
             · simp only [Option.some.injEq, Prod.mk.injEq] at heq
               obtain ⟨rfl, rfl⟩ := heq
               cases hs
               simp [todo, left, hr]
             · cases heq
           · cases hs)
  | selCancel =>
    simp only [step] at hs
    split at hs <;> cases hs
    rename_i h; simp [todo, left, h.1]
  | selCtx =>
    simp only [step] at hs
    split at hs <;> cases hs
    rename_i h; simp [todo, left, h.1]
  | selFinished =>
    simp only [step] at hs
    split at hs <;> cases hs
    rename_i h; simp [todo, left, h.1]
  | canceller =>
    simp only [step] at hs
    split at hs
    · split at hs <;> cases hs
      simp [todo, left, *]
    · cases hr : s.canceller <;> rw [hr] at hs <;> simp only [send] at hs
      all_goals first
        | (cases hs; done)
        | (split at hs
           · rename_i s' pc heq
             split at heq
             · simp only [Option.some.injEq, Prod.mk.injEq] at heq
               obtain ⟨rfl, rfl⟩ := heq
               cases hs
               simp [todo, left, hr]
             · cases heq
           · cases hs)
  | main =>
    cases hm : s.main <;> simp only [step, hm] at hs
    all_goals first
      | (cases hs; done)
      | (split at hs <;> cases hs; simp [todo, leftMain, hm])

set_option maxHeartbeats 4000000 in
/-- **C119**, ends (2): it never gets stuck: as long as the call has not returned, or a goroutine of it has not ended, the program can do a step,
unless everything waits for the command, which has not ended -- and if the call has not returned either then neither the server was destroyed
since the call began nor is the context done. -/
theorem C119_not_stuck (es : List Ev) (s : S) (h : run {} es = .ok s) (hst : ∀ e t, own e = true → step s e ≠ .ok t) :
    (s.runner = .wait ∧ s.canceller = .wait ∧ s.destroyed = false ∧ s.ctxDone = false) ∨
    (s.runner = .wait ∧ s.canceller = .ended ∧ ∃ w, s.main = .returned w w w) ∨
    (s.runner = .ended ∧ s.canceller = .ended ∧ ∃ w, s.main = .returned w w w) := by
  obtain ⟨hb, hr⟩ := inv_run es {} s ⟨book_init, race_init⟩ h
  have hst' : ∀ e, own e = true → step s e = .blocked := by
    intro e he
    cases h1 : step s e with
    | ok t => exact absurd h1 (hst e t he)
    | blocked => rfl
    | panics =>
      have := C119_no_panic (es ++ [e])
      exfalso; apply this
      have happ : ∀ (es : List Ev) (s0 : S), run s0 es = .ok s → run s0 (es ++ [e]) = .panics := by
        intro es
        induction es with
        | nil => intro s0 h0; simp only [run] at h0; cases h0; simp [run, h1]
        | cons a es ih =>
          intro s0 h0
          simp only [run, List.cons_append] at h0 ⊢
          cases h2 : step s0 a with
          | ok u => rw [h2] at h0; exact ih u h0
          | blocked => rw [h2] at h0; cases h0
          | panics => rfl
      exact happ es {} h
  have s1 := hst' .runner rfl
  have s2 := hst' .selCancel rfl
  have s3 := hst' .selCtx rfl
  have s4 := hst' .selFinished rfl
  have s5 := hst' .canceller rfl
  have s6 := hst' .main rfl
  clear hst hst' h
  simp only [step] at s1 s2 s3 s4 s5 s6
  obtain ⟨h1, h2, h3, h4, h5, h6, h7, h8, h9, h10, h11, h12, h13, h14, h15, h17, h18, h19, h16⟩ := hb
  cases hm : s.main <;> simp only [Race, Chans, hm] at hr s6 <;> cases hrp : s.runner <;> cases hcp : s.canceller <;>
    simp [hrp, hcp, send] at s1 s2 s3 s4 s5 h1 h2 h3 h4 h5 h6 h7 h8 h9 h10 h11 h12 h13 h14 h15 h17 h18 h19 h16 ⊢ <;> grind

/-! non-vacuity -/

/-- the command ends by itself, and all of it ends -/
def plain : List Ev := [.cmdEnds, .runner, .runner, .selFinished, .runner, .canceller, .runner, .main, .main, .main]

/-- Destroy cancels; the command ends long after the call returned -/
def cancelled : List Ev :=
  [.destroy, .selCancel, .canceller, .canceller, .canceller, .main, .main, .main, .canceller, .cmdEnds, .runner, .runner, .runner, .runner]

/-- both at once: the command wins the race for the first channel, the cancellation sends after the caller took the results -/
def both : List Ev :=
  [.cmdEnds, .runner, .destroy, .selCancel, .runner, .runner, .runner, .main, .main, .canceller, .main, .canceller, .canceller, .canceller]

example : ∃ t : S, run {} plain = .ok t ∧ t.main = .returned .runner .runner .runner ∧ t.runner = .ended ∧ t.canceller = .ended ∧
    t.destroyed = false ∧ t.ctxDone = false := ⟨_, rfl, by decide⟩
example : ∃ t : S, run {} cancelled = .ok t ∧ t.main = .returned .canceller .canceller .canceller ∧ t.runner = .ended ∧ t.canceller = .ended :=
  ⟨_, rfl, by decide⟩
example : ∃ t : S, run {} both = .ok t ∧ t.main = .returned .runner .runner .runner ∧ t.runner = .ended ∧ t.canceller = .ended ∧
    t.destroyed = true := ⟨_, rfl, by decide⟩
/-- the caller is not served twice: the second to send has to wait until the caller has taken the first element -/
example : run {} [.cmdEnds, .runner, .destroy, .selCancel, .runner, .canceller] = .blocked := by decide
/-- a Destroy after the call has ended, and one before it -/
example : ∃ s : S, run {} plain = .ok s ∧ step s .destroy = .ok { s with destroyed := true } := ⟨_, rfl, by decide⟩
/-- everything waits for the command -/
example : ∀ e t, own e = true → step {} e ≠ .ok t := by
  intro e t ho h
  cases e <;> simp [own, step, send] at ho h

end Verif.Cloud.RunCmd
