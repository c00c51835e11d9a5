import Verif.Client.Execute
/-!
# C52: Execute reports success only for jobs it archived
# C70: the behaviours triggered are those for the end that the server recorded
-/
namespace Verif.Client

/-- specification: the command exited with a code that will not change -/
def Hopeless (e : Ended) : Prop := e.wait = .exit 126 ∨ e.wait = .exit 127 ∨ e.wait = .exit 128

/-- specification: the command failed after the time up to which it may be tried again, and would be tried again -/
def TooLate (e : Ended) : Prop := (∃ c, e.wait = .exit c) ∧ 1 < e.untilBuried ∧ 0 < e.noRetriesOverWalltime ∧ e.noRetriesOverWalltime < e.wallTime

/-- specification: the command failed, and was killed by request -/
def Killed (e : Ended) : Prop := (∃ c, e.wait = .exit c) ∧ e.killCalled = true

/-- specification: the command failed for lack of something, or by a signal -/
def Starved (e : Ended) : Prop := e.ranoutMem = true ∨ e.ranoutDisk = true ∨ e.signalled = true

private theorem unmount_flags (e : Ended) : (unmount e (behave e)).dobury = false ∧ (unmount e (behave e)).doarchive = false ∧
    (unmount e (behave e)).dorelease = decide (e.unmountErr = .upload) := by
  unfold unmount behave; cases e.unmountErr <;> simp

private theorem finish_action (e : Ended) : ∃ l : Local, l.dobury = false ∧ l.doarchive = false ∧
    l.dorelease = decide (e.unmountErr = .upload) ∧ (finish e).action = (decision e l).action :=
  ⟨_, (unmount_flags e).1, (unmount_flags e).2.1, (unmount_flags e).2.2, rfl⟩

/-- The action is always defined: `Execute` always tells the server something. -/
theorem action_total (e : Ended) : ∃ a, (finish e).action = some a := by
  obtain ⟨l, h1, h2, h3, h4⟩ := finish_action e
  rw [h4]
  unfold decision Local.action
  cases e.wait with
  | ok => simp only [h1, h3]; cases e.unmountErr <;> simp
  | other => simp [h1]
  | exit c =>
    simp only
    by_cases c1 : c = 126
    · simp [c1]
    by_cases c2 : c = 127
    · simp [c2]
    by_cases c3 : c = 128
    · simp [c3]
    simp only [c1, c2, c3, if_false]
    repeat' split
    all_goals first | exact ⟨_, rfl⟩ | simp_all

/-- C52, the decision, with what the code lets take precedence: archive if and only if the command exited 0 and no upload
failed; bury if and only if hopeless, or killed or too late and neither starved nor signalled; else release.
Partial: the property has no such exceptions (see the violations below). -/
theorem C52_action_partial (e : Ended) (a : Action) (h : (finish e).action = some a) :
    (a = .archive ↔ e.wait = .ok ∧ e.unmountErr ≠ .upload) ∧
    (a = .bury ↔ Hopeless e ∨ (¬ Starved e ∧ (Killed e ∨ TooLate e))) := by
  obtain ⟨l, b1, b2, b3, b4⟩ := finish_action e
  rw [b4] at h
  obtain ⟨w, m, d, s, t, k, me, ke, ce, be, u, ub, nr, wt⟩ := e
  unfold Hopeless Starved Killed TooLate
  simp only at b3
  cases w with
  | ok => cases u <;> simp [decision, Local.action, b1, b3] at h <;> subst h <;> simp
  | other => simp [decision, Local.action, b1] at h; subst h; simp
  | exit c =>
    by_cases h1 : c = 126
    · simp [decision, Local.action, h1] at h; subst h; simp [h1]
    by_cases h2 : c = 127
    · simp [decision, Local.action, h2] at h; subst h; simp [h2]
    by_cases h3 : c = 128
    · simp [decision, Local.action, h3] at h; subst h; simp [h3]
    cases m
    · cases d
      · cases s
        · cases k
          · by_cases hl : 1 < ub ∧ 0 < nr ∧ nr < wt
            · simp [decision, Local.action, h1, h2, h3, hl] at h; subst h; simp [hl]
            · simp only [decision, Local.action, h1, h2, h3, hl, b1, if_false, if_true, Bool.false_eq_true, Option.some.injEq] at h
              subst h
              simp only [Wait.exit.injEq, h1, h2, h3, hl, false_or, Bool.false_eq_true, and_false, or_false]
              simp
          · simp [decision, Local.action, h1, h2, h3] at h; subst h; simp
        · simp [decision, Local.action, h1, h2, h3, b1] at h; subst h; simp [h1, h2, h3]
      · simp [decision, Local.action, h1, h2, h3, b1] at h; subst h; simp [h1, h2, h3]
    · simp [decision, Local.action, h1, h2, h3, b1] at h; subst h; simp [h1, h2, h3]

/-- A non-trivial case: a command killed by request that failed is buried; one that failed for lack of memory is released. -/
example : (finish { wait := .exit 1, killCalled := true }).action = some .bury ∧
    (finish { wait := .exit 1, ranoutMem := true, untilBuried := 3 }).action = some .release := by decide

/-! ### Telling the server -/

private theorem tell_spec (a : Action) (l : Local) (atts : List Attempt) : ∀ (done : List Action) (mine p : Bool),
    (mine = true → done = []) → (mine = false → p = true) → (done = [] ∨ done = [a]) →
    let o := tell a l done mine p atts
    (o.done = [] ∨ o.done = [a]) ∧ (o.err = false → o.done = [a] ∧ l.myerr = false ∧ o.triggered = l.triggered) ∧
    (o.triggered = l.triggered ∨ o.triggered = l.triggered ++ [false]) := by
  induction atts with
  | nil => intro done mine p h1 h2 h3; simp [tell]; exact h3
  | cons x rest ih =>
    intro done mine p h1 h2 h3
    cases x with
    | unreached => exact ih done mine true h1 (fun _ => rfl) h3
    | lost =>
      refine ih _ false true (by simp) (by simp) ?_
      cases mine with
      | true => right; simp [h1 rfl]
      | false => simpa using h3
    | taken => simp [tell]; exact h3
    | again =>
      simp only [tell]
      split
      · rename_i hc
        have h4 : done = [a] := h3.resolve_left hc.2
        have h5 : p = true := by
          apply h2
          cases mine with
          | true => exact (hc.2 (h1 rfl)).elim
          | false => rfl
        simp [h4, h5]
      · simp; exact h3
    | answered =>
      cases mine with
      | true =>
        have := h1 rfl
        subst this
        simp [tell]
        intro h _; exact h
      | false => simp [tell]; exact h3

/-- C52: the server carries out at most one end action for a run, and it is the one decided on. -/
theorem C52_once (e : Ended) (atts : List Attempt) (o : Outcome) (h : execute e atts = some o) :
    o.done = [] ∨ ∃ a, (finish e).action = some a ∧ o.done = [a] := by
  unfold execute at h
  obtain ⟨a, ha⟩ := action_total e
  simp only [ha, Option.map_some, Option.some.injEq] at h
  subst h
  rcases (tell_spec a (finish e) atts [] true false (fun _ => rfl) (by simp) (Or.inl rfl)).1 with h | h
  · exact Or.inl h
  · exact Or.inr ⟨a, ha, h⟩

/-- C52: a nil error means that the command exited 0 and the server carried out what was decided. -/
theorem C52_nil (e : Ended) (atts : List Attempt) (o : Outcome) (h : execute e atts = some o) (he : o.err = false) :
    e.wait = .ok ∧ ∃ a, (finish e).action = some a ∧ o.done = [a] := by
  unfold execute at h
  obtain ⟨a, ha⟩ := action_total e
  simp only [ha, Option.map_some, Option.some.injEq] at h
  subst h
  obtain ⟨h1, h2, _⟩ := (tell_spec a (finish e) atts [] true false (fun _ => rfl) (by simp) (Or.inl rfl)).2.1 he
  refine ⟨?_, a, ha, h1⟩
  cases hw : e.wait with
  | ok => rfl
  | other => exfalso; unfold finish decision at h2; simp [hw] at h2
  | exit c =>
    exfalso; revert h2
    unfold finish decision
    simp only [hw]
    repeat' split
    all_goals simp

/-- C52, if no upload failed: `Execute` returns nil only if the server archived the job. Missing: a failed upload, for which it
is false (below). -/
theorem C52_partial (e : Ended) (atts : List Attempt) (o : Outcome) (h : execute e atts = some o) (hu : e.unmountErr ≠ .upload)
    (he : o.err = false) : o.done = [.archive] := by
  obtain ⟨h1, a, h2, h3⟩ := C52_nil e atts o h he
  have := (C52_action_partial e a h2).1.2 ⟨h1, hu⟩
  rw [h3, this]

/-- A non-trivial case: the server is reached at once. -/
example : execute { wait := .ok, unmountErr := .other } [.answered] = some ⟨[.archive], false, [true]⟩ := by decide

/-- The code violates C52: the command exits 0, the upload of its output fails: the job is released, and `Execute` returns nil. -/
theorem C52_violated_upload : ∃ e atts, execute e atts = some ⟨[.release], false, [true]⟩ :=
  ⟨{ wait := .ok, unmountErr := .upload }, [.answered], by decide⟩

/-- The code violates C52: a job killed by request that uses more memory than expected is released, hence tried again. -/
theorem C52_violated_kill : ∃ e, Killed e ∧ (finish e).action = some .release :=
  ⟨{ wait := .exit (-1), killCalled := true, ranoutMem := true, untilBuried := 3 }, ⟨⟨_, rfl⟩, rfl⟩, by decide⟩

/-- The code violates C52: a job past its no-retry time that is stopped by a signal is released, hence tried again. -/
theorem C52_violated_time : ∃ e, TooLate e ∧ (finish e).action = some .release :=
  ⟨{ wait := .exit (-1), signalled := true, ranoutTime := true, untilBuried := 3, noRetriesOverWalltime := 10, wallTime := 20 },
    ⟨⟨_, rfl⟩, by decide⟩, by decide⟩

/-- The code violates the converse too: the job was archived, the answer got lost, and `Execute` returns an error saying that the job must be run
again. -/
theorem C52_violated_lost : ∃ e atts, execute e atts = some ⟨[.archive], true, [true, false]⟩ :=
  ⟨{ wait := .ok }, [.lost, .answered], by decide⟩

/-- What else a client hears after an answer was lost: that the job was buried as asked; it returns an error, and has triggered nothing more. -/
example : execute { wait := .exit 127 } [.lost, .again] = some ⟨[.bury], true, [false]⟩ := by decide

/-! ### C70 -/

/-- C70, for runs in which no step but the command failed and the server answers as soon as it has the request: the
behaviours triggered are those for success if and only if the server archived the job, and there is no second round.
Missing: runs with such failures, for which it is false (below). -/
theorem C70_partial (e : Ended) (n : Nat) (rest : List Attempt) (h1 : e.monitorErr = false) (h2 : e.killErr = false) (h3 : e.closeErr = false)
    (h4 : e.unmountErr ≠ .upload) (o : Outcome) (h : execute e (List.replicate n .unreached ++ .answered :: rest) = some o) :
    ∃ b, o.triggered = [b] ∧ (b = true ↔ o.done = [.archive]) := by
  have ht : ∀ (a : Action) (l : Local) (p : Bool), ∃ q, tell a l [] true p (List.replicate n .unreached ++ .answered :: rest) = ⟨[a], l.myerr || q, l.triggered⟩ := by
    clear h
    intro a l
    induction n with
    | zero => intro p; exact ⟨p, by simp [tell]⟩
    | succ n ih => intro p; rw [List.replicate_succ, List.cons_append]; exact ih true
  unfold execute at h
  obtain ⟨a, ha⟩ := action_total e
  obtain ⟨q, hq⟩ := ht a (finish e) false
  simp only [ha, Option.map_some, hq, Option.some.injEq] at h
  subst h
  have htr : (finish e).triggered = [e.wait == .ok] := by
    have hb : (behave e).triggered = [e.wait == .ok] := by simp [behave, h1, h2, h3]
    have hu : (unmount e (behave e)).triggered = [e.wait == .ok] := by
      unfold unmount; cases e.unmountErr <;> simpa using hb
    unfold finish decision
    cases hw : e.wait <;> simp only [hw] at hu ⊢
    · exact hu
    · repeat' split
      all_goals exact hu
    · exact hu
  refine ⟨_, htr, ?_⟩
  have := (C52_action_partial e a ha).1
  simp only [beq_iff_eq, List.cons.injEq, and_true]
  rw [this]
  simp [h4]

/-- A non-trivial case. -/
example : execute { wait := .exit 1 } [.unreached, .answered] = some ⟨[.release], true, [false]⟩ ∧
    execute { wait := .ok } [.unreached, .answered] = some ⟨[.archive], true, [true]⟩ := by decide

/-- The code violates C70: the job is archived, but the behaviours for failure ran, as closing a pipe failed. -/
theorem C70_violated_close : ∃ e atts, execute e atts = some ⟨[.archive], false, [false]⟩ :=
  ⟨{ wait := .ok, closeErr := true }, [.answered], by decide⟩

/-- The code violates C70: the job is archived, and both kinds of behaviours ran, as an answer was lost. -/
theorem C70_violated_lost : ∃ e atts, execute e atts = some ⟨[.archive], true, [true, false]⟩ := C52_violated_lost

/-- The code violates C70: the job is released, and the behaviours for success ran, as an upload failed. -/
theorem C70_violated_upload : ∃ e atts, execute e atts = some ⟨[.release], false, [true]⟩ := C52_violated_upload

/-- specification: why a command failed, as told to the user. Only commands that failed have a reason. -/
inductive Spec.Reason : Ended → Reason → Prop where
  | upload (e : Ended) : e.wait = .ok → e.unmountErr = .upload → Spec.Reason e .upload
  | good (e : Ended) : e.wait = .ok → e.unmountErr ≠ .upload → Spec.Reason e .none
  | notRun (e : Ended) : e.wait = .other → Spec.Reason e .abnormal
  | noPermission (e : Ended) : e.wait = .exit 126 → Spec.Reason e .cperm
  | notFound (e : Ended) : e.wait = .exit 127 → Spec.Reason e .cfound
  | badExit (e : Ended) : e.wait = .exit 128 → Spec.Reason e .cexit
  | memory (e : Ended) (c : Int) : e.wait = .exit c → ¬ Hopeless e → e.ranoutMem = true → Spec.Reason e .ram
  | disk (e : Ended) (c : Int) : e.wait = .exit c → ¬ Hopeless e → e.ranoutMem = false → e.ranoutDisk = true →
      Spec.Reason e .disk
  | time (e : Ended) (c : Int) : e.wait = .exit c → ¬ Hopeless e → e.ranoutMem = false → e.ranoutDisk = false →
      e.signalled = true → e.ranoutTime = true → Spec.Reason e .time
  | signal (e : Ended) (c : Int) : e.wait = .exit c → ¬ Hopeless e → e.ranoutMem = false → e.ranoutDisk = false →
      e.signalled = true → e.ranoutTime = false → Spec.Reason e .signal
  | killed (e : Ended) (c : Int) : e.wait = .exit c → ¬ Hopeless e → ¬ Starved e → e.killCalled = true → Spec.Reason e .killed
  | exit (e : Ended) (c : Int) : e.wait = .exit c → ¬ Hopeless e → ¬ Starved e → e.killCalled = false → Spec.Reason e .exit

/-- C52, the reason: the fail reason given to the server is the one that the end of the command has -/
theorem C52_reason (e : Ended) : Spec.Reason e (finish e).failreason := by
  unfold finish decision
  cases hw : e.wait with
  | ok =>
    simp only
    cases hu : e.unmountErr <;> simp only [unmount, behave, hu]
    · exact .good e hw (by simp [hu])
    · exact .upload e hw hu
    · exact .good e hw (by simp [hu])
  | other => exact .notRun e hw
  | exit c =>
    simp only
    by_cases h1 : c = 126
    · subst h1; exact .noPermission e hw
    by_cases h2 : c = 127
    · subst h2; exact .notFound e hw
    by_cases h3 : c = 128
    · subst h3; exact .badExit e hw
    have hh : ¬ Hopeless e := by simp [Hopeless, hw, h1, h2, h3]
    simp only [h1, h2, h3, if_false]
    cases hm : e.ranoutMem
    case true => exact .memory e c hw hh hm
    cases hd : e.ranoutDisk
    case true => exact .disk e c hw hh hm hd
    cases hs : e.signalled
    case true =>
      cases ht : e.ranoutTime
      · exact .signal e c hw hh hm hd hs ht
      · exact .time e c hw hh hm hd hs ht
    have hst : ¬ Starved e := by simp [Starved, hm, hd, hs]
    cases hk : e.killCalled
    case true => exact .killed e c hw hh hst hk
    simp only [Bool.false_eq_true, if_false]
    split <;> exact .exit e c hw hh hst hk

/-- the exit code told is the command's, 255 if it did not run to its end -/
theorem C52_exitcode (e : Ended) : (finish e).exitcode = (match e.wait with | .ok => 0 | .exit c => c | .other => 255) := by
  unfold finish decision
  cases e.wait <;> simp only
  repeat' split
  all_goals rfl

example : (finish { wait := .exit 1, signalled := true, ranoutTime := true }).failreason = .time := by decide
example : (finish { wait := .exit 137, ranoutMem := true, signalled := true, ranoutTime := true }).failreason = .ram := by decide

end Verif.Client
