/-
The state of a job in the details that are pushed to web pages. The pushed details have the state field of the job in the server's memory
(jobqueue/server.go:1735, jobqueue/job.go:923-926), whereas listings of jobs give the state of the item in the queue
(jobqueue/serverCLI.go:772-780, 806-857). The model has what sets the two: one job, from its adding on.

Simplifications: every operation is done as a whole; modifying a job, and restarting of the server, are not modelled.
-/
namespace Verif.Server.PushState

/-- queue/item.go: the state of an item -/
inductive Item where
  | delay | ready | run | bury | dependent | removed
deriving DecidableEq, Repr

/-- job.go:54-67 -/
inductive St where
  | unset | delayed | ready | reserved | running | lost | buried | dependent | complete
deriving DecidableEq, Repr

structure J where
  item : Item
  /-- `State` -/
  field : St := .unset
  /-- `StartTime` is set -/
  started : Bool := false
  lost : Bool := false
  /-- `UntilBuried`, a uint8 -/
  ub : Nat
  retries : Nat
  /-- the item has dependencies that are not met -/
  deps : Bool
deriving DecidableEq, Repr

/-- server.go:1866-1940, queue.go Add: a new job; client.go: `UntilBuried` is `Retries + 1` -/
def add (retries : Nat) (deps : Bool) : J :=
  { item := if deps then .dependent else .ready, ub := (retries + 1) % 256, retries := retries, deps := deps }

inductive Op where
  /-- the last dependency is met -/
  | depsMet
  /-- another job with one of the dependency groups is added -/
  | depsAdded
  /-- queue.go:1241-1263 -/
  | delayOver
  /-- serverCLI.go:231-262 -/
  | reserve
  /-- serverCLI.go:274-304 -/
  | start
  /-- server.go:1785-1800, the TTR callback: contact with a job that was started is lost; releasing it does not take the mark away -/
  | lose
  /-- serverCLI.go:305-343 -/
  | touch
  /-- serverCLI.go:391-424 -/
  | release (force : Bool)
  /-- server.go:2314-2338 -/
  | kick
  /-- serverCLI.go:344-390 -/
  | archive
deriving DecidableEq, Repr

/-- server.go:2077-2145: the decision to bury -/
def buries (j : J) (force : Bool) : Bool := force || (j.started && j.ub == 1)

/-- server.go:2121-2127, a uint8 -/
def ubAfter (j : J) (force : Bool) : Nat := if force then 0 else if j.started then (j.ub + 255) % 256 else j.ub

def step (j : J) : Op → Option J
  | .depsMet => if j.item = .dependent then some { j with item := .ready, deps := false } else some { j with deps := false }
  | .depsAdded => if j.item = .ready then some { j with item := .dependent, deps := true } else none
  | .delayOver => if j.item = .delay then some { j with item := .ready } else none
  | .reserve => if j.item = .ready then some { j with item := .run, started := false } else none
  | .start => if j.item = .run then some { j with started := true, lost := false, field := .running } else none
  | .lose => if j.item = .run ∧ j.started = true then some { j with lost := true } else none
  | .touch => if j.item = .run then some { j with lost := false } else none
  | .release force =>
    if j.item = .run then
      some { j with
        item := if buries j force then .bury else .delay
        ub := ubAfter j force
        field := if ubAfter j force = 0 then .buried else .delayed }
    else none
  | .kick =>
    if j.item = .bury then
      some { j with item := if j.deps then .dependent else .ready, ub := (j.retries + 1) % 256, field := .ready }
    else none
  | .archive => if j.item = .run ∧ j.started = true then some { j with item := .removed, field := .complete } else none

def run (j : J) : List Op → Option J
  | [] => some j
  | e :: es => (step j e).bind fun j => run j es

/-- job.go:88-96, serverCLI.go:772-780 and 855-857: the state in a listing of jobs -/
def listed (j : J) : St :=
  match j.item with
  | .delay => .delayed
  | .ready => .ready
  | .run => if j.lost then .lost else if j.started then .running else .reserved
  | .bury => .buried
  | .dependent => .dependent
  | .removed => .complete

/-- job.go:923-926: the state in pushed details -/
def told (j : J) : St := if j.field = .running ∧ j.lost = true then .lost else j.field

/-- what the proof needs -/
structure Inv (j : J) : Prop where
  ub : j.item ≠ .bury → j.item ≠ .removed → 1 ≤ j.ub ∧ j.ub ≤ 255
  delay : j.item = .delay → j.field = .delayed
  bury : j.item = .bury → j.field = .buried
  runs : j.item = .run → j.started = true → j.field = .running
  done : j.item = .removed → j.field = .complete
  retries : j.retries < 255

theorem inv_add (r : Nat) (d : Bool) (h : r < 255) : Inv (add r d) := by
  have : (r + 1) % 256 = r + 1 := Nat.mod_eq_of_lt (by omega)
  constructor <;> simp [add, this] <;> (try cases d <;> simp) <;> omega

set_option maxHeartbeats 1000000 in
theorem inv_step (j : J) (o : Op) (t : J) (h : Inv j) (hs : step j o = some t) : Inv t := by
  obtain ⟨item, field, started, lost, ub, retries, deps⟩ := j
  obtain ⟨h1, h2, h3, h4, h5, h7⟩ := h
  simp only at h1 h2 h3 h4 h5 h7
  have hr : (retries + 1) % 256 = retries + 1 := Nat.mod_eq_of_lt (by omega)
  cases o with
  | release force =>
    simp only [step] at hs
    split at hs
    · rename_i hi
      subst hi
      cases hs
      have hu := h1 (by simp) (by simp)
      cases force
      · cases started
        · have : ub ≠ 0 := by omega
          constructor <;> simp [buries, ubAfter, this]
          · omega
          · exact h7
        · by_cases hub : ub = 1
          · subst hub
            constructor <;> simp [buries, ubAfter]
            exact h7
          · have hm : (ub + 255) % 256 = ub - 1 := by omega
            have hz : ub - 1 ≠ 0 := by omega
            constructor <;> simp [buries, ubAfter, hub, hm]
            · omega
            · omega
            · exact h7
      · constructor <;> simp [buries, ubAfter]
        exact h7
    · cases hs
  | kick =>
    simp only [step] at hs
    split at hs
    · rename_i hi
      subst hi
      cases hs
      cases deps <;> constructor <;> simp [hr] <;> omega
    · cases hs
  | _ =>
    simp only [step] at hs
    split at hs <;> cases hs <;> constructor <;> cases item <;> simp_all

theorem inv_run (os : List Op) : ∀ (j t : J), Inv j → run j os = some t → Inv t := by
  induction os with
  | nil => intro j t h hr; simp [run] at hr; subst hr; exact h
  | cons o os ih =>
    intro j t h hr
    simp only [run] at hr
    cases h1 : step j o with
    | none => simp [h1] at hr
    | some u => simp [h1] at hr; exact ih u t (inv_step j o u h h1) hr

/-- **C117**, the state (partial: for ready, dependent and reserved jobs it is violated): the state in the details pushed to pages is the one
that listings give, for every delayed, buried, complete job, and for every job that has been started, lost or not. -/
theorem C117_state_partial (r : Nat) (d : Bool) (hr : r < 255) (os : List Op) (t : J) (h : run (add r d) os = some t)
    (ht : t.item = .delay ∨ t.item = .bury ∨ t.item = .removed ∨ (t.item = .run ∧ t.started = true)) : told t = listed t := by
  have hi := inv_run os _ t (inv_add r d hr) h
  rcases ht with ht | ht | ht | ht
  · simp [told, listed, hi.delay ht, ht]
  · simp [told, listed, hi.bury ht, ht]
  · simp [told, listed, hi.done ht, ht]
  · simp only [told, listed, hi.runs ht.1 ht.2, ht.1, ht.2]
    cases t.lost <;> simp

example : ∃ t, run (add 1 true) [.depsMet, .reserve, .start, .lose, .touch, .release false, .delayOver, .reserve, .start, .lose] = some t ∧
    told t = .lost ∧ listed t = .lost ∧ t.started = true := ⟨_, rfl, by decide, by decide, by decide⟩

/-- **C117**, violated by the code: when the delay of a job is over it is pushed to pages as delayed; and a new job whose dependencies are
met without a state. -/
theorem C117_violated_ready : (∃ t, run (add 3 false) [.reserve, .start, .release false, .delayOver] = some t ∧ listed t = .ready ∧
    told t = .delayed) ∧ (∃ t, run (add 3 true) [.depsMet] = some t ∧ listed t = .ready ∧ told t = .unset) :=
  ⟨⟨_, rfl, by decide, by decide⟩, ⟨_, rfl, by decide, by decide⟩⟩

/-- **C117**, violated by the code: a job that was reserved and is not started (the callback stops waiting for it) has the state from before;
the listing in turn says lost if it had been lost in an earlier attempt. -/
theorem C117_violated_reserved : ∃ t, run (add 3 false) [.reserve, .start, .lose, .release false, .delayOver, .reserve] = some t ∧
    listed t = .lost ∧ told t = .delayed ∧ t.started = false := ⟨_, rfl, by decide, by decide, by decide⟩

/-- **C117**, violated by the code: a kicked job that waits for dependencies is pushed as ready. -/
theorem C117_violated_kick : ∃ t, run (add 3 true) [.depsMet, .depsAdded, .depsMet, .reserve, .release true, .kick, .depsAdded] = some t ∧
    listed t = .dependent ∧ told t = .ready := ⟨_, rfl, by decide, by decide⟩

/-- **C117**, violated by the code: with 255 retries the counter of attempts left is 0 at first: a job that was released without having been
started is delayed in the queue, and buried in its details. -/
theorem C117_violated_255 : ∃ t, run (add 255 false) [.reserve, .release false] = some t ∧ listed t = .delayed ∧ told t = .buried :=
  ⟨_, rfl, by decide, by decide⟩

end Verif.Server.PushState
