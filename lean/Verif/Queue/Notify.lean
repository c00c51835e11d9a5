/-!
# The ready-added callback (queue/queue.go 245-310)

The flags `readyAddedCbRunning` and `readyAddedCbRecall` and the goroutines of `readyAdded`, each section protected by
`readyAddedCbMutex` being one atomic step.  The ready sub-queue is here just a list of items; that every operation that
puts an item in it calls `readyAdded` afterwards is theorem `C12_noticed` about the queue model.

Simplifications: the callback is set before the first item is added (`SetReadyAddedCallback` writes it without a lock);
logging and the length of `recallBreak` are left out: a waiting goroutine may wake at any time.
-/

namespace Verif.Queue.Notify

/-- What an observer of the queue and of the callback sees. -/
inductive Ev
  /-- an item was put in the ready sub-queue -/
  | became (i : Nat)
  /-- an item left the ready sub-queue -/
  | left (i : Nat)
  /-- a callback run started, with these items -/
  | started (items : List Nat)
  /-- a callback run returned -/
  | ended
deriving DecidableEq, Repr

/-- Where a goroutine started at queue.go:276 is. -/
inductive Phase
  /-- started, ready items not collected yet (277) -/
  | snap
  /-- in the callback (286) -/
  | inCb
  /-- the callback returned, flags not looked at yet (289) -/
  | fin
  /-- waiting for `recallBreak` (301) -/
  | wait
deriving DecidableEq, Repr

/-- `readyAddedCbRunning`, `readyAddedCbRecall` (queue.go:187-188), the ready items, the calls of `readyAdded` that have
not got the lock at 267 yet, the goroutines, and the history of events (a ghost). -/
structure St where
  running : Bool := false
  recall : Bool := false
  ready : List Nat := []
  calls : Nat := 0
  gs : List Phase := []
  log : List Ev := []
deriving DecidableEq, Repr

/-- A step: an operation of the queue that makes an item ready (and then calls `readyAdded`) or takes one out,
`TriggerReadyAddedCallback`, or the next atomic section of a call or of goroutine `n`. -/
inductive Op
  | ready (i : Nat)
  | leave (i : Nat)
  | trigger
  | call
  | go (n : Nat)
deriving DecidableEq, Repr

/-- One step; `none` if it is not possible.
`call` is queue.go:267-276, `go` is 277-286, the return of the callback, 289-296, 301-306 according to the phase; the
deferred call at 305 is a new pending call. -/
def step (s : St) : Op → Option St
  | .ready i => some { s with ready := i :: s.ready, calls := s.calls + 1, log := s.log ++ [.became i] }
  | .leave i => if i ∈ s.ready then some { s with ready := s.ready.filter (· ≠ i), log := s.log ++ [.left i] } else none
  | .trigger => some { s with calls := s.calls + 1 }
  | .call =>
    if s.calls = 0 then none
    else if s.running then some { s with calls := s.calls - 1, recall := true }
    else some { s with calls := s.calls - 1, running := true, gs := s.gs ++ [.snap] }
  | .go n =>
    match s.gs[n]? with
    | none => none
    | some .snap => some { s with gs := s.gs.set n .inCb, log := s.log ++ [.started s.ready] }
    | some .inCb => some { s with gs := s.gs.set n .fin, log := s.log ++ [.ended] }
    | some .fin =>
      if s.recall then some { s with gs := s.gs.set n .wait }
      else some { s with running := false, gs := s.gs.eraseIdx n }
    | some .wait =>
      some { s with running := false, recall := false, gs := s.gs.eraseIdx n, calls := s.calls + 1 }

/-- A history of steps. -/
def run (s : St) : List Op → Option St
  | [] => some s
  | o :: os => (step s o).bind (run · os)

/-- Whether a step belongs to the queue itself (a call or goroutine going on) rather than to its users. -/
def Op.internal : Op → Bool
  | .call | .go _ => true
  | _ => false

end Verif.Queue.Notify
