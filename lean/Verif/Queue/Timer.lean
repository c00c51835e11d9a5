/-!
# Model of the goroutines that watch the delay and run sub-queues (`/repo/queue/queue.go:1221-1379`)

The goroutine for the delay sub-queue (1221-1275) and the one for the run sub-queue (1288-1367) wait in the same way, and the
calls that put items in these sub-queues wake them in the same way (1277-1286, 1369-1378): this is one model for either. In
the first case the time an item is due is when it gets ready, and its delay is the delay; in the second it is when it is to be
released, and its delay is its time to release.

Threads: the goroutine, and the calls that are between having put an item in the sub-queue and returning. A step ends where the
code releases the queue's lock or sends to or receives from a channel; steps interleave in any way, and time passes between them
in any way. What happens in the rest of the queue is in `Queue/Model`.

Simplifications: the clock is read once in each step; `AddMany` is given new, different keys; durations are not negative; the
order of the heap is that its first item is the one due first (C13); `time.After` never fires early.

`slack` and `call` of an entry are not in the code: they record how long after an item was put the call that did it looked at
the time when the goroutine wakes.
-/

namespace Verif.Queue.Timer

/-- An item in the sub-queue: when its time was set (item.go:257-269), when it is due, and two records (see above). -/
structure Entry where
  id : Nat
  set : Nat
  due : Nat
  slack : Nat := 0
  call : Option Nat := none
deriving DecidableEq, Repr

/-- Where a call is: about to look at when the goroutine wakes (queue.go:1278), about to send (1281), waiting for the answer
(1282), or done. -/
inductive Phase
  | checking
  | sending
  | waiting
  | done
deriving DecidableEq, Repr

structure Call where
  id : Nat
  phase : Phase := .checking
deriving DecidableEq, Repr

/-- Where the goroutine is: about to compute when to wake (queue.go:1224), with `sendStarted` as given; about to send that it
did (1235); in the select (1238); or ended (1272). -/
inductive Proc
  | compute (send : Bool)
  | announce
  | sleep
  | ended
deriving DecidableEq, Repr

/-- queue.go:161-186 `Queue`, as far as it matters. `delays` are the fields of the items; `wake` is `delayTime` or `ttrTime`;
`buf` whether there is a message in the channel for notifications (capacity 1, 206 and 210); `closing` whether the queue was
destroyed. -/
structure S where
  now : Nat := 0
  delays : Nat → Nat := fun _ => 0
  entries : List Entry := []
  wake : Nat := 0
  proc : Proc := .compute false
  buf : Bool := false
  closing : Bool := false
  calls : List Call := []

inductive Ev
  | tick (n : Nat)
  /-- Add, Release, SetDelay, Reserve, Touch, or the other goroutine moving an item -/
  | put (id delay : Nat)
  | many (l : List (Nat × Nat))
  | update (id delay : Nat)
  | remove (id : Nat)
  | check (c : Nat)
  | send (c : Nat)
  | compute
  | announce (c : Nat)
  | fire
  | receive
  | destroy
  | stop
deriving DecidableEq, Repr

/-- 1 hour, in milliseconds (queue.go:1229, 1296) -/
def hour : Nat := 3600000

def setDelay (f : Nat → Nat) (i d : Nat) : Nat → Nat := fun x => if x = i then d else f x

/-- the earliest time that an item is due -/
def earliest : List Entry → Option Nat
  | [] => none
  | e :: es =>
    match earliest es with
    | none => some e.due
    | some m => some (if e.due ≤ m then e.due else m)

/-- queue.go:1225-1232: when to wake -/
def wakeTime (s : S) : Nat :=
  match earliest s.entries with
  | some m => m
  | none => s.now + hour

/-- items are put in the sub-queue, at the time it is, by the given call -/
def place (s : S) (call : Option Nat) (l : List (Nat × Nat)) : List Entry :=
  (s.entries.filter fun e => ¬ (l.map (·.1)).contains e.id) ++
    l.map fun p => { id := p.1, set := s.now, due := s.now + p.2, call := call }

/-- queue.go:591, 1279: would the goroutine wake only after the item is due? -/
def tooLate (s : S) (d : Nat) : Bool := s.wake > s.now + d

def setCall (s : S) (c : Nat) (ph : Phase) : List Call :=
  match s.calls[c]? with
  | some k => s.calls.set c { k with phase := ph }
  | none => s.calls

/-- One step; `none` if it is not possible now. -/
def step (s : S) : Ev → Option S
  | .tick n => some { s with now := s.now + n }
  -- queue.go:423-479, 850-876, 966-973, 1004-1007, 1045-1049, 1325-1330
  | .put i d =>
    if s.closing then none
    else some { s with
      delays := setDelay s.delays i d
      entries := place s (some s.calls.length) [(i, d)]
      calls := s.calls ++ [{ id := i }] }
  -- queue.go:532-619: only the first item that is due before the goroutine wakes makes the call look again when it is done
  | .many l =>
    if s.closing ∨ ¬ (l.map (·.1)).Nodup ∨ (l.any fun p => (s.entries.map (·.id)).contains p.1) then none
    else
      let delays := l.foldl (fun f p => setDelay f p.1 p.2) s.delays
      match l.find? fun p => tooLate s p.2 with
      | some j => some { s with delays := delays, entries := place s (some s.calls.length) l, calls := s.calls ++ [{ id := j.1 }] }
      | none => some { s with delays := delays, entries := place s none l }
  -- queue.go:755-763, 773-781: the goroutine is not woken
  | .update i d =>
    if s.closing ∨ s.delays i = d then none
    else some { s with
      delays := setDelay s.delays i d
      entries := s.entries.map fun e => if e.id = i then { e with set := s.now, due := s.now + d } else e }
  | .remove i => if s.closing then none else some { s with entries := s.entries.filter fun e => e.id ≠ i }
  -- queue.go:1278-1280, 1283-1285
  | .check c =>
    match s.calls[c]? with
    | some ⟨i, .checking⟩ =>
      if tooLate s (s.delays i) then some { s with calls := setCall s c .sending }
      else some { s with
        calls := setCall s c .done
        entries := s.entries.map fun e => if e.call = some c then { e with slack := s.now - e.set } else e }
    | _ => none
  -- queue.go:1281: blocks while the channel is full
  | .send c =>
    match s.calls[c]? with
    | some ⟨_, .sending⟩ => if s.buf then none else some { s with buf := true, calls := setCall s c .waiting }
    | _ => none
  -- queue.go:1224-1236
  | .compute =>
    match s.proc with
    | .compute send => some { s with wake := wakeTime s, proc := if send then .announce else .sleep }
    | _ => none
  -- queue.go:1235 and 1282
  | .announce c =>
    match s.proc, s.calls[c]? with
    | .announce, some ⟨_, .waiting⟩ => some { s with proc := .sleep, calls := setCall s c .done }
    | _, _ => none
  -- queue.go:1239-1266: all items that are due leave (item.go:272-286)
  | .fire =>
    if s.proc = .sleep ∧ s.wake ≤ s.now then
      some { s with proc := .compute false, entries := s.entries.filter fun e => ¬ e.due < s.now }
    else none
  -- queue.go:1267-1269
  | .receive =>
    if s.proc = .sleep ∧ s.buf then some { s with proc := .compute true, buf := false } else none
  -- queue.go:348-365
  | .destroy => if s.closing then none else some { s with closing := true, entries := [] }
  -- queue.go:1270-1271
  | .stop => if s.proc = .sleep ∧ s.closing then some { s with proc := .ended } else none

/-- queue.go:213-217: the queue is new, and the goroutine sleeps -/
def init : S := { wake := hour, proc := .sleep }

def run (s : S) : List Ev → Option S
  | [] => some s
  | e :: es => (step s e).bind fun t => run t es

end Verif.Queue.Timer
