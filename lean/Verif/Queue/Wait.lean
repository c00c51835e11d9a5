/-!
# Model of calls of Reserve that wait (`/repo/queue/queue.go:933-977`, `/repo/queue/subqueue.go:67-125, 197-206`)

The ready sub-queue, as a list of items with their reserve groups, and the calls of Reserve that wait, each with what it was
told so far. Items get ready and leave in any order; which of the waiting calls of a group is told of an item, and which item
a call takes, is left open (the first is the order of a Go map, the second is C02). Every step is done with the queue's lock or
the sub-queue's held.

Simplification: a queue that is destroyed is left out (calls then wait for their full time).
-/

namespace Verif.Queue.Wait

/-- What a call that found nothing at first is doing: it waits (its channel is in `pushNotificationChannels`), was told that
there is an item (true was sent), was told that its time is over (false was sent), returned an item, or returned
ErrNothingReady, which may be because its time was over or not. -/
inductive St
  | waiting
  | told
  | over
  | got (id : Nat)
  | nothing (over : Bool)
deriving DecidableEq, Repr

structure Waiter where
  group : String
  st : St := .waiting
deriving DecidableEq, Repr

structure S where
  ready : List (Nat × String) := []
  waiters : List Waiter := []
deriving DecidableEq, Repr

inductive Ev
  /-- an item is pushed to the ready sub-queue (in any way), and a waiting call is told of it, if any -/
  | push (id : Nat) (group : String) (w : Option Nat)
  /-- an item that is ready gets another group -/
  | regroup (id : Nat) (group : String) (w : Option Nat)
  /-- a call of Reserve that finds an item at once, or anything else that takes it from the sub-queue -/
  | take (id : Nat)
  /-- a call of Reserve that waits -/
  | wait (group : String)
  /-- the time of a waiting call is over -/
  | timeout (w : Nat)
  /-- a call that was told something goes on, and takes the item, if any -/
  | wake (w : Nat) (id : Option Nat)
deriving DecidableEq, Repr

def setSt (s : S) (w : Nat) (st : St) : List Waiter :=
  match s.waiters[w]? with
  | some x => s.waiters.set w { x with st := st }
  | none => s.waiters

/-- is this call waiting for an item of the group? -/
def isWaiting (g : String) (x : Waiter) : Bool := x.group = g ∧ x.st = .waiting

/-- subqueue.go:100-114 `triggerNotify`: one of the waiting calls of the group is told, if there is any; `none` if `w` is not
one of them -/
def trigger (s : S) (g : String) (w : Option Nat) : Option (List Waiter) :=
  match w with
  | some w => if (s.waiters[w]?).any (isWaiting g) then some (setSt s w .told) else none
  | none => if s.waiters.any (isWaiting g) then none else some s.waiters

def step (s : S) : Ev → Option S
  -- subqueue.go:117-125
  | .push i g w =>
    if (s.ready.map (·.1)).contains i then none
    else (trigger s g w).map fun ws => { ready := s.ready ++ [(i, g)], waiters := ws }
  -- subqueue.go:197-206
  | .regroup i g w =>
    if s.ready.any (fun p => p.1 = i ∧ p.2 ≠ g) then
      (trigger s g w).map fun ws => { ready := (s.ready.filter fun p => p.1 ≠ i) ++ [(i, g)], waiters := ws }
    else none
  | .take i =>
    if (s.ready.map (·.1)).contains i then some { s with ready := s.ready.filter fun p => p.1 ≠ i } else none
  -- queue.go:942-947, subqueue.go:67-80
  | .wait g =>
    if s.ready.any fun p => p.2 = g then none else some { s with waiters := s.waiters ++ [{ group := g }] }
  -- subqueue.go:82-94
  | .timeout w =>
    match s.waiters[w]? with
    | some ⟨_, .waiting⟩ => some { s with waiters := setSt s w .over }
    | _ => none
  -- queue.go:951-968
  | .wake w i =>
    match s.waiters[w]? with
    | some ⟨g, .told⟩ =>
      match i with
      | some i =>
        if s.ready.contains (i, g) then
          some { ready := s.ready.filter (fun p => p.1 ≠ i), waiters := setSt s w (.got i) }
        else none
      | none => if s.ready.any fun p => p.2 = g then none else some { s with waiters := setSt s w (.nothing false) }
    | some ⟨_, .over⟩ => if i = none then some { s with waiters := setSt s w (.nothing true) } else none
    | _ => none

def run (s : S) : List Ev → Option S
  | [] => some s
  | e :: es => (step s e).bind fun t => run t es

end Verif.Queue.Wait
