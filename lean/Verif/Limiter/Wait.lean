import Verif.Limiter.Lemmas
/-!
# `Increment` with a wait (`/repo/limiter/limiter.go:117-151`, `/repo/limiter/group.go:299-351`), property C143

The groups are those of `Limiter/Model.lean`; `notes` are the channels that `notifyDecrement` put in the group object of a name.
Simplifications: channels are numbers, and a channel either has a message or not; the goroutine that sends on the channels of a group
is taken to have done so at once (each channel has room for all messages it can get, limiter.go:130); one clock reading per call. Each
operation is what happens under one hold of the limiter's lock.
-/
namespace Verif.Limiter.Wait
open Verif.Limiter

/-- a call of `Increment` that waits, and its channel -/
structure Waiter where
  id : Nat
  names : List String
  ch : Nat
  deriving DecidableEq, Repr

structure WS where
  mem : Groups := fun _ => none
  /-- group.go:234 `toNotify` -/
  notes : String → List Nat := fun _ => []
  /-- the channels that have a message -/
  msg : Nat → Bool := fun _ => false
  waiting : List Waiter := []
  next : Nat := 0

/-- set one value of a function -/
def upd {α β : Type} [DecidableEq α] (f : α → β) (a : α) (b : β) : α → β := fun x => if x = a then b else f x

inductive WOp where
  /-- `Increment` without a wait -/
  | tryInc (c : Clock) (names : List String)
  /-- `Increment` with a wait -/
  | inc (c : Clock) (id : Nat) (names : List String)
  /-- the waiting call gets a message -/
  | wake (c : Clock) (id : Nat)
  /-- its time is up -/
  | timeout (id : Nat)
  | dec (names : List String)
  | setLimit (n : String) (d : GroupData)
  | removeLimit (n : String)

/-- limiter.go:197-204 `registerGroupNotifications` with group.go:347-351 `notifyDecrement`. -/
def register (cb : Callback) (ch : Nat) (mem : Groups) (notes : String → List Nat) : List String → Groups × (String → List Nat)
  | [] => (mem, notes)
  | n :: ns =>
    match vivify cb mem n with
    | (mem', some g) => register cb ch mem' (if g.isCount then upd notes n (notes n ++ [ch]) else notes) ns
    | (mem', none) => register cb ch mem' notes ns

/-- limiter.go:213-224 `Decrement` with group.go:301-328 `decrement`. -/
def decW (mem : Groups) (notes : String → List Nat) (msg : Nat → Bool) : List String → Groups × (String → List Nat) × (Nat → Bool)
  | [] => (mem, notes, msg)
  | n :: ns =>
    match mem n with
    | none => decW mem notes msg ns
    | some g =>
      let mem' := put mem n (if g.decrement.2 then none else some g.decrement.1)
      if g.isCount = true ∧ g.current ≠ 0 then decW mem' (upd notes n []) (fun ch => msg ch || (notes n).contains ch) ns
      else decW mem' (if g.decrement.2 then upd notes n [] else notes) msg ns

/-- limiter.go:125-151: an attempt of a waiting call; if it fails the call waits with a new channel. -/
def attempt (cb : Callback) (s : WS) (c : Clock) (id : Nat) (names : List String) : WS × Bool :=
  match increment c cb s.mem names with
  | (mem, true) => ({ s with mem := mem }, true)
  | (mem, false) =>
    let r := register cb s.next mem s.notes names
    ({ s with mem := r.1, notes := r.2, waiting := { id := id, names := names, ch := s.next } :: s.waiting, next := s.next + 1 }, false)

/-- One operation; the flag is if slots were taken. -/
def wstep (cb : Callback) (s : WS) : WOp → WS × Bool
  | .tryInc c names => let r := increment c cb s.mem names; ({ s with mem := r.1 }, r.2)
  | .inc c id names => if s.waiting.any (·.id = id) then (s, false) else attempt cb s c id names
  | .wake c id =>
    match s.waiting.find? (·.id = id) with
    | none => (s, false)
    | some w => if s.msg w.ch then attempt cb { s with waiting := s.waiting.erase w } c id w.names else (s, false)
  | .timeout id => ({ s with waiting := s.waiting.filter (·.id ≠ id) }, false)
  | .dec names => let r := decW s.mem s.notes s.msg names; ({ s with mem := r.1, notes := r.2.1, msg := r.2.2 }, false)
  | .setLimit n d => ({ s with mem := setLimit s.mem n d }, false)
  | .removeLimit n => ({ s with mem := removeLimit s.mem n, notes := upd s.notes n [] }, false)

def wrun (cb : Callback) : WS → List WOp → WS
  | s, [] => s
  | s, o :: os => wrun cb (wstep cb s o).1 os

end Verif.Limiter.Wait
