/-!
# What locks do to calls that run at the same time

A small machine for the locks (`sync.Mutex`, `sync.RWMutex` of Go's standard library) of the server, its queue, its database and the
local scheduler. A call is known only by the locks it takes: `Prog` says in which order, which inside which. Everything else that a
call does (computing, writing to files, sending on channels) is left out: it is taken to end. `Verif/Server/LockCode.lean` has the
programs of the functions in /repo.

Any number of calls run at the same time; `start` begins one, `step` lets one of them go on. Every choice that depends on data (which
branch, how often round a loop, which of many locks of a kind) is left open, so what is proved holds for whatever the data are.
-/
namespace Verif.Server.Locks

/-- What a call does with locks. `lock l w up body`: take a lock of kind `l`, for writing if `w` (`Lock`), else for reading
    (`RLock`), do `body` and give it back; with `up` it is one with a higher number than those of the same kind that the call has
    already (queue/subqueue.go:272-283 takes two items' locks in the order of `iid`). `stop`: the call has returned without giving
    back the locks it had taken. -/
inductive Prog (L : Type) where
  | skip
  | lock (l : L) (w up : Bool) (body : Prog L)
  | seq (p q : Prog L)
  | alt (p q : Prog L)
  | many (p : Prog L)
  | stop
  deriving DecidableEq

/-- One lock: its kind, and which of that kind (there is a lock for each job, for each item, …). -/
structure Key (L : Type) where
  cls : L
  inst : Nat
  deriving DecidableEq

/-- What a call has still to do, innermost first: run a program; wait for a lock and then do `body`; give a lock back. -/
inductive Frame (L : Type) where
  | run (p : Prog L)
  | want (k : Key L) (w : Bool) (body : Prog L)
  | rel (k : Key L) (w : Bool)
  deriving DecidableEq

/-- A call under way; `[]` when it has returned. -/
abbrev Thread (L : Type) := List (Frame L)

/-- All calls, finished ones too. -/
abbrev State (L : Type) := List (Thread L)

variable {L : Type} [DecidableEq L]

/-- The locks that a call has, and if it has them for writing. -/
def held : Thread L → List (Key L × Bool)
  | [] => []
  | .rel k w :: f => (k, w) :: held f
  | _ :: f => held f

/-- The lock a call is waiting for. -/
def wants : Thread L → Option (Key L × Bool)
  | .want k w _ :: _ => some (k, w)
  | _ => none

/-- What a call does next where the program leaves it open. -/
inductive Ch where
  | go
  | left
  | right
  | inst (i : Nat)
  deriving DecidableEq

/-- One step of a call; `grant` says which locks it would get. -/
def advance (grant : Key L → Bool → Bool) : Thread L → Ch → Option (Thread L)
  | .run .skip :: f, .go => some f
  | .run (.seq p q) :: f, .go => some (.run p :: .run q :: f)
  | .run (.alt p _) :: f, .left => some (.run p :: f)
  | .run (.alt _ q) :: f, .right => some (.run q :: f)
  | .run (.many p) :: f, .left => some (.run p :: .run (.many p) :: f)
  | .run (.many _) :: f, .right => some f
  | .run (.lock l w up b) :: f, .inst i =>
    if up && (held f).any (fun h => decide (h.1.cls = l) && decide (i ≤ h.1.inst)) then none else some (.want ⟨l, i⟩ w b :: f)
  | .want k w b :: f, .go => if grant k w then some (.run b :: .rel k w :: f) else none
  | .rel _ _ :: f, .go => some f
  | _, _ => none

/-- A lock can be had for writing if nobody has it, for reading if nobody has it for writing. -/
def free (s : State L) (k : Key L) (w : Bool) : Bool :=
  s.all fun f => (held f).all fun h => !(decide (h.1 = k) && (w || h.2))

/-- A lock will be had for sure if it is free and, for reading, nobody waits to have it for writing: `RLock` of `sync.RWMutex` waits
    behind a `Lock` that is waiting, and does not if it came first. -/
def sure (s : State L) (k : Key L) (w : Bool) : Bool :=
  free s k w && (w || s.all fun f => !decide (wants f = some (k, true)))

inductive Ev where
  /-- a call of the `n`-th function begins -/
  | start (n : Nat)
  /-- the `t`-th call does a step -/
  | step (t : Nat) (c : Ch)
  deriving DecidableEq

/-- What happens: any call goes on that can. A reader that came before a waiting writer gets the lock, so all that `free` allows is
    allowed here. -/
def step (code : List (Prog L)) (s : State L) : Ev → Option (State L)
  | .start n => (code[n]?).map fun p => s ++ [[.run p]]
  | .step t c =>
    match s[t]? with
    | none => none
    | some f => (advance (free s) f c).map fun f' => s.set t f'

def run (code : List (Prog L)) : State L → List Ev → Option (State L)
  | s, [] => some s
  | s, e :: es => (step code s e).bind fun s' => run code s' es

/-! ## The property -/

/-- The call `t` can go on, whatever the others do. -/
def CanGo (s : State L) (t : Nat) : Prop := ∃ f c f', s[t]? = some f ∧ advance (sure s) f c = some f'

/-- The call `t` waits for the call `u`: `u` has the lock that `t` wants, or it waits to write what `t` wants to read. -/
def Waits (s : State L) (t u : Nat) : Prop :=
  ∃ f g k w, s[t]? = some f ∧ s[u]? = some g ∧ wants f = some (k, w) ∧
    ((∃ w', (k, w') ∈ held g ∧ (w || w') = true) ∨ (w = false ∧ wants g = some (k, true)))

/-- `Waits` through any number of others. -/
inductive Chain (s : State L) : Nat → Nat → Prop where
  | here (t) : Chain s t t
  | next {t u v} : Waits s t u → Chain s u v → Chain s t v

/-- Waiting for oneself through others. -/
def Circle (s : State L) (t : Nat) : Prop := ∃ u, Waits s t u ∧ Chain s u t

/-- No call is stuck: each one that has not returned can go on, or waits (through others, perhaps) for one that can. -/
def NoDeadlock (s : State L) : Prop := ∀ t f, s[t]? = some f → f ≠ [] → ∃ u, Chain s t u ∧ CanGo s u

/-- The call `t` never does another step. -/
def StuckForEver (code : List (Prog L)) (s : State L) (t : Nat) : Prop :=
  (∃ f, s[t]? = some f ∧ f ≠ []) ∧ ∀ es s', run code s es = some s' → s'[t]? = s[t]?

end Verif.Server.Locks
