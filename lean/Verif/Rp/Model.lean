/-!
# Model of the resource protector (`/repo/rp/protector.go`, `/repo/rp/request.go`)

A transition system. Each label is one critical section of one goroutine (a section under `p.mu` or `r.mu`, or one channel
operation), so a list of labels is one interleaving. `step` gives `none` when the labelled action cannot happen in that
state (a lock it needs is held, a channel it reads is empty, the time has not come).

Simplifications:
* receipts are numbered in the order of the `p.mu` sections of `Request` (the code uses UUIDs; the error of the UUID
  generator is not modelled);
* the clock is a natural number, advanced by `tick`; `time.After(d)` fires at any time at or after `d`;
* `ReleaseAfter` (protector.go:244-254) is a later `Release`; `SetAvailabilityCallback` is covered by letting every
  `process` run see any callback result, or none.
-/
namespace Verif.Rp

/-- Where the goroutine that manages a granted request is (protector.go:305-333): not started (the request is not granted),
in the `select` of a loop begun at a time, after the timeout case was chosen and before `finish()`, after `releaseCh` was
read or `finish()` returned and before the tokens are returned, ended. -/
inductive Phase where
  | idle | select (since : Nat) | limit | fin | returned
  deriving DecidableEq, Repr

/-- request.go:33-47 `request`. The four channels have a buffer of one: `true` means the buffer is full. `touchBlocked`: a
`touch()` is blocked sending on the full `touchCh`, and so holds `r.mu` (request.go:77-84). `waiter`: a caller is in the
`select` of `waitUntilGranted` (there is never more than one: `waiting`, `active` and `done` keep others out). -/
structure Req where
  tokens : Int
  active : Bool := false
  done : Bool := false
  waiting : Bool := false
  waiter : Bool := false
  grantedCh : Bool := false
  cancelCh : Bool := false
  releaseCh : Bool := false
  touchCh : Bool := false
  touchBlocked : Bool := false
  phase : Phase := .idle
  deriving DecidableEq, Repr

/-- protector.go:33-47 `Protector`. `req` holds every request ever made, `inMap` tells which are in `p.requests`.
`procs`, `repros`: the number of spawned `process` and `reprocess` goroutines that have not got the lock yet. `wake`: `some t`
if a `reprocess` is sleeping until `t` (exactly then `p.reprocessing` is true). `timers`: the receipts of the timeout
goroutines of `WaitUntilGranted` (the deadline of each is not kept: it may fire at any time). `stuck`: a goroutine is blocked
for ever while it holds `p.mu`. `now`: the clock. -/
structure State where
  max : Int
  delay : Nat
  timeout : Nat
  used : Int := 0
  pending : List Nat := []
  next : Nat := 0
  req : Nat → Req := fun _ => { tokens := 0 }
  inMap : Nat → Bool := fun _ => false
  disabled : Bool := false
  last : Option Nat := none
  procs : Nat := 0
  repros : Nat := 0
  wake : Option Nat := none
  timers : List Nat := []
  stuck : Bool := false
  now : Nat := 0

/-- protector.go:63-71 `New`. -/
def new (max : Int) (delay timeout : Nat) : State := { max := max, delay := delay, timeout := timeout }

def upd {α} (f : Nat → α) (i : Nat) (v : α) : Nat → α := fun j => if j = i then v else f j

/-- The critical sections. -/
inductive Label where
  /-- `Request(n)` -/
  | request (n : Int)
  /-- `WaitUntilGranted(r)` up to where it blocks or returns; `true`: with a timeout -/
  | wait (r : Nat) (timeout : Bool)
  /-- a timeout goroutine of `WaitUntilGranted(r, timeout)` -/
  | timer (r : Nat)
  /-- the blocked `WaitUntilGranted(r)` reads `grantedCh` and returns true -/
  | waitTrue (r : Nat)
  /-- the blocked `WaitUntilGranted(r)` reads `cancelCh` and returns false -/
  | waitFalse (r : Nat)
  | touch (r : Nat)
  | release (r : Nat)
  | shutdown
  /-- a `process` run; what the availability callback says, if there is one -/
  | process (avail : Option Int)
  /-- a spawned `reprocess` gets the lock -/
  | reprocess
  /-- the sleeping `reprocess` gets the lock again -/
  | awake
  /-- the managing goroutine of `r` chooses the timeout case -/
  | goLimit (r : Nat)
  /-- it runs `r.finish()` -/
  | goFinish (r : Nat)
  /-- it reads `releaseCh` -/
  | goRelease (r : Nat)
  /-- it reads `touchCh` -/
  | goTouch (r : Nat)
  /-- it returns the tokens -/
  | goReturn (r : Nat)
  | tick (d : Nat)
  deriving DecidableEq, Repr

/-- protector.go:104-140 `Request`. -/
def request (s : State) (n : Int) : State :=
  if s.max < n then s
  else if s.disabled then s
  else
    let s' := { s with
      pending := s.pending ++ [s.next], next := s.next + 1
      req := upd s.req s.next { tokens := n }, inMap := upd s.inMap s.next true }
    if s.last = none ∧ s'.pending.length = 1 then { s' with procs := s.procs + 1 } else { s' with repros := s.repros + 1 }

/-- protector.go:154-181 `WaitUntilGranted` and request.go:52-63, up to the blocking `select`. -/
def wait (s : State) (r : Nat) (timeout : Bool) : State :=
  if s.inMap r then
    let s := if timeout then { s with timers := r :: s.timers } else s
    let q := s.req r
    if q.done || q.waiting then s
    else if q.active then s
    else { s with req := upd s.req r { q with waiting := true, waiter := true } }
  else s

/-- protector.go:161-175: the timeout goroutine. Sending on a full `cancelCh` blocks with `p.mu` held. -/
def timer (s : State) (r : Nat) : State :=
  let s := { s with timers := s.timers.erase r }
  let q := s.req r
  if q.active && !q.done then s
  else
    let s := { s with pending := s.pending.erase r, inMap := upd s.inMap r false }
    if q.cancelCh then { s with stuck := true } else { s with req := upd s.req r { q with cancelCh := true } }

/-- request.go:77-84 `touch`. -/
def touch (q : Req) : Req :=
  if !q.active || q.done then q
  else if q.touchCh then { q with touchBlocked := true } else { q with touchCh := true }

/-- request.go:88-96 `release` (it sets `done`, so it sends at most once and never blocks). -/
def release (q : Req) : Req :=
  if !q.active || q.done then q else { q with done := true, releaseCh := true }

/-- request.go:99-107 `grant`. -/
def grant (q : Req) : Req :=
  if q.waiting then { q with active := true, waiting := false, grantedCh := true } else { q with active := true }

/-- protector.go:280-283 with `availableTokens` 374-383: there is a callback and it reports too few tokens. -/
def short (max : Int) (avail : Option Int) (tokens : Int) : Bool :=
  match avail with
  | some a => decide ((if a > max then max else a) < tokens)
  | none => false

/-- protector.go:273-340 `process`. -/
def process (s : State) (avail : Option Int) : State :=
  match s.pending with
  | [] => s
  | r :: rest =>
    if s.used = s.max then s
    else
      let q := s.req r
      if short s.max avail q.tokens then { s with last := some s.now, repros := s.repros + 1 }
      else if q.tokens > 1 ∧ s.max - s.used < q.tokens then s
      else { s with
        pending := rest, used := s.used + q.tokens, last := some s.now
        req := upd s.req r { grant q with phase := .select s.now }
        repros := if rest = [] then s.repros else s.repros + 1 }

/-- protector.go:344-362 `reprocess`, up to its sleep or, without one, up to the call of `process`. -/
def reprocess (s : State) : State :=
  match s.wake with
  | some _ => s
  | none =>
    match s.last with
    | none => { s with wake := some (s.now + s.delay) }
    | some t => if s.now - t < s.delay then { s with wake := some (s.now + (s.delay - (s.now - t))) } else { s with procs := s.procs + 1 }

/-- protector.go:259-268 `Shutdown`. -/
def shutdown (s : State) : State :=
  { s with disabled := true, req := fun r => if s.inMap r then release (s.req r) else s.req r, inMap := fun _ => false, used := 0 }

/-- protector.go:320-331: the managing goroutine returns the tokens. -/
def giveBack (s : State) (r : Nat) : State :=
  { s with
    used := s.used - (s.req r).tokens, inMap := upd s.inMap r false, req := upd s.req r { s.req r with phase := .returned }
    repros := if s.pending = [] then s.repros else s.repros + 1 }

/-- One critical section. A section under `p.mu` needs `¬ stuck`; one under `r.mu` needs `¬ touchBlocked`. -/
def step (s : State) : Label → Option State
  | .request n => if s.stuck then none else some (request s n)
  | .wait r t => if s.stuck || (s.inMap r && (s.req r).touchBlocked) then none else some (wait s r t)
  | .timer r => if s.stuck || !s.timers.contains r || (s.req r).touchBlocked then none else some (timer s r)
  -- request.go:64-65
  | .waitTrue r =>
    if (s.req r).waiter && (s.req r).grantedCh then
      some { s with req := upd s.req r { s.req r with grantedCh := false, waiter := false } }
    else none
  -- request.go:66-71
  | .waitFalse r =>
    if (s.req r).waiter && (s.req r).cancelCh && !(s.req r).touchBlocked then
      some { s with req := upd s.req r { s.req r with cancelCh := false, done := true, waiting := false, waiter := false } }
    else none
  -- protector.go:215-228, 233-240: the request is looked up under `p.mu`, then `r.mu` is taken
  | .touch r => if s.stuck || (s.inMap r && (s.req r).touchBlocked) then none else
      some (if s.inMap r then { s with req := upd s.req r (touch (s.req r)) } else s)
  | .release r => if s.stuck || (s.inMap r && (s.req r).touchBlocked) then none else
      some (if s.inMap r then { s with req := upd s.req r (release (s.req r)) } else s)
  | .shutdown => if s.stuck || (List.range s.next).any (fun r => s.inMap r && (s.req r).touchBlocked) then none else some (shutdown s)
  | .process a => if s.stuck || s.procs = 0 then none else some (process { s with procs := s.procs - 1 } a)
  | .reprocess => if s.stuck || s.repros = 0 then none else some (reprocess { s with repros := s.repros - 1 })
  | .awake =>
    match s.wake with
    | some t => if s.stuck || decide (s.now < t) then none else some { s with wake := none, procs := s.procs + 1 }
    | none => none
  | .goLimit r =>
    match (s.req r).phase with
    | .select since => if since + s.timeout ≤ s.now then some { s with req := upd s.req r { s.req r with phase := .limit } } else none
    | _ => none
  | .goFinish r =>
    if (s.req r).phase = .limit && !(s.req r).touchBlocked then
      some { s with req := upd s.req r { s.req r with phase := .fin, done := true } } else none
  | .goRelease r =>
    match (s.req r).phase with
    | .select _ => if (s.req r).releaseCh then some { s with req := upd s.req r { s.req r with phase := .fin, releaseCh := false } } else none
    | _ => none
  | .goTouch r =>
    match (s.req r).phase with
    | .select _ => if (s.req r).touchCh then
        some { s with req := upd s.req r { s.req r with phase := .select s.now, touchCh := (s.req r).touchBlocked, touchBlocked := false } } else none
    | _ => none
  | .goReturn r => if s.stuck || (s.req r).phase ≠ .fin then none else some (giveBack s r)
  | .tick d => some { s with now := s.now + d }

/-- protector.go:193-205 `Granted`. -/
def granted (s : State) (r : Nat) : Bool × Bool :=
  if s.inMap r then
    if (s.req r).active && !(s.req r).done then (true, false) else (false, !(s.req r).done)
  else (false, false)

/-- An interleaving. -/
def run (s : State) : List Label → Option State
  | [] => some s
  | l :: ls => (step s l).bind (run · ls)

end Verif.Rp
