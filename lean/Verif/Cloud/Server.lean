/-!
# Cloud servers (cloud/server.go): space on a server and its destruction when idle

Simplifications: cores are exact numbers of thousandths of a core (the code uses float64 with the rounding helpers of
the `mth` package). A goroutine that sends on `cancelDestruction` is counted by `cancels`, as in the code; the channel itself, of which there is a
new one each time the server enters death row, is left out. A call of `Destroy` by the user is left out, as are ssh and the provider.
-/
namespace Verif.Cloud

/-- what a command needs; cores in thousandths -/
structure Req where
  cores : Int
  ram : Int
  disk : Int
  deriving DecidableEq, Repr

/-- server.go:66-72 `Flavor` -/
structure Flavor where
  cores : Int
  ram : Int
  disk : Int
  deriving DecidableEq, Repr

/-- internal/utils.go:49 `ZeroCoreMultiplier` -/
def zeroCoreMultiplier : Int := 2

/-- server.go:78-109 `Flavor.HasSpaceFor` -/
def Flavor.hasSpaceFor (f : Flavor) (r : Req) : Int :=
  if f.cores * 1000 < r.cores ∨ f.ram < r.ram ∨ f.disk < r.disk then 0
  else
    let can := if r.cores = 0 then f.cores * zeroCoreMultiplier else Int.fdiv (f.cores * 1000) r.cores
    if 1 < can then
      let can := if 0 < r.ram then (if Int.tdiv f.ram r.ram < can then Int.tdiv f.ram r.ram else can) else can
      if 0 < r.disk then (if Int.tdiv f.disk r.disk < can then Int.tdiv f.disk r.disk else can) else can
    else can

/-- where a goroutine of server.go:399-452 that holds the server on death row is: waiting in the select (419), having
received a cancellation (420) and before the lock (431), having seen the time run out (441) and before the lock (443),
or after it and before `Destroy` (447) -/
inductive Phase where
  | waiting | cancelled | timeUp | dying
  deriving DecidableEq, Repr

/-- server.go:113-156 `Server`. `idlers` counts the goroutines started by `Release` (399) that did not yet take the lock
(402). -/
structure Srv where
  flavor : Flavor
  disk : Int
  ttd : Bool := true
  usedCores : Int := 0
  usedZeroCores : Int := 0
  usedRAM : Int := 0
  usedDisk : Int := 0
  onDeathrow : Bool := false
  cancels : Int := 0
  toBeDestroyed : Bool := false
  destroyed : Bool := false
  idlers : Nat := 0
  rows : List Phase := []
  deriving DecidableEq, Repr

/-- server.go:479-488 how many commands that need no core can run at once -/
def zeroCap (s : Srv) : Int :=
  if s.flavor.cores = 0 then zeroCoreMultiplier * zeroCoreMultiplier else s.flavor.cores * zeroCoreMultiplier

/-- server.go:466-507 `checkSpace`, which is also `HasSpaceFor` (459-463) -/
def checkSpace (s : Srv) (r : Req) : Int :=
  if s.destroyed then 0
  else if s.flavor.cores * 1000 - s.usedCores < r.cores ∨ s.flavor.ram - s.usedRAM < r.ram ∨ s.disk - s.usedDisk < r.disk then 0
  else
    let can := if r.cores = 0 then zeroCap s - s.usedZeroCores else Int.fdiv (s.flavor.cores * 1000 - s.usedCores) r.cores
    if 1 < can then
      let n := Int.tdiv (s.flavor.ram - s.usedRAM) r.ram
      let can := if 0 < r.ram then (if n < can then n else can) else can
      let n := Int.tdiv (s.disk - s.usedDisk) r.disk
      if 0 < r.disk then (if n < can then n else can) else can
    else can

/-- server.go:329-360 `Allocate` -/
def allocate (s : Srv) (r : Req) : Srv × Bool :=
  if checkSpace s r = 0 then (s, false)
  else
    let s := if r.cores = 0 then { s with usedZeroCores := s.usedZeroCores + 1 } else { s with usedCores := s.usedCores + r.cores }
    let s := { s with usedRAM := s.usedRAM + r.ram, usedDisk := s.usedDisk + r.disk }
    (if s.onDeathrow then { s with cancels := s.cancels + 1 } else s, true)

/-- server.go:380-398 `Release` -/
def release (s : Srv) (r : Req) : Srv :=
  let s := if r.cores = 0 then { s with usedZeroCores := s.usedZeroCores - 1 } else { s with usedCores := s.usedCores - r.cores }
  let s := { s with usedRAM := s.usedRAM - r.ram, usedDisk := s.usedDisk - r.disk }
  if s.usedCores ≤ 0 ∧ s.usedZeroCores ≤ 0 ∧ s.usedRAM ≤ 0 ∧ s.ttd then { s with idlers := s.idlers + 1 } else s

/-- A server and the allocations made on it and not yet released. -/
structure St where
  srv : Srv
  out : List Req := []
  deriving DecidableEq, Repr

inductive Ev where
  | allocate (r : Req)
  | release (i : Nat)      -- the i-th outstanding allocation is released
  | enter                  -- a goroutine started by Release takes the lock
  | cancel (i : Nat)       -- goroutine i receives a cancellation
  | cancelled (i : Nat)    -- and deals with it
  | timeUp (i : Nat)       -- goroutine i sees that the time is up
  | mark (i : Nat)         -- and marks the server to be destroyed
  | destroy (i : Nat)      -- and calls Destroy
  deriving DecidableEq, Repr

def step (s : St) : Ev → Option St
  | .allocate r => match allocate s.srv r with
    | (s', true) => some ⟨s', s.out ++ [r]⟩
    | (_, false) => some s
  | .release i => match s.out[i]? with
    | some r => some ⟨release s.srv r, s.out.eraseIdx i⟩
    | none => none
  -- server.go:402-414
  | .enter =>
    if s.srv.idlers = 0 then none
    else
      let srv := { s.srv with idlers := s.srv.idlers - 1 }
      if srv.onDeathrow then some { s with srv := srv }
      else if 0 < srv.usedCores ∨ 0 < srv.usedRAM then some { s with srv := srv }
      else some { s with srv := { srv with onDeathrow := true, rows := srv.rows ++ [.waiting] } }
  -- server.go:420: possible if there is a goroutine that sends
  | .cancel i => if s.srv.rows[i]? = some .waiting ∧ 0 < s.srv.cancels then
      some { s with srv := { s.srv with rows := s.srv.rows.set i .cancelled } } else none
  -- server.go:431-440
  | .cancelled i => if s.srv.rows[i]? = some .cancelled then
      some { s with srv := { s.srv with cancels := 0, onDeathrow := false, rows := s.srv.rows.eraseIdx i } } else none
  -- server.go:441: Go chooses at random if there is a cancellation as well
  | .timeUp i => if s.srv.rows[i]? = some .waiting then some { s with srv := { s.srv with rows := s.srv.rows.set i .timeUp } } else none
  -- server.go:443-446
  | .mark i => if s.srv.rows[i]? = some .timeUp then
      some { s with srv := { s.srv with onDeathrow := false, toBeDestroyed := true, rows := s.srv.rows.set i .dying } } else none
  -- server.go:447 and 1271-1290
  | .destroy i => if s.srv.rows[i]? = some .dying then
      some { s with srv := { s.srv with toBeDestroyed := false, destroyed := true, rows := s.srv.rows.eraseIdx i } } else none

def run (s : St) : List Ev → Option St
  | [] => some s
  | e :: h => (step s e).bind fun s' => run s' h

/-- a server on which nothing has been allocated yet -/
def fresh (f : Flavor) (disk : Int) (ttd : Bool) : St := ⟨{ flavor := f, disk := disk, ttd := ttd }, []⟩

end Verif.Cloud
