/-!
# Model of the limiter package (`/repo/limiter/limiter.go`, `/repo/limiter/group.go`)

Simplifications:
* `int64` values are unbounded integers (counts stay below limits, limits come from `ParseInt`).
* The clock and the callback given to `New` are parameters of every call; one clock reading is used for all groups of one
  call (the code reads it once per time-window group).
* The waiting variant of `Increment` (limiter.go:125-151) is, as far as counts are concerned, a sequence of the attempts
  modelled by `increment` at the moments it is woken; the notification channels are not part of this state (they are
  not modelled here).
-/
namespace Verif.Limiter

/-- group.go:33-42 `groupMode`. -/
inductive Mode where
  | unknown | count | beforeTime | afterTime | betweenTimes | beforeDateTime | afterDateTime | betweenDateTimes
  deriving DecidableEq, Repr

/-- group.go:45-49 `GroupData`; for time windows `current` is the start and `limit` the end. -/
structure GroupData where
  mode : Mode := .unknown
  limit : Int := 0
  current : Int := 0
  deriving DecidableEq, Repr

/-- group.go:202-208 `NewCountGroupData`. -/
def newCount (limit : Int) : GroupData := if limit < 0 then {} else { mode := .count, limit := limit }

/-- group.go:211-213 `IsCount`. -/
def GroupData.isCount (g : GroupData) : Bool := g.mode = .count

/-- group.go:216-218 `IsValid` (of a non-nil pointer). -/
def GroupData.isValid (g : GroupData) : Bool := g.mode ≠ .unknown

/-- The two clock readings used: group.go:283-288 `secondsInDay()` and `time.Now().Unix()`. -/
structure Clock where
  secs : Int
  unix : Int

/-- group.go:254-281 `canIncrement`. -/
def GroupData.canIncrement (c : Clock) (g : GroupData) : Bool :=
  match g.mode with
  | .count => g.current < g.limit
  | .beforeTime => c.secs < g.limit
  | .afterTime => c.secs > g.current
  | .betweenTimes =>
    if g.current > g.limit then g.limit < c.secs ∧ c.secs < g.current else g.current < c.secs ∧ c.secs < g.limit
  | .beforeDateTime => c.unix < g.limit
  | .afterDateTime => c.unix > g.current
  | .betweenDateTimes => g.current < c.unix ∧ c.unix < g.limit
  | .unknown => false

/-- group.go:293-297 `increment`. -/
def GroupData.increment (g : GroupData) : GroupData := if g.isCount then { g with current := g.current + 1 } else g

/-- group.go:301-328 `decrement`: the new value and whether the group is now unused. -/
def GroupData.decrement (g : GroupData) : GroupData × Bool :=
  if ¬ g.isCount then (g, false)
  else if g.current = 0 then (g, true)
  else ({ g with current := g.current - 1 }, g.current - 1 < 1)

/-- group.go:332-342 `capacity`. -/
def GroupData.capacity (c : Clock) (g : GroupData) : Int :=
  if g.canIncrement c then (if g.isCount then g.limit - g.current else -1) else 0

/-- group.go:246-250 `setLimit`. -/
def GroupData.setLimit (g : GroupData) (limit : Int) : GroupData := if g.isCount then { g with limit := limit } else g

/-- limiter.go:39-43 `Limiter`: the groups in memory. -/
abbrev Groups := String → Option GroupData

/-- limiter.go:36 the callback; `none` stands for nil. -/
abbrev Callback := String → Option GroupData

def put (s : Groups) (n : String) (v : Option GroupData) : Groups := fun x => if x = n then v else s x

/-- limiter.go:54-63 `SetLimit`. -/
def setLimit (s : Groups) (n : String) (d : GroupData) : Groups :=
  match s n with
  | some g => put s n (some (g.setLimit d.limit))
  | none => put s n (some d)

/-- limiter.go:184-193 `vivifyGroup`. -/
def vivify (cb : Callback) (s : Groups) (n : String) : Groups × Option GroupData :=
  match s n with
  | some g => (s, some g)
  | none =>
    match cb n with
    | some d => if d.isValid then (put s n (some d), some d) else (s, none)
    | none => (s, none)

/-- limiter.go:67-77 `GetLimit`. -/
def getLimit (cb : Callback) (s : Groups) (n : String) : Groups × GroupData :=
  match vivify cb s n with
  | (s', some g) => (s', g)
  | (s', none) => (s', newCount (-1))

/-- limiter.go:97-101 `RemoveLimit`. -/
def removeLimit (s : Groups) (n : String) : Groups := put s n none

/-- limiter.go:157-167 `checkGroups`. -/
def checkGroups (c : Clock) (cb : Callback) (s : Groups) : List String → Groups × Bool
  | [] => (s, true)
  | n :: ns =>
    match vivify cb s n with
    | (s', some g) => if g.canIncrement c then checkGroups c cb s' ns else (s', false)
    | (s', none) => checkGroups c cb s' ns

/-- limiter.go:171-178 `incrementGroups`. -/
def incrementGroups (cb : Callback) (s : Groups) : List String → Groups
  | [] => s
  | n :: ns =>
    match vivify cb s n with
    | (s', some g) => incrementGroups cb (put s' n (some g.increment)) ns
    | (s', none) => incrementGroups cb s' ns

/-- limiter.go:117-128 `Increment` (one attempt). -/
def increment (c : Clock) (cb : Callback) (s : Groups) (ns : List String) : Groups × Bool :=
  match checkGroups c cb s ns with
  | (s', true) => (incrementGroups cb s' ns, true)
  | (s', false) => (s', false)

/-- limiter.go:213-224 `Decrement`. -/
def decrement (s : Groups) : List String → Groups
  | [] => s
  | n :: ns =>
    match s n with
    | some g => decrement (put s n (if g.decrement.2 then none else some g.decrement.1)) ns
    | none => decrement s ns

/-- limiter.go:228-240 `GetLowestLimit`, the loop. -/
def lowestLoop (cb : Callback) (s : Groups) (lowest : Int) : List String → Groups × Int
  | [] => (s, lowest)
  | n :: ns =>
    match vivify cb s n with
    | (s', some g) => lowestLoop cb s' (if lowest = -1 ∨ g.limit < lowest then g.limit else lowest) ns
    | (s', none) => lowestLoop cb s' lowest ns

def getLowestLimit (cb : Callback) (s : Groups) (ns : List String) : Groups × Int := lowestLoop cb s (-1) ns

/-- limiter.go:244-259 `GetRemainingCapacity`, the loop. -/
def capacityLoop (c : Clock) (cb : Callback) (s : Groups) (lowest : Int) : List String → Groups × Int
  | [] => (s, lowest)
  | n :: ns =>
    match vivify cb s n with
    | (s', some g) => capacityLoop c cb s' (if lowest = -1 ∨ g.capacity c < lowest then g.capacity c else lowest) ns
    | (s', none) => capacityLoop c cb s' lowest ns

def getRemainingCapacity (c : Clock) (cb : Callback) (s : Groups) (ns : List String) : Groups × Int :=
  capacityLoop c cb s (-1) ns

end Verif.Limiter
