import Verif.Util.Bolt

/-!
# What is learned from past runs (jobqueue/db.go:720-740, 1115-1124, 1362-1452 and jobqueue/server.go:1325-1456)

Simplifications: floating point numbers are exact (the window of 5%, the factor 1.3); statistics are natural numbers below
10^20, so that their text read back is the number (`strconv.Atoi`).
-/
namespace Verif.Server.Learn
open Verif.Util.Bolt

/-! ## the statistics -/

/-- db.go:53 `dbDelimiter` -/
def delimiter : Key := "_::_".toList

def digit (n : Nat) : Char := Char.ofNat (48 + n % 10)

/-- the decimal digits of a number without leading zeros, in `k` places -/
def padded : Nat → Nat → List Char
  | 0, _ => []
  | k + 1, v => padded k (v / 10) ++ [if v = 0 then ' ' else digit v]

/-- `fmt.Sprintf("%20d", v)` for 0 ≤ v < 10^20 -/
def fmt20 (v : Nat) : List Char := padded 19 (v / 10) ++ [digit v]

/-- db.go:725, 730, 737, 1117, 1120, 1123: the key of a statistic -/
def statKey (group : Key) (v : Nat) : Key := group ++ delimiter ++ fmt20 v

/-- the same lines: a run is recorded -/
def record (b : Bucket Nat) (run : Key × Nat) : Bucket Nat := put (statKey run.1 run.2) run.2 b

/-- the bucket after runs of some requirement groups -/
def recorded (runs : List (Key × Nat)) : Bucket Nat := runs.foldl record []

/-! ## the recommendation -/

/-- local variables of db.go:1397-1431 -/
structure Loop where
  count : Nat := 0
  prev : List Nat := []
  rec' : Nat := 0
  max : Nat := 0
  deriving DecidableEq, Repr

/-- db.go:1427-1429 after 1414-1418: is the list longer than the window? The window is 5 (db.go:54) for a count of up to 100, and
5% of the count above. -/
def full (count len : Nat) : Bool := if count > 100 then decide (20 * len > count) else decide (len > 5)

/-- db.go:1410-1430, the body of the loop -/
def Loop.step (s : Loop) (v : Nat) : Loop :=
  if full (s.count + 1) (s.prev.length + 1) then
    { count := s.count + 1, max := v, rec' := (s.prev ++ [v]).headD 0, prev := (s.prev ++ [v]).tail }
  else { s with count := s.count + 1, max := v, prev := s.prev ++ [v] }

/-- db.go:1437-1449: `rec'` and `max` after the loop; then rounding up -/
def finish (rec' max round : Nat) : Nat :=
  if rec' = 0 ∧ max = 0 then 0
  else
    let r := if rec' = 0 then max else rec'
    -- max-recommendation is an int, and negative if max is less
    let r := if (max : Int) - r < round then max else r
    let r := if r < round then round else r
    if r % round > 0 then (r + round - 1) / round * round else r

/-- db.go:1394-1452 `recommendedReqGroupStat` -/
def recommended (b : Bucket Nat) (group : Key) (round : Nat) : Nat :=
  let s := ((scan group b).map (·.2)).foldl Loop.step {}
  finish s.rec' s.max round

/-- db.go:83-84, 1368-1390 -/
def recMBRound : Nat := 100
def recSecRound : Nat := 1

/-! ## the requirements of the next attempt -/

inductive Fail
  | none | ram | disk | time | other
  deriving DecidableEq, Repr

/-- what is used of `scheduler.Requirements`: memory in MB, disk in GB, time in seconds -/
structure Req where
  ram : Int
  disk : Int
  diskSet : Bool
  time : Int
  deriving DecidableEq, Repr

/-- what is used of a job: `orig` is `RequirementsOrig`; `peakRAM` and `peakDisk` are in MB, `wall` is `EndTime - StartTime` -/
structure Job where
  req : Req
  orig : Option Req := none
  override : Nat := 0
  fail : Fail := .none
  peakRAM : Int := 0
  peakDisk : Int := 0
  wall : Int := 0
  deriving DecidableEq, Repr

/-- `math.Ceil(n / d)` -/
def ceilDiv (n d : Int) : Int := -(Int.fdiv (-n) d)

/-- server.go:1348-1360: the recommendation for a group, from the statistics in MB, MB and seconds -/
def recommendedReq (recm recd recs : Nat) : Req := { ram := recm, disk := ceilDiv recd 1024, diskSet := true, time := recs }

/-- the pattern of server.go:1376-1389 for one value: `given` is whether the user gave one -/
def learn (override : Nat) (given : Bool) (cur rec' : Int) : Int :=
  if rec' > 0 then
    if given then
      match override with
      | 0 => rec'
      | 1 => if rec' > cur then rec' else cur
      | _ => cur
    else rec'
  else cur

/-- server.go:1420-1436: more memory after a run that had too little -/
def moreRAM (peak : Int) : Int :=
  -- in tenths, for the factor of 1.3
  let u := if peak ≤ 8192 then 20 * peak else 13 * peak
  let u := if u < 10 * peak + 10000 then 10 * peak + 10000 else u
  ceilDiv u 1000 * 100

/-- server.go:1437-1443: more disk -/
def moreDisk (peak : Int) : Int := ceilDiv (13 * peak) (1024 * 1000) * 100

/-- server.go:1418-1453: what a failed run needed -/
def afterFailure (j : Job) (r : Req) : Req :=
  if j.override = 2 then r
  else match j.fail with
    | .ram => if moreRAM j.peakRAM > r.ram then { r with ram := moreRAM j.peakRAM } else r
    | .disk => if moreDisk j.peakDisk > r.disk then { r with disk := moreDisk j.peakDisk } else r
    | .time => if j.wall + 3600 > r.time then { r with time := j.wall + 3600 } else r
    | _ => r

/-- server.go:1366-1374 -/
def Job.original (j : Job) : Req := j.orig.getD j.req

/-- server.go:1376-1416: the recommendation is applied according to the job's override -/
def learnAll (j : Job) (rec' : Req) : Req :=
  { ram := learn j.override (decide (j.original.ram > 0)) j.req.ram rec'.ram
    disk := learn j.override (decide (j.original.disk > 0) || j.original.diskSet) j.req.disk rec'.disk
    diskSet := j.req.diskSet
    time := learn j.override (decide (j.original.time > 0)) j.req.time rec'.time }

/-- server.go:1364-1456. `rec'` is `none` if the database returned an error; the outer `none` is the panic of reading a field of
the nil recommendation. -/
def adjust (j : Job) (rec' : Option Req) : Option Job :=
  match rec' with
  | some r => some { j with orig := some j.original, req := afterFailure j (learnAll j r) }
  | none => match j.fail with
    | .ram | .disk | .time => none
    | _ => some j

/-- the end of an attempt: what the client reported -/
structure End where
  fail : Fail
  peakRAM : Int
  peakDisk : Int
  wall : Int
  deriving DecidableEq, Repr

/-- job.go:813-837 and serverCLI.go:391-407: the end of an attempt is noted -/
def Job.ended (j : Job) (e : End) : Job := { j with fail := e.fail, peakRAM := e.peakRAM, peakDisk := e.peakDisk, wall := e.wall }

/-- failed attempts, each followed by the callback with what is recommended then -/
def attempts (j : Job) : List (End × Req) → Job
  | [] => j
  | (e, r) :: es => attempts ((adjust (j.ended e) (some r)).getD j) es

end Verif.Server.Learn
