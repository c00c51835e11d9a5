/-!
# The time at which the last job of a report group completed

(jobqueue/db.go archiveJob, retrieveLastCompletionTimeByRepGroup)

Simplifications: transactions do not fail; of archiveJob only the part about the bucket of end times is here (the rest is
in `Verif.Server.Db`, `Verif.Server.Std` and `Verif.Server.Learn`); times are nanoseconds since 1970, negative before.
The report groups to be looked up were chosen by getRepGroupsList (`Verif.Server.Groups`).
-/

namespace Verif.Server.EndTime

/-- `uint64(x)` of an int64 (db.go:752). -/
def toU64 (x : Int) : Nat := (x % 18446744073709551616).toNat

/-- `int64(n)` of a uint64 (db.go:747, 865). -/
def toI64 (n : Nat) : Int := if n < 9223372036854775808 then (n : Int) else (n : Int) - 18446744073709551616

/-- binary.BigEndian.PutUint64 on eight new bytes (db.go:751-752). -/
def putU64 (n : Nat) : List Nat :=
  [n / 72057594037927936 % 256, n / 281474976710656 % 256, n / 1099511627776 % 256, n / 4294967296 % 256,
    n / 16777216 % 256, n / 65536 % 256, n / 256 % 256, n % 256]

/-- binary.BigEndian.Uint64 (db.go:747, 865). -/
def getU64 (bs : List Nat) : Nat := bs.foldl (fun a b => a * 256 + b) 0

/-- rgEndTimeBytes (db.go:56). -/
def rgEndTimeBytes : Nat := 8

/-- EndTime.Unix(): whole seconds, rounded down (db.go:744). -/
def unix (ns : Int) : Int := ns / 1000000000

/-- bucketRGEndTime (db.go:75). -/
abbrev Bucket := String → Option (List Nat)

/-- The part of archiveJob about end times (db.go:742-760). -/
def archive (b : Bucket) (rg : String) (endTime : Int) : Bucket :=
  let newUnix := unix endTime
  let existing := (b rg).getD []
  if existing.length = rgEndTimeBytes ∧ toI64 (getU64 existing) ≥ newUnix then b
  else fun g => if g = rg then some (putU64 (toU64 newUnix)) else b g

/-- retrieveLastCompletionTimeByRepGroup (db.go:853-872): a map, here from the groups asked for to seconds since 1970. -/
def retrieve (b : Bucket) (rgs : List String) (g : String) : Option Int :=
  if g ∈ rgs then
    let encoded := (b g).getD []
    if encoded.length ≠ rgEndTimeBytes then none else some (toI64 (getU64 encoded))
  else none

/-- Jobs are archived one after the other (transactions are executed one at a time, in whatever order). -/
def archiveAll (b : Bucket) : List (String × Int) → Bucket
  | [] => b
  | (rg, t) :: l => archiveAll (archive b rg t) l

end Verif.Server.EndTime
