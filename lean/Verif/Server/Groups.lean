import Verif.Util.Str
import Verif.Limiter.Parse

/-!
# Model of scheduler group names and of the limit groups of added jobs

`/repo/jobqueue/job.go:878-884` `generateSchedulerGroup`, `/repo/jobqueue/serverCLI.go:929-935`
`schedGroupToLimitGroups`, `/repo/jobqueue/scheduler/scheduler.go:101-120` `Stringify`,
`/repo/jobqueue/server.go:1946-1965` `handleUserSpecifiedJobLimitGroups` and
`/repo/internal/utils.go:121-135` `DedupSortStrings`.
-/

namespace Verif.Server.Groups
open Verif.Util

abbrev Str := List Char

/-- What `fmt` prints for the fields of a `Requirements`: RAM, minutes, cores, disk, and the md5
sum of the other options if there are any. (Printing numbers and md5 are not modelled.) -/
structure Printed where
  ram : Str
  mins : Str
  cores : Str
  disk : Str
  other : Option Str
  deriving DecidableEq, Repr

/-- scheduler.go:119: the format "%d:%.0f:%s:%d%s", where the last is "" or ":%x". -/
def stringify (r : Printed) : Str :=
  r.ram ++ ':' :: (r.mins ++ ':' :: (r.cores ++ ':' :: (r.disk ++
    match r.other with
    | none => []
    | some o => ':' :: o)))

/-- job.go:878-884 `generateSchedulerGroup`. -/
def generate (r : Printed) (lgs : List Str) : Str :=
  stringify r ++ if lgs.length > 0 then '~' :: join ',' lgs else []

/-- serverCLI.go:929-935 `schedGroupToLimitGroups` (nil is the empty list). -/
def toLimitGroups (g : Str) : List Str :=
  match split '~' g with
  | [_, p] => split ',' p
  | _ => []

/-! ## Adding -/

/-- The order of Go strings (here of characters; Go compares bytes of the UTF-8 form, which gives
the same order). -/
def strLt : Str → Str → Bool
  | [], [] => false
  | [], _ :: _ => true
  | _ :: _, [] => false
  | a :: as, b :: bs => if a = b then strLt as bs else decide (a < b)

/-- internal/utils.go:122-132: the loop of `DedupSortStrings`: keeps first occurrences. -/
def dedup : List Str → List Str → List Str
  | _, [] => []
  | seen, v :: vs => if v ∈ seen then dedup seen vs else v :: dedup (v :: seen) vs

/-- Insertion in a sorted list, for `sort.Strings`. -/
def insert (v : Str) : List Str → List Str
  | [] => [v]
  | w :: ws => if strLt w v then w :: insert v ws else v :: w :: ws

/-- `sort.Strings`. (Go uses another algorithm; the result of sorting strings does not depend on
it.) -/
def sort : List Str → List Str
  | [] => []
  | v :: vs => insert v (sort vs)

/-- internal/utils.go:121-135 `DedupSortStrings`. -/
def dedupSort (l : List Str) : List Str := sort (dedup [] l)

/-- server.go:1948-1955: the loop: names without suffixes, and the last limit given per name (the
newest first in the list). -/
def strip (unixOf : Limiter.Stamp → Int) :
    List Str → List (Str × Limiter.GroupData) → List Str × List (Str × Limiter.GroupData)
  | [], m => ([], m)
  | g :: gs, m =>
    match Limiter.nameToGroupData unixOf g with
    | (n, some d) =>
      let r := strip unixOf gs ((n, d) :: m)
      (n :: r.1, r.2)
    | (_, none) =>
      let r := strip unixOf gs m
      (g :: r.1, r.2)

/-- server.go:1946-1965 `handleUserSpecifiedJobLimitGroups`: the job's groups, and the limits (a
lookup finds the newest). -/
def handleLimitGroups (unixOf : Limiter.Stamp → Int) (gs : List Str)
    (m : List (Str × Limiter.GroupData)) : List Str × List (Str × Limiter.GroupData) :=
  let r := strip unixOf gs m
  (if r.1.length > 1 then dedupSort r.1 else r.1, r.2)

end Verif.Server.Groups
