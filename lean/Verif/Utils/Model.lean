import Verif.Util.Str

/-!
# jobqueue/utils.go and storeBatched of jobqueue/db.go

Byte strings are lists.  Go's `int` and `time.Duration` are integers; where 64-bit overflow can matter it is explicit.
-/

namespace Verif.Utils

open Verif.Util

/-! ## storeBatched (jobqueue/db.go 1487-1524) -/

/-- Go slice expression `l[i:j]`; `none` is the run-time panic. -/
def slice {α : Type} (l : List α) (i j : Nat) : Option (List α) :=
  if i ≤ j ∧ j ≤ l.length then some ((l.drop i).take (j - i)) else none

/-- The batch size (db.go:1490-1501). -/
def batchSize (num : Nat) : Nat :=
  let b := num / 10
  let rem := b % 1000
  let b := if rem > 500 then b - rem + 1000 else b - rem
  if b < 1000 then 1000 else b

/-- Outcome of storeBatched: panic, or whether all was well. -/
inductive Res
  | ok
  | err
deriving DecidableEq, Repr

/-- The state is what has been stored so far (one element per successful call of the storer) and the number of storer
calls; `fails n` says whether the storer's `n`-th call returns an error (its transaction is then rolled back: bolt's
`Batch` is all or nothing for one function). -/
structure Disk (α : Type) where
  stored : List (List α) := []
  calls : Nat := 0

/-- One call of the storer (db.go:1504,1511,1518). -/
def storer {α : Type} (fails : Nat → Bool) (d : Disk α) (b : List α) : Disk α × Res :=
  if fails d.calls then ({ d with calls := d.calls + 1 }, .err)
  else ({ stored := d.stored ++ [b], calls := d.calls + 1 }, .ok)

/-- The loop of db.go:1510-1515 from iteration `i` on, `k` iterations left. -/
def batchLoop {α : Type} (fails : Nat → Bool) (data : List α) (bs : Nat) : Nat → Nat → Disk α → Option (Disk α × Res)
  | _, 0, d => some (d, .ok)
  | i, k + 1, d =>
    (slice data (i * bs) ((i + 1) * bs)).bind fun b =>
      let r := storer fails d b
      match r.2 with
      | .err => some r
      | .ok => batchLoop fails data bs (i + 1) k r.1

/-- storeBatched (db.go:1487-1524). -/
def storeBatched {α : Type} (fails : Nat → Bool) (data : List α) : Option (Disk α × Res) :=
  let num := data.length
  let bs := batchSize num
  if num < bs then some (storer fails {} data)
  else
    let batches := num / bs
    let offset := num - num % bs
    (batchLoop fails data bs 0 batches {}).bind fun r =>
      match r.2 with
      | .err => some r
      | .ok =>
        if offset ≠ 0 then (slice data offset num).bind fun b => some (storer fails r.1 b)
        else some r

/-! ## prefixSuffixSaver (jobqueue/utils.go 305-365) -/

/-- The fields of `prefixSuffixSaver` (utils.go:309-315); a nil suffix is the empty one (appending nothing to nil leaves
it nil, appending something makes it non-empty). -/
structure Saver (α : Type) where
  N : Nat
  pre : List α := []
  suf : List α := []
  off : Nat := 0
  skipped : Nat := 0

/-- `fill` (utils.go:336-343): the new destination and what is left. -/
def fill {α : Type} (N : Nat) (dst p : List α) : List α × List α :=
  if N - dst.length > 0 then
    let add := min p.length (N - dst.length)
    (dst ++ p.take add, p.drop add)
  else (dst, p)

/-- Go's `copy(dst[off:], p)`: `dst` afterwards. -/
def copyAt {α : Type} (dst : List α) (off : Nat) (p : List α) : List α :=
  let n := min (dst.length - off) p.length
  dst.take off ++ p.take n ++ dst.drop (off + n)

/-- The loop of utils.go:325-333.  `none`: out of `fuel`, the loop does not end. -/
def ring {α : Type} : Nat → Saver α → List α → Option (Saver α)
  | _, w, [] => some w
  | 0, _, _ :: _ => none
  | fuel + 1, w, p@(_ :: _) =>
    let n := min (w.suf.length - w.off) p.length
    let off := w.off + n
    ring fuel { w with suf := copyAt w.suf w.off p, skipped := w.skipped + n, off := if off = w.N then 0 else off } (p.drop n)

/-- `Write` (utils.go:317-334). -/
def Saver.write {α : Type} (w : Saver α) (p : List α) : Option (Saver α) :=
  let f := fill w.N w.pre p
  let over := f.2.length - w.N
  let p := f.2.drop over
  let g := fill w.N w.suf p
  ring (g.2.length + 1) { w with pre := f.1, skipped := w.skipped + over, suf := g.1 } g.2

/-- `Bytes` (utils.go:345-361); `note` is the text written for a number of skipped bytes (350-352). -/
def Saver.bytes {α : Type} (note : Nat → List α) (w : Saver α) : List α :=
  if w.suf = [] then w.pre
  else if w.skipped = 0 then w.pre ++ w.suf
  else w.pre ++ note w.skipped ++ w.suf.drop w.off ++ w.suf.take w.off

/-- A series of writes. -/
def Saver.writes {α : Type} (w : Saver α) : List (List α) → Option (Saver α)
  | [] => some w
  | p :: ps => (w.write p).bind (·.writes ps)

/-! ## stdFilter (jobqueue/utils.go 369-417) -/

/-- Successive results of `reader.ReadBytes('\n')` until EOF (utils.go:380): every line with its newline, then what is
left (maybe nothing). -/
def readLines : List Char → List (List Char)
  | [] => [[]]
  | c :: cs =>
    if c = '\n' then ['\n'] :: readLines cs
    else match readLines cs with
      | [] => [[c]]
      | l :: ls => (c :: l) :: ls

/-- What is written for one result of ReadBytes (utils.go:382-408). -/
def filterLine (p : List Char) : List Char :=
  let lines := split '\r' p
  lines.headD [] ++
    (if lines.length > 2 then
      ['\n'] ++ (if lines.length > 3 then "[...]\n".toList else []) ++ lines[lines.length - 2]?.getD [] ++ ['\n']
    else [])

/-- stdFilter: everything written to `out` (utils.go:374-417); the writer is assumed not to fail. -/
def stdFilter (inp : List Char) : List Char :=
  (readLines inp).flatMap filterLine

/-! ## envOverride (jobqueue/utils.go 421-441) and Getenv (jobqueue/job.go 518-533) -/

/-- `strings.Split(envvar, "=")[0]`. -/
def envName (e : List Char) : List Char := (split '=' e).headD []

/-- The map `override`, as an association list with distinct keys (utils.go:422-426). -/
def overrides : List (List Char) → List (List Char × List Char)
  | [] => []
  | e :: es =>
    let m := overrides es
    if (m.lookup (envName e)).isSome then m else (envName e, e) :: m

/-- The loop of utils.go:429-435: the new environment and what is left of the map. -/
def envLoop : List (List Char) → List (List Char × List Char) → List (List Char) × List (List Char × List Char)
  | [], m => ([], m)
  | e :: es, m =>
    match m.lookup (envName e) with
    | some r =>
      let x := envLoop es (m.filter (·.1 ≠ envName e))
      (r :: x.1, x.2)
    | none =>
      let x := envLoop es m
      (e :: x.1, x.2)

/-- envOverride; `perm` is the order in which Go's range over the map yields what is left (utils.go:437-439). -/
def envOverride (perm : List (List Char × List Char) → List (List Char × List Char)) (orig over : List (List Char)) :
    List (List Char) :=
  let x := envLoop orig (overrides over)
  x.1 ++ (perm x.2).map (·.2)

/-- `Job.Getenv` on the list `Env()` returned (job.go:524-531); `none` is the index panic of `pair[1]`. -/
def getenv (key : List Char) : List (List Char) → Option (List Char)
  | [] => some []
  | e :: es =>
    let pair := split '=' e
    if pair.headD [] = key then pair[1]? else getenv key es

/-! ## reqForScheduler (jobqueue/utils.go 617-642) -/

/-- Result of 64-bit signed arithmetic. -/
def wrap64 (x : Int) : Int := (x + 2 ^ 63) % 2 ^ 64 - 2 ^ 63

/-- Go's `Duration.Round(m)` for `m > 0` (time/time.go): nearest multiple, halves away from zero, saturating. -/
def durRound (d m : Int) : Int :=
  let r := d.tmod m
  if d < 0 then
    let r := -r
    if r + r < m then wrap64 (d + r)
    else
      let d1 := wrap64 (d - m + r)
      if d1 < d then d1 else -(2 ^ 63)
  else
    if r + r < m then wrap64 (d - r)
    else
      let d1 := wrap64 (d + m - r)
      if d1 > d then d1 else 2 ^ 63 - 1

/-- The fields of `scheduler.Requirements` (scheduler.go:86-96); cores and the `Other` map are opaque, as they are only
copied. -/
structure Req (C O : Type) where
  ram : Int
  time : Int
  cores : C
  disk : Int
  other : O
  coresSet : Bool := false
  diskSet : Bool := false
  otherSet : Bool := false

/-- 30 minutes in nanoseconds (utils.go:62). -/
def halfHour : Int := 1800000000000

/-- reqForScheduler (utils.go:622-642). -/
def reqForScheduler {C O : Type} (req : Req C O) : Req C O :=
  let ram := if req.ram < 924 then req.ram + 100 else req.ram
  let d := durRound req.time halfHour
  let d := if d < req.time then wrap64 (d + halfHour) else d
  { ram := ram, time := d, cores := req.cores, disk := req.disk, other := req.other }

/-! ## calculateItemDelay (jobqueue/utils.go 645-661), setItemDelay (jobqueue/serverCLI.go 784-793) -/

/-- ClientReleaseDelayMin, in nanoseconds (client.go:95). -/
def delayMin : Int := 30000000000
/-- ClientReleaseDelayMax, in nanoseconds (client.go:96). -/
def delayMax : Int := 1800000000000

/-- `Backoff.ForAttempt` of github.com/jpillora/backoff with factor 2, no jitter and these bounds: min·2ⁿ clamped to
[min, max] (the float64 arithmetic is exact for the values that are not clamped). -/
def forAttempt (n : Int) : Int :=
  if n < 0 then delayMin else min delayMax (delayMin * 2 ^ n.toNat)

/-- calculateItemDelay; `j` is `time.Duration(rand.Float64()*float64(Min) - float64(Min))`, a whole number of
nanoseconds with `-Min ≤ j ≤ 0`. -/
def calculateItemDelay (n j : Int) : Int :=
  let d := forAttempt n - j
  if d < 0 then delayMax else d

/-- setItemDelay: the attempt number computed from the job's bytes (serverCLI.go:785). -/
def setItemDelay (retries untilBuried : UInt8) (j : Int) : Int :=
  calculateItemDelay ((retries.toNat : Int) - untilBuried.toNat + 1) j

end Verif.Utils
