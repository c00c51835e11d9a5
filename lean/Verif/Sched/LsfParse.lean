/-
What the LSF scheduler learns of LSF when it starts: the unit of memory limits, the queues that `bqueues -l` describes and the groups of
hosts that `bmgroup -w` lists; and the memory limit it gives jobs.

The model is of jobqueue/scheduler/lsf.go:110-320, 403-440 and 559-565. The regular expressions are written out as functions on the line.
Simplified: numbers are not negative and of any size (where the code calls strconv.Atoi; what is too large for an int or a float32 is an
error there); lines are shorter than the 64 kB a bufio.Scanner takes. White space is the space, the tab, and \n, \f and \r.
-/
import Verif.Sched.Lsf
import Verif.Utils.Config

namespace Verif.Sched.LsfParse
open Verif.Sched.Lsf (Crit Queue contains)
open Verif.Utils.Config (digits)

abbrev Str := List Char

/-! ## Characters and words -/

/-- `\s` -/
def isSp (c : Char) : Bool := c = ' ' || c = '\t' || c = '\n' || c = '\r' || c = Char.ofNat 12

/-- `\w` -/
def isWord (c : Char) : Bool := c.isDigit || c.isAlpha || c = '_'

/-- strings.Fields; `cur` is the word so far -/
def fieldsFrom : Str → Str → List Str
  | cur, [] => if cur = [] then [] else [cur]
  | cur, c :: s =>
    if isSp c = true then (if cur = [] then fieldsFrom [] s else cur :: fieldsFrom [] s) else fieldsFrom (cur ++ [c]) s

def fields (s : Str) : List Str := fieldsFrom [] s

/-- strconv.Atoi, for what is not negative -/
def atoi (s : Str) : Option Nat := if s = [] then none else digits 10 s

/-! ## Memory limits -/

/-- lsf.go:117-118, `=\s*(\w)`: the first match -/
def unitChar : Str → Option Char
  | [] => none
  | c :: s =>
    if c = '=' then
      match s.dropWhile isSp with
      | d :: _ => if isWord d = true then some d else unitChar s
      | [] => unitChar s
    else unitChar s

/-- the whole number next to `a / b`, the even one of two -/
def nearest (a b : Nat) : Nat :=
  if 2 * (a % b) < b then a / b else if b < 2 * (a % b) then a / b + 1 else if a / b % 2 = 0 then a / b else a / b + 1

/-- the float32 next to `n / d`: 24 binary digits of it; in units of 2⁻⁶⁴. Below 2⁻⁴¹ it is taken to be 0 (nothing here depends on that:
it is never multiplied by more than a million) -/
def near24 (n d : Nat) : Nat :=
  let v := n * 2 ^ 64 / d
  if v < 2 ^ 23 then 0 else nearest (n * 2 ^ 64) (d * 2 ^ (v.log2 - 23)) * 2 ^ (v.log2 - 23)

/-- lsf.go:110-128 `memLimitMultiplier`, a float32; `conf` is what `lsadmin showconf lim | grep LSF_UNIT_FOR_LIMITS` prints. `none` is
the error if grep finds nothing: its exit code is then not 0 -/
def multiplier (conf : Str) : Option Nat :=
  if conf = [] then none
  else some (if unitChar conf = some 'M' then near24 1 1 else if unitChar conf = some 'G' then near24 1 1000 else near24 1000 1)

/-- lsf.go:562-565: the argument of `bsub -M` for a job that needs `ram` MB: the product of two float32 is one, and is printed by `%0.0f` -/
def memFlag (mult ram : Nat) : Nat := nearest (near24 (near24 ram 1 * mult) (2 ^ 128)) (2 ^ 64)

/-! ## Groups of hosts -/

def addHost (gs : List (Str × List Str)) (g h : Str) : List (Str × List Str) :=
  match gs.lookup g with
  | none => (g, [h]) :: gs
  | some _ => gs.map fun e => if e.1 = g then (g, if h ∈ e.2 then e.2 else e.2 ++ [h]) else e

/-- lsf.go:424-428: the group exists, though perhaps empty -/
def addGroup (gs : List (Str × List Str)) (g : Str) : List (Str × List Str) :=
  match gs.lookup g with
  | none => (g, []) :: gs
  | some _ => gs

/-- lsf.go:420-437: one field of a line of `bmgroup -w` -/
def groupField (g : Str) (gs : List (Str × List Str)) (f : Str) : List (Str × List Str) :=
  if f.getLast? = some '/' then
    ((addGroup gs g).lookup f.dropLast |>.getD []).foldl (fun gs h => addHost gs g h) (addGroup gs g)
  else addHost gs g f

/-- lsf.go:414-438: one line -/
def groupLine (gs : List (Str × List Str)) (line : Str) : List (Str × List Str) :=
  match fields line with
  | g :: f :: fs => (f :: fs).foldl (groupField g) gs
  | _ => gs

/-- lsf.go:403-440 `parseBmgroups` -/
def parseBmgroups (lines : List Str) : List (Str × List Str) := lines.foldl groupLine []

/-- the different ones of a list: the keys of a Go map -/
def distinct : List Str → List Str
  | [] => []
  | v :: vs => if v ∈ distinct vs then distinct vs else v :: distinct vs

/-- lsf.go:282-303: the hosts that a field of HOSTS: stands for -/
def hostField (groups : List (Str × List Str)) (f : Str) : List Str :=
  if f.getLast? = some '/' then (groups.lookup f.dropLast).getD [f.dropLast] else [f]

/-! ## Queues -/

inductive Bad where
  | error
  | panic
deriving DecidableEq

/-- lsf.go:137-149: the variables of the loop; `queue` is `none` for "" -/
structure P where
  queue : Option Str
  queues : List (Str × (Crit → Option Nat))
  highest : Crit → Nat
  prio : Bool
  dflt : Bool
  mem : Nat
  run : Bool

def P.init : P := { queue := none, queues := [], highest := fun _ => 0, prio := false, dflt := false, mem := 0, run := false }

/-- `s.queues[q][c] = v` -/
def P.set (p : P) (q : Str) (c : Crit) (v : Nat) : P :=
  { p with queues := p.queues.map fun e => if e.1 = q then (q, fun c' => if c' = c then some v else e.2 c') else e }

/-- lsf.go:150-155 `updateHighest` -/
def P.high (p : P) (c : Crit) (v : Nat) : P :=
  { p with highest := fun c' => if c' = c ∧ v > p.highest c then v else p.highest c' }

/-- `^QUEUE: (\S+)` -/
def queueLine (l : Str) : Option Str :=
  if "QUEUE: ".toList.isPrefixOf l = true then
    if (l.drop 7).takeWhile (fun c => !isSp c) = [] then none else some ((l.drop 7).takeWhile fun c => !isSp c)
  else none

/-- words with white space between them at the beginning of a line -/
def seqWords : List Str → Str → Bool
  | [], _ => true
  | [w], l => w.isPrefixOf l
  | w :: w' :: ws, l =>
    w.isPrefixOf l && (((l.drop w.length).head?.map isSp).getD false && seqWords (w' :: ws) ((l.drop w.length).dropWhile isSp))

/-- `^PRIO\s+NICE\s+STATUS\s+MAX\s+JL\/U` -/
def isPrio (l : Str) : Bool := seqWords ["PRIO".toList, "NICE".toList, "STATUS".toList, "MAX".toList, "JL/U".toList] l

/-- `^DEFAULT LIMITS:` -/
def isDefault (l : Str) : Bool := "DEFAULT LIMITS:".toList.isPrefixOf l

/-- `^MAXIMUM LIMITS:|^SCHEDULING PARAMETERS` -/
def isFinished (l : Str) : Bool := "MAXIMUM LIMITS:".toList.isPrefixOf l || "SCHEDULING PARAMETERS".toList.isPrefixOf l

/-- `(\d+(?:\.\d+)?) (\w)` at the beginning: the digits before and after the point, the unit, what follows -/
def numUnit (s : Str) : Option ((Str × Str × Char) × Str) :=
  if s.takeWhile Char.isDigit = [] then none
  else match s.dropWhile Char.isDigit with
    | ' ' :: c :: r => if isWord c = true then some ((s.takeWhile Char.isDigit, [], c), r) else none
    | '.' :: r =>
      if r.takeWhile Char.isDigit = [] then none
      else match r.dropWhile Char.isDigit with
        | ' ' :: c :: r' => if isWord c = true then some ((s.takeWhile Char.isDigit, r.takeWhile Char.isDigit, c), r') else none
        | _ => none
    | _ => none

/-- FindAllStringSubmatch of it -/
def findAll : Nat → Str → List (Str × Str × Char)
  | 0, _ => []
  | _ + 1, [] => []
  | k + 1, c :: t =>
    match numUnit (c :: t) with
    | some (m, r) => m :: findAll k r
    | none => findAll k t

/-- lsf.go:213-229: the MB of a limit. ParseFloat gives a float32; it and its products are exact as float64, and dividing by 1000 does not
reach a whole number that is not reached -/
def megabytes (m : Str × Str × Char) : Nat :=
  let f := near24 ((digits 10 (m.1 ++ m.2.1)).getD 0) (10 ^ m.2.1.length)
  if m.2.2 = 'T' then f * 1000000 / 2 ^ 64
  else if m.2.2 = 'G' then f * 1000 / 2 ^ 64
  else if m.2.2 = 'K' then f / (1000 * 2 ^ 64)
  else f / 2 ^ 64

/-- lsf.go:203-209: the number of the column that is called MEMLIMIT, from 1; all of them if none is -/
def column : List Str → Nat
  | [] => 0
  | w :: ws => if w = "MEMLIMIT".toList then 1 else column ws + 1

/-- `^\s*(\d+)(?:\.\d+)? min` -/
def runMins (l : Str) : Option Nat :=
  let s := l.dropWhile isSp
  if s.takeWhile Char.isDigit = [] then none
  else
    let r := s.dropWhile Char.isDigit
    let r' := match r with
      | '.' :: t => if t.takeWhile Char.isDigit = [] then r else t.dropWhile Char.isDigit
      | _ => r
    if " min".toList.isPrefixOf r' = true then digits 10 (s.takeWhile Char.isDigit) else none

/-- without white space at the end -/
def trimRight (s : Str) : Str := (s.reverse.dropWhile isSp).reverse

/-- `^(USERS|HOSTS):\s+(.+?)\s*$`, of one of the two -/
def listLine (kind : Str) (l : Str) : Option Str :=
  if kind.isPrefixOf l = true then
    let r := l.drop kind.length
    if (r.head?.map isSp).getD false = true then
      match r.dropWhile isSp with
      | [] => if r.length ≥ 2 then some [' '] else none
      | t => some (trimRight t)
    else none
  else none

/-- `^CHUNK_JOB_SIZE:\s+(\d+)` -/
def chunkLine (l : Str) : Option Nat :=
  if "CHUNK_JOB_SIZE:".toList.isPrefixOf l = true then
    let r := l.drop 15
    if (r.head?.map isSp).getD false = true then
      if (r.dropWhile isSp).takeWhile Char.isDigit = [] then none else digits 10 ((r.dropWhile isSp).takeWhile Char.isDigit)
    else none
  else none

/-- lsf.go:182-194: an optional limit of the line after PRIO -/
def optLimit (p : P) (q : Str) (c : Crit) (f : Str) : Except Bad P :=
  if f = ['-'] then .ok p
  else match atoi f with
    | none => .error .error
    | some n => .ok ((p.set q c n).high c n)

/-- lsf.go:175-196: the line after PRIO -/
def prioLine (p : P) (q l : Str) : Except Bad P :=
  match fields l with
  | f0 :: rest =>
    match atoi f0 with
    | none => .error .error
    | some n =>
      match rest with
      | _ :: _ :: f3 :: f4 :: _ =>
        match optLimit (p.set q .prio n) q .max f3 with
        | .error e => .error e
        | .ok p1 =>
          match optLimit p1 q .maxUser f4 with
          | .error e => .error e
          | .ok p2 => .ok { p2 with prio := false }
      | [_, _, f3] =>
        match optLimit (p.set q .prio n) q .max f3 with
        | .error e => .error e
        | .ok _ => .error .panic
      | _ => .error .panic
  | [] => .error .panic

/-- lsf.go:202-253: the limits; whether the rest of the loop is skipped -/
def limits (p : P) (q l : Str) : Except Bad (Bool × P) :=
  if contains "MEMLIMIT".toList l = true then .ok (true, { p with mem := column (fields l) })
  else if p.mem > 0 then
    let ms := findAll l.length l
    if ms ≠ [] ∧ ms.length ≥ p.mem - 1 then
      match ms[p.mem - 1]? with
      | none => .error .panic
      | some m => .ok (false, { (p.set q .memlimit (megabytes m)).high .memlimit (megabytes m) with mem := 0 })
    else .ok (false, { p with mem := 0 })
  else if contains "RUNLIMIT".toList l = true then .ok (true, { p with run := true })
  else if p.run = true then
    match runMins l with
    | some m => .ok (false, { p.set q .runlimit (m * 60) with run := false })
    | none => .ok (false, { p with run := false })
  else .ok (false, p)

/-- lsf.go:256-309: the users and hosts of a queue; `me` is the user -/
def usersHosts (me : Str) (groups : List (Str × List Str)) (p : P) (q l : Str) : P :=
  match listLine "USERS:".toList l with
  | some t =>
    let users := distinct (fields t)
    let p := p.set q .numUsers (if "all".toList ∈ users then 10000 else users.length)
    if "all".toList ∉ users ∧ me ∉ users then { p with queues := p.queues.filter (fun e => e.1 ≠ q), queue := none } else p
  | none =>
    match listLine "HOSTS:".toList l with
    | some t =>
      if t = "all".toList then p
      else
        let n := (distinct ((fields t).flatMap (hostField groups))).length
        (p.set q .hosts n).high .hosts n
    | none => p

/-- lsf.go:311-319 -/
def chunk (p : P) (l : Str) : P :=
  match chunkLine l, p.queue with
  | some n, some q => p.set q .chunkSize n
  | _, _ => p

/-- lsf.go:256-319: what is done with a line for which the loop did not go on already -/
def finish (me : Str) (groups : List (Str × List Str)) (p : P) (q l : Str) : P := chunk (usersHosts me groups p q l) l

/-- lsf.go:167-319: the loop, for one line of `bqueues -l` -/
def step (me : Str) (groups : List (Str × List Str)) (p : P) (l : Str) : Except Bad P :=
  match queueLine l with
  | some q => .ok { p with queue := some q, queues := p.queues.filter (fun e => e.1 ≠ q) ++ [(q, fun _ => none)] }
  | none =>
    match p.queue with
    | none => .ok p
    | some q =>
      if isPrio l = true then .ok { p with prio := true }
      else if p.prio = true then
        match prioLine p q l with
        | .error e => .error e
        | .ok p' => .ok (finish me groups p' q l)
      else if isDefault l = true then .ok { p with dflt := true }
      else if isFinished l = true ∨ p.dflt = false then
        match limits { p with dflt := false } q l with
        | .error e => .error e
        | .ok (true, p') => .ok p'
        | .ok (false, p') => .ok (finish me groups p' q l)
      else .ok (finish me groups p q l)

def runFrom (me : Str) (groups : List (Str × List Str)) : P → List Str → Except Bad P
  | p, [] => .ok p
  | p, l :: ls =>
    match step me groups p l with
    | .error e => .error e
    | .ok p' => runFrom me groups p' ls

/-- lsf.go:133-320: what is learnt of the queues -/
def parse (me : Str) (groups : List (Str × List Str)) (lines : List Str) : Except Bad P := runFrom me groups P.init lines

end Verif.Sched.LsfParse
