import Verif.Bsub.Model

/-!
# The arguments of bsub (jobqueue/scheduler/lsf.go:559-658)

`shellwords.Parse` is a third-party function: the model gets the words it returns, `none` for an error. The memory limit is
text (`fmt.Sprintf("%0.0f", m)` of a float32), and so is the job name, which ends in random characters (scheduler.go:424-433).
Cores are thousandths.
-/
namespace Verif.Bsub

/-- what a function of lsf.go does: return words, return an error, or panic -/
inductive ArgOut
  | ok (ws : List Str)
  | err
  | panic
  deriving DecidableEq, Repr

def ArgOut.map (f : List Str → List Str) : ArgOut → ArgOut
  | .ok ws => .ok (f ws)
  | .err => .err
  | .panic => .panic

/-- lsf.go:602-609: the value of an option -R -/
def rewriteR (mb v : Str) : Option Str := (parseBsubR v).map fun a => printReq (replaceMemoryAndHosts mb "1".toList a)

/-- lsf.go:593: `strings.HasPrefix(words[n], "-")` -/
def isFlag (w : Str) : Bool := "-".toList.isPrefixOf w

/-- lsf.go:593-610, the loop, which looks at every second word; `words[n+1]` of a last word -R is out of range -/
def argLoop (mb : Str) : List Str → ArgOut
  | [] => .ok []
  | [w] => if isFlag w then (if w = "-R".toList then .panic else .ok [w]) else .err
  | w :: v :: rest =>
    if isFlag w then
      if w = "-R".toList then
        match rewriteR mb v with
        | some v' => (argLoop mb rest).map fun r => w :: v' :: r
        | none => .err
      else (argLoop mb rest).map fun r => w :: v :: r
    else .err

/-- lsf.go:587-613 `parseUserArgs` -/
def parseUserArgs (words : Str → Option (List Str)) (mb opts : Str) : ArgOut :=
  match words opts with
  | none => .err
  | some ws => argLoop mb ws

/-- what the arguments are made from: `misc` is `Other["scheduler_misc"]` -/
structure Ask where
  queue : Str
  memLimit : Str
  ram : Str
  cores : Int
  misc : Option Str
  name : Str
  cmd : Str

/-- lsf.go:565-566 -/
def ownFirst (a : Ask) : List Str :=
  ["-q".toList, a.queue, "-M".toList, a.memLimit, "-R".toList,
    "select[mem>".toList ++ a.ram ++ "] rusage[mem=".toList ++ a.ram ++ "] span[hosts=1]".toList]

/-- `int(math.Ceil(req.Cores))` -/
def ceilCores (c : Int) : Int := -(Int.fdiv (-c) 1000)

/-- lsf.go:577-582 -/
def ownLast (a : Ask) : List Str :=
  (if a.cores > 1000 then ["-n".toList, (toString (ceilCores a.cores)).toList] else []) ++
  ["-J".toList, a.name, "-o".toList, "/dev/null".toList, "-e".toList, "/dev/null".toList, a.cmd]

/-- lsf.go:568-575, the user's part: with an error it is empty -/
def userPart (words : Str → Option (List Str)) (a : Ask) : ArgOut :=
  match a.misc with
  | none => .ok []
  | some o => parseUserArgs words a.ram o

/-- lsf.go:559-585 `generateBsubArgs`: the arguments and whether there was an error; `none` is a panic -/
def generateBsubArgs (words : Str → Option (List Str)) (a : Ask) : Option (List Str × Bool) :=
  match userPart words a with
  | .ok ws => some (ownFirst a ++ ws ++ ownLast a, false)
  | .err => some (ownFirst a ++ ownLast a, true)
  | .panic => none

/-! ## the validator -/

/-- lsf.go:629 `BsubValidator`: the answers so far, by options -/
abbrev Cache := List (Str × Bool)

/-- lsf.go:642-646, what the options are tried with; the name is the one that was made for this trial -/
def trial (queue opts name : Str) : Ask :=
  { queue := queue, memLimit := "1".toList, ram := "1".toList, cores := 0, misc := some opts, name := name, cmd := "echo".toList }

/-- lsf.go:633-658 `Validate`, where `bsub` is the answer of LSF to arguments; `none` is a panic, on which the deferred function
stores false but the caller does not get that far -/
def validate (words : Str → Option (List Str)) (bsub : List Str → Bool) (name : Str) (c : Cache) (opts queue : Str) :
    Option (Cache × Bool) :=
  match c.lookup opts with
  | some v => some (c, v)
  | none =>
    match generateBsubArgs words (trial queue opts name) with
    | none => none
    | some (_, true) => some ((opts, false) :: c, false)
    | some (args, false) => some ((opts, bsub args) :: c, bsub args)

/-- the calls of one `wr add` (cmd/add.go:786, 846): options, queue and the random part of the name of each; the answers -/
def validateAll (words : Str → Option (List Str)) (bsub : List Str → Bool) : Cache → List (Str × Str × Str) → Option (List Bool)
  | _, [] => some []
  | c, (opts, queue, name) :: rest =>
    match validate words bsub name c opts queue with
    | none => none
    | some (c', v) => (validateAll words bsub c' rest).map (v :: ·)

end Verif.Bsub
