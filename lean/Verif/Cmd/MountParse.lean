import Verif.Util.Str
/-!
# The --mounts option (cmd/mount.go:292-374)

`none` stands for `die`. Strings are lists of characters, each standing for one byte. The JSON of `--mount_json` is not
modelled: what it stands for is given.
-/
namespace Verif.Cmd.MountParse
open Verif.Util

/-- `jobqueue.MountTarget` (mount.go:67-133), with the fields that are set here -/
structure Target where
  profile : List Char := []
  path : List Char
  cache : Bool
  write : Bool
  deriving DecidableEq, Repr

/-- cmd/mount.go:333-341 -/
def cacheOf : Char → Option Bool
  | 'c' => some true
  | 'u' => some false
  | _ => none

/-- cmd/mount.go:342-349 -/
def writeOf : Char → Option Bool
  | 'w' => some true
  | 'r' => some false
  | _ => none

/-- cmd/mount.go:351-357: the profile and the path -/
def profilePath (path : List Char) : List Char × List Char :=
  if '@' ∈ path then
    match split '@' path with
    | profile :: path :: _ => (profile, path)
    | _ => ([], path)
  else ([], path)

/-- cmd/mount.go:327-369: one of the parts between commas -/
def target (simple : List Char) : Option Target :=
  match split ':' simple with
  | [[a, b], path] =>
    (cacheOf a).bind fun cache => (writeOf b).map fun write =>
      ⟨(profilePath path).1, (profilePath path).2, cache, write⟩
  | _ => none

/-- the targets in order, `none` if one of them makes it die -/
def targets : List (List Char) → Option (List Target)
  | [] => some []
  | s :: ss => (target s).bind fun t => (targets ss).map (t :: ·)

/-- cmd/mount.go:324-374: `mountParseSimple`: the targets of the one configuration it returns -/
def simple (s : List Char) : Option (List Target) := targets (split ',' s)

/-- cmd/mount.go:294-307: `mountParse`; `json` says what the JSON stands for (`none` if it is not valid) -/
def parse (json : List Char → Option (List (List Target))) (jsonStr simpleStr : List Char) : Option (List (List Target)) :=
  if jsonStr = [] ∧ simpleStr = [] then none
  else if jsonStr ≠ [] ∧ simpleStr ≠ [] then none
  else if jsonStr ≠ [] then json jsonStr
  else (simple simpleStr).map ([·])

end Verif.Cmd.MountParse
