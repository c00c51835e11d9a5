/-!
# Choice of a server flavor (cloud/cloud.go)

`p.impl.flavors` gives a map; the model takes the list of its values in the order of iteration, and the theorems range over
all lists. Regular expressions are predicates on names; whether a string compiles is a parameter.
-/
namespace Verif.Cloud.Flavors

/-- cloud/server.go:66-72 `Flavor` -/
structure Flv where
  id : String
  name : String
  cores : Int
  ram : Int
  disk : Int
  deriving DecidableEq, Repr

/-- a compiled regular expression: the names it matches -/
abbrev Rx := String → Bool

/-- cloud.go:516-525 `regexStrToRegexp`; the outer `none` is the error, the inner one the nil regexp -/
def regexStrToRegexp (compile : String → Option Rx) (s : String) : Option (Option Rx) :=
  if s = "" then some none else (compile s).map some

/-- cloud.go:543-553, the loop over a non-empty subset; `none` is the panic of calling a method of a nil regexp -/
def inSubset : List (Option Rx) → String → Option Bool
  | [], _ => some false
  | none :: _, _ => none
  | some r :: rest, n => if r n then some true else inSubset rest n

/-- cloud.go:539, the name does not match the regexp -/
def skips (rx : Option Rx) (n : String) : Bool :=
  match rx with
  | some r => !r n
  | none => false

/-- cloud.go:538-555, the flavors that are looked at; `none` is a panic -/
def passes (rx : Option Rx) (subset : List (Option Rx)) (f : Flv) : Option Bool :=
  if skips rx f.name then some false
  else if subset.length = 0 then some true
  else inSubset subset f.name

/-- cloud.go:557-571 -/
def better (cores ram : Int) (fr : Option Flv) (f : Flv) : Option Flv :=
  if f.cores ≥ cores ∧ f.ram ≥ ram then
    match fr with
    | some r =>
      if f.cores < r.cores then some f
      else if f.cores = r.cores then
        if f.ram < r.ram then some f
        else if f.ram = r.ram ∧ f.disk < r.disk then some f
        else some r
      else some r
    | none => some f
  else fr

/-- cloud.go:532-575 `pickCheapestFlavorFromSubset`, the loop; the outer `none` is a panic -/
def pickLoop (cores ram : Int) (rx : Option Rx) (subset : List (Option Rx)) : List Flv → Option Flv → Option (Option Flv)
  | [], fr => some fr
  | f :: fs, fr =>
    match passes rx subset f with
    | none => none
    | some false => pickLoop cores ram rx subset fs fr
    | some true => pickLoop cores ram rx subset fs (better cores ram fr f)

/-- cloud.go:532-575 `pickCheapestFlavorFromSubset` -/
def pick (cores ram : Int) (rx : Option Rx) (subset : List (Option Rx)) (fs : List Flv) : Option (Option Flv) :=
  pickLoop cores ram rx subset fs none

/-- the results of the two methods -/
inductive Res (α : Type) where
  | ok (a : α)
  | badRegex
  | noFlavor
  | panic

/-- cloud.go:501-512 `CheapestServerFlavor` -/
def cheapestServerFlavor (compile : String → Option Rx) (fs : List Flv) (cores ram : Int) (regex : String) : Res Flv :=
  match regexStrToRegexp compile regex with
  | none => .badRegex
  | some r =>
    match pick cores ram r [] fs with
    | none => .panic
    | some none => .noFlavor
    | some (some f) => .ok f

/-- cloud.go:609-616, the regexps of one set -/
def compileSet (compile : String → Option Rx) : List String → Option (List (Option Rx))
  | [] => some []
  | s :: rest =>
    match regexStrToRegexp compile s with
    | none => none
    | some r => (compileSet compile rest).map (r :: ·)

/-- cloud.go:607-620, the loop over the sets. The map of flavors is iterated over anew for each set: `fs i` is the order for set number `i`. -/
def setLoop (compile : String → Option Rx) (cores ram : Int) (r : Option Rx) (fs : Nat → List Flv) : Nat → List (List String) → Res (List (Option Flv))
  | _, [] => .ok []
  | i, set :: sets =>
    match compileSet compile set with
    | none => .badRegex
    | some subset =>
      match pick cores ram r subset (fs i) with
      | none => .panic
      | some m =>
        match setLoop compile cores ram r fs (i + 1) sets with
        | .ok ms => .ok (m :: ms)
        | e => e

/-- cloud.go:590-623 `CheapestServerFlavors`. With no sets and no flavor the code returns a slice of one nil together with the
error; the model has the error. -/
def cheapestServerFlavors (compile : String → Option Rx) (fs : Nat → List Flv) (cores ram : Int) (regex : String) (sets : List (List String)) :
    Res (List (Option Flv)) :=
  if sets.length = 0 then
    match cheapestServerFlavor compile (fs 0) cores ram regex with
    | .ok f => .ok [some f]
    | .badRegex => .badRegex
    | .noFlavor => .noFlavor
    | .panic => .panic
  else
    match regexStrToRegexp compile regex with
    | none => .badRegex
    | some r => setLoop compile cores ram r fs 0 sets

end Verif.Cloud.Flavors
