/-!
# Behaviours (jobqueue/behaviours.go)

Simplifications: what an action does is left out, except whether it fails; the text of errors is left out, except that there
is one. The JSON encoding itself is Go's and is left out: the model ends at the struct that is encoded.
-/
namespace Verif.Client

/-- behaviours.go:39-53: bits of a `BehaviourTrigger` -/
def onExit : UInt8 := 1
def onSuccess : UInt8 := 2
def onFailure : UInt8 := 4

/-- behaviours.go:61-102: the actions; `other` stands for a value that is none of them -/
inductive Do where
  | cleanupAll | cleanup | run | copyToManager | nothing | remove | other (n : Nat)
  deriving DecidableEq, Repr

/-- the dynamic type of `Arg` -/
inductive Arg where
  | none | str (s : String) | strs (l : List String) | other
  deriving DecidableEq, Repr

/-- behaviours.go:104-110 `Behaviour`; `when` is a keyword -/
structure Behaviour where
  on : UInt8
  act : Do
  arg : Arg := .none
  deriving DecidableEq, Repr

/-- What is done: the action is carried out. `cleanup` and the others are told apart by `act` and `arg`. -/
abbrev Effects := List Behaviour

/-- behaviours.go:112-130 `Behaviour.Trigger`: what was carried out and whether an error was returned; `fails` says of an
action whether it fails. The methods `run` (297-299) and `copyToManager` (314-317) do nothing but return an error if the
argument has the wrong type. -/
def Behaviour.trigger (fails : Behaviour → Bool) (b : Behaviour) (status : UInt8) : Effects × Bool :=
  if b.on &&& status = 0 then ([], false)
  else match b.act with
    | .cleanupAll => ([b], fails b)
    | .cleanup => ([b], fails b)
    | .run => match b.arg with
      | .str _ => ([b], fails b)
      | _ => ([], true)
    | .copyToManager => match b.arg with
      | .strs _ => ([b], fails b)
      | _ => ([], true)
    | .remove => ([], false)
    | .nothing => ([], false)
    | .other _ => ([], true)

/-- one of the loops of behaviours.go:332-345 -/
def loop (fails : Behaviour → Bool) (status : UInt8) : List Behaviour → Effects × Bool → Effects × Bool
  | [], acc => acc
  | b :: bs, (eff, err) => loop fails status bs (eff ++ (b.trigger fails status).1, err || (b.trigger fails status).2)

/-- behaviours.go:319-348 `Behaviours.Trigger` -/
def trigger (fails : Behaviour → Bool) (bs : List Behaviour) (success : Bool) : Effects × Bool :=
  if bs = [] then ([], false)
  else
    let status := if success then onSuccess else onFailure
    loop fails onExit bs (loop fails status bs ([], false))

/-- behaviours.go:351-359 `RemovalRequested` -/
def removalRequested (bs : List Behaviour) : Bool := bs.any fun b => b.act == .remove

/-- behaviours.go:388-395 `BehaviourViaJSON` -/
structure ViaJSON where
  run : String := ""
  copyToManager : List String := []
  cleanup : Bool := false
  cleanupAll : Bool := false
  remove : Bool := false
  nothing : Bool := false
  deriving DecidableEq, Repr

/-- behaviours.go:398-423 `BehaviourViaJSON.Behaviour` -/
def ViaJSON.behaviour (bj : ViaJSON) (w : UInt8) : Behaviour :=
  if bj.run ≠ "" then ⟨w, .run, .str bj.run⟩
  else if 0 < bj.copyToManager.length then ⟨w, .copyToManager, .strs bj.copyToManager⟩
  else if bj.cleanup then ⟨w, .cleanup, .none⟩
  else if bj.cleanupAll then ⟨w, .cleanupAll, .none⟩
  else if bj.remove then ⟨w, .remove, .none⟩
  else ⟨w, .nothing, .none⟩

/-- behaviours.go:431-437 `BehavioursViaJSON.Behaviours` -/
def behaviours (bjs : List ViaJSON) (w : UInt8) : List Behaviour := bjs.map (·.behaviour w)

/-- behaviours.go:440-445 `bvjMapping` -/
structure Mapping where
  onFailure : List ViaJSON := []
  onSuccess : List ViaJSON := []
  onFS : List ViaJSON := []
  onExit : List ViaJSON := []
  deriving DecidableEq, Repr

/-- behaviours.go:135-163 the first half of `fillBVJM` -/
def Behaviour.viaJSON (b : Behaviour) : Option ViaJSON :=
  match b.act with
  | .run => some { run := match b.arg with | .str s => s | _ => "!invalid!" }
  | .copyToManager => some { copyToManager := match b.arg with | .strs l => l | _ => ["!invalid!"] }
  | .cleanup => some { cleanup := true }
  | .cleanupAll => some { cleanupAll := true }
  | .remove => some { remove := true }
  | .nothing => some { nothing := true }
  | .other _ => none

/-- behaviours.go:134-177 `fillBVJM` -/
def Behaviour.fill (b : Behaviour) (m : Mapping) : Mapping :=
  match b.viaJSON with
  | none => m
  | some j =>
    if b.on = Client.onFailure then { m with onFailure := m.onFailure ++ [j] }
    else if b.on = Client.onSuccess then { m with onSuccess := m.onSuccess ++ [j] }
    else if b.on = Client.onFailure ||| Client.onSuccess then { m with onFS := m.onFS ++ [j] }
    else if b.on = Client.onExit then { m with onExit := m.onExit ++ [j] }
    else m

/-- behaviours.go:365-384 `Behaviours.String`, up to the encoding -/
def mapping (bs : List Behaviour) : Mapping := bs.foldl (fun m b => b.fill m) {}

/-- serverREST.go:396-408 what `Convert` makes of the three keys of a job's JSON -/
def ofMapping (m : Mapping) : List Behaviour :=
  behaviours m.onFailure onFailure ++ behaviours m.onSuccess onSuccess ++ behaviours m.onExit onExit

end Verif.Client
