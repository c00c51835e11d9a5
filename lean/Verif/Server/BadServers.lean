/-!
# Cloud servers that have gone bad

(jobqueue/server.go: the callback for bad servers in Serve, getBadServers, killBadCloudServers, destroyBadCloudServer,
killCloudServer, killJobsOnServers; jobqueue/serverREST.go restBadServers; jobqueue/serverWebI.go confirmBadServer;
jobqueue/serverCLI.go getbcs, dch; jobqueue/scheduler/openstack.go stateUpdate, runCmd; cloud/server.go GoneBad, NotBad,
IsBad, BadDuration, Destroy)

The scheduler marks servers as bad or good and then calls the server's callback; users confirm that bad servers are dead;
a timer does it for them.  One event is one step that no other can interleave with.

Simplifications: servers are numbers; looking whether a server is bad and destroying it is one step; what is sent to the
status page is left out, and so are ssh and the script that is run before a server is destroyed; killing the jobs on a
server happens together with its destruction and is noted in `killed`.  Requests that confirm several servers are one
event per server (the code holds a lock meanwhile that keeps the callback, but not the scheduler, from running).
-/

namespace Verif.Server.BadServers

/-- cloud/server.go:113-156: since when it is bad (goneBad), whether it has a permanent problem, whether it was destroyed
(destroyed) — and whether the virtual machine exists at the provider, which is not known to the code. -/
structure Srv where
  bad : Option Nat := none
  perm : Bool := false
  destroyed : Bool := false
  exist : Bool := true
deriving DecidableEq, Repr

/-- The state: the time, the servers, the keys of the map badServers (server.go:362), calls of the callback that the
scheduler is about to make, timers (server and time; server.go:902-904), requests of `wr cloud servers --confirmdead` that
have a copy of the list (one entry per server that was bad then; serverCLI.go:689-692), requests of the REST API or the
status page that have taken a server out of the map (serverREST.go:1011-1014, serverWebI.go:373-376), and (a ghost) the
servers the jobs on which were killed. -/
structure S where
  now : Nat := 0
  srv : Nat → Srv := fun _ => {}
  listed : Nat → Bool := fun _ => false
  notes : List Nat := []
  timers : List (Nat × Nat) := []
  asks : List Nat := []
  taken : List Nat := []
  killed : List Nat := []

/-- A map with one value changed. -/
def upd {α : Type} (f : Nat → α) (k : Nat) (v : α) : Nat → α := fun i => if i = k then v else f i

/-- GoneBad (cloud/server.go:1219-1227). -/
def goneBad (s : S) (id : Nat) (perm : Bool) : S :=
  { s with srv := upd s.srv id { s.srv id with bad := some s.now, perm := (s.srv id).perm || perm } }

/-- NotBad (cloud/server.go:1232-1240): whether it worked. -/
def notBad (s : S) (id : Nat) : S × Bool :=
  if !(s.srv id).destroyed && !(s.srv id).perm then ({ s with srv := upd s.srv id { s.srv id with bad := none } }, true)
  else (s, false)

/-- Destroy (cloud/server.go:1268-1345): does nothing if it was called before; `ok`: the provider did it. -/
def destroy (s : S) (id : Nat) (ok : Bool) : S :=
  if (s.srv id).destroyed then s
  else { s with srv := upd s.srv id { s.srv id with destroyed := true, bad := some ((s.srv id).bad.getD s.now),
                                                    exist := (s.srv id).exist && !ok } }

/-- killJobsOnServers (server.go:2276-2309), as far as it matters here. -/
def killJobs (s : S) (id : Nat) : S := { s with killed := s.killed ++ [id] }

/-- What can happen. -/
inductive Ev
  /-- a server is found to be not alive, or a command could not be run on it (a permanent problem) (openstack.go:1202,
  1275) -/
  | bad (id : Nat) (perm : Bool)
  /-- a bad server is found to be alive (openstack.go:1265-1269) -/
  | good (id : Nat)
  /-- the callback is called (server.go:889-947) -/
  | note (i : Nat)
  | tick (d : Nat)
  /-- a timer fires (server.go:903-927) -/
  | fire (i : Nat) (ok : Bool)
  /-- `getbcs` with ConfirmDeadCloudServers, for a server that is in the map and bad (serverCLI.go:689) -/
  | ask (id : Nat)
  /-- then killBadCloudServers for this server (server.go:2977-3014) -/
  | confirm (i : Nat) (ok : Bool)
  /-- DELETE over the REST API, or confirmBadServer of the status page: the server is taken out of the map -/
  | take (id : Nat)
  /-- then destroyed if it is bad (serverREST.go:1019-1024, serverWebI.go:377-382) -/
  | finish (i : Nat) (ok : Bool)
  /-- `dch`: killCloudServer (server.go:3032-3057) -/
  | killHost (id : Nat) (ok : Bool)
  /-- the scheduler destroys a server that is idle (cloud/server.go:399-452) -/
  | idle (id : Nat) (ok : Bool)
deriving DecidableEq, Repr

/-- One step, for the given AutoConfirmDead; `none` when the event cannot happen. -/
def step (auto : Nat) (s : S) : Ev → Option S
  | .bad id perm =>
    let s' := goneBad s id perm
    some { s' with notes := s'.notes ++ [id] }
  | .good id =>
    if (s.srv id).bad.isSome && !(s.srv id).perm then
      let (s', worked) := notBad s id
      some (if worked then { s' with notes := s'.notes ++ [id] } else s')
    else none
  | .note i => match s.notes[i]? with
    | some id =>
      let s := { s with notes := s.notes.eraseIdx i }
      some (if (s.srv id).bad.isSome then
          if (s.srv id).destroyed then s
          else { s with listed := upd s.listed id true,
                        timers := if auto > 0 then s.timers ++ [(id, s.now + auto)] else s.timers }
        else { s with listed := upd s.listed id false })
    | none => none
  | .tick d => some { s with now := s.now + d }
  | .fire i ok => match s.timers[i]? with
    | some (id, t) =>
      if t ≤ s.now then
        let s := { s with timers := s.timers.eraseIdx i }
        match (s.srv id).bad with
        | some since =>
          if s.listed id && decide (s.now - since ≥ auto) then
            some (killJobs (destroy { s with listed := upd s.listed id false } id ok) id)
          else some s
        | none => some s -- BadDuration is 0
      else none
    | none => none
  | .ask id => if s.listed id && (s.srv id).bad.isSome then some { s with asks := s.asks ++ [id] } else none
  | .confirm i ok => match s.asks[i]? with
    | some id =>
      let s := { s with asks := s.asks.eraseIdx i }
      let s' := { s with listed := upd s.listed id false }
      some (killJobs (if s.listed id && (s.srv id).bad.isSome then destroy s' id ok else s') id)
    | none => none
  | .take id => if s.listed id then some { s with listed := upd s.listed id false, taken := s.taken ++ [id] } else none
  | .finish i ok => match s.taken[i]? with
    | some id =>
      let s := { s with taken := s.taken.eraseIdx i }
      some (if (s.srv id).bad.isSome then destroy s id ok else s)
    | none => none
  | .killHost id ok =>
    let s := goneBad s id true
    some (killJobs (destroy { s with listed := upd s.listed id false } id ok) id)
  | .idle id ok => some (destroy s id ok)

/-- A sequence of steps. -/
def run (auto : Nat) (s : S) : List Ev → Option S
  | [] => some s
  | e :: es => match step auto s e with
    | some s' => run auto s' es
    | none => none

end Verif.Server.BadServers
