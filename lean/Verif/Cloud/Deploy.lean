/-
Deploying to a cloud and tearing down again: cloud/cloud.go:332-375 (New), 408-480 (Deploy), 881-946 (TearDown and the resources file)
and cloud/openstack.go:368-634 (deploy), 1172-1308 (tearDown).

One process at a time uses the resources file and the cloud; each call of the cloud's API is one step, and the process may be killed
between any two of them. Finding a resource and creating it if it is not there are one step, since nobody else acts in between; a call
that fails may nevertheless have had its effect (`Out.lost`). Simplifications: what is in the file about servers, and the servers map, are
left out; listing the servers to destroy fails as a whole or not at all, and servers are destroyed one after another; the details of
subnets (CIDR, gateway) and of the networks of the host are left out; routers and networks that are in use can be deleted (the outcome
`fail` stands for the cloud's refusal).
-/
namespace Verif.Cloud.Deploy

abbrev Name := List Char

/-- a key pair in the cloud; `mat` stands for the key itself -/
structure Key where
  name : Name
  mat : Nat
deriving DecidableEq, Repr

/-- a security group; a rule is for a TCP port, or for ICMP (`none`) -/
structure Group where
  id : Nat
  name : Name
  rules : List (Option Nat) := []
deriving DecidableEq, Repr

structure Net where
  id : Nat
  name : Name
  subs : List Nat := []
deriving DecidableEq, Repr

structure Router where
  id : Nat
  name : Name
  ifaces : List Nat := []
deriving DecidableEq, Repr

structure Srv where
  id : Nat
  name : Name
deriving DecidableEq, Repr

/-- what is in the cloud; ids below `next` may have been used -/
structure World where
  keys : List Key := []
  groups : List Group := []
  nets : List Net := []
  routers : List Router := []
  servers : List Srv := []
  next : Nat := 0
deriving DecidableEq, Repr

/-- cloud.go:178-186 `Resources`: `PrivateKey` (`none` if it is ""), and `Details` -/
structure Res where
  pk : Option Nat := none
  keypair : Option Name := none
  group : Option Nat := none
  net : Option Nat := none
  subnet : Option Nat := none
  router : Option Nat := none
deriving DecidableEq, Repr

/-- the resources file; `torn` is one that cannot be decoded -/
inductive File where
  | absent
  | torn
  | saved (r : Res)
deriving DecidableEq, Repr

/-- what the user asked for and was told -/
inductive Said where
  | newFailed
  | deploying
  | deployed
  | deployFailed
  | tore
  | nothing
  | tearFailed
  | killed
deriving DecidableEq, Repr

/-- where the process is -/
inductive Pc where
  /-- there is no process -/
  | off
  /-- not in Deploy() or TearDown() -/
  | idle
  | key
  | group
  | rules (g : Nat) (l : List (Option Nat))
  | hostNet
  | net
  | subnet (n : Nat)
  | router
  | iface (r : Nat)
  | unroute (r : Nat)
  | trunc
  | write
  | know
  | tList
  | tSrv (l : List Nat)
  | tIface (tries : Nat)
  | tRouter
  | tNet
  | tGroup
  | tKey
  | tFile
deriving DecidableEq, Repr

structure S where
  w : World := {}
  disk : File := .absent
  pc : Pc := .off
  /-- `resources` -/
  m : Res := {}
  /-- openstack.go: `createdKeyPair` -/
  made : Bool := false
  /-- openstack.go: `securityGroup` -/
  sg : Name := []
  /-- of tearDown: there are errors; `didSomething` -/
  merr : Bool := false
  did : Bool := false
  log : List Said := []
deriving DecidableEq, Repr

/-- what New() and Deploy() are given: the resource name, the ports, and the name of the host if it is a server in this cloud (else empty;
openstack.go:665-695 `inCloud`) -/
structure Cfg where
  name : Name
  ports : List Nat
  own : Name := []
deriving DecidableEq, Repr

/-- outcome of a call of the API: `fail` is an error without effect, `lost` is an error though the call had its effect -/
inductive Out where
  | ok
  | fail
  | lost
deriving DecidableEq, Repr

inductive Ev where
  | new
  | deploy
  | tear
  /-- a server is spawned (openstack.go:811-818); the second part of its name -/
  | spawn (uuid : List Char)
  | next (o : Out)
  | kill
deriving DecidableEq, Repr

/-- openstack.go:101, 371: letters, digits, underscores, spaces and hyphens, at least one -/
def validChar (c : Char) : Bool :=
  ('a' ≤ c && c ≤ 'z') || ('A' ≤ c && c ≤ 'Z') || ('0' ≤ c && c ≤ '9') || c = '_' || c = ' ' || c = '-'

def validName (n : Name) : Bool := !n.isEmpty && n.all validChar

/-- cloud.go:162 -/
def hostChar (c : Char) : Bool := ('a' ≤ c && c ≤ 'z') || ('0' ≤ c && c ≤ '9') || c = '-'

/-- cloud.go:962: each run of other characters becomes one hyphen; `inRun` if the character before was such -/
def squash (inRun : Bool) : List Char → List Char
  | [] => []
  | c :: cs => if hostChar c then c :: squash false cs else if inRun then squash true cs else '-' :: squash true cs

/-- cloud.go:960-967 `nameToHostName`, for ASCII -/
def hostName (n : Name) : Name := (squash false (n.map Char.toLower)).take 63

/-- openstack.go:427-447: looking for the security group in the list; `d` is `defaultGroupExists`, `g` the one found so far -/
def pick (n : Name) (d : Bool) (g : Option Nat) : List Group → Option Nat
  | [] => g
  | x :: xs =>
    if x.name = n then
      (if d then some x.id
       else if x.name = "default".toList then some x.id
       else pick n d (some x.id) xs)
    else if x.name = "default".toList then (if g.isSome then g else pick n true g xs)
    else pick n d g xs

/-- the rule is added to the group (openstack.go:461-480) -/
def addRule (g : Nat) (r : Option Nat) (l : List Group) : List Group :=
  l.map fun x => if x.id = g then { x with rules := x.rules ++ [r] } else x

def addSub (n sub : Nat) (l : List Net) : List Net := l.map fun x => if x.id = n then { x with subs := x.subs ++ [sub] } else x

def addIface (r sub : Nat) (l : List Router) : List Router :=
  l.map fun x => if x.id = r then { x with ifaces := x.ifaces ++ [sub] } else x

def delIface (r sub : Nat) (l : List Router) : List Router :=
  l.map fun x => if x.id = r then { x with ifaces := x.ifaces.filter (· ≠ sub) } else x

/-- Deploy() returns an error -/
def failed (s : S) : S := { s with pc := .idle, log := s.log ++ [.deployFailed] }

/-- openstack.go:492-496: after the key pair and the security group -/
def afterGroup (c : Cfg) : Pc := if c.own = [] then .net else .hostNet

/-- openstack.go:384-416: the key pair -/
def doKey (c : Cfg) (s : S) (o : Out) : S :=
  let then_ : Pc := if c.ports = [] then afterGroup c else .group
  if s.w.keys.any (·.name = c.name) then
    (if o = .ok then { s with m := { s.m with keypair := some c.name }, pc := then_ } else failed s)
  else
    let w := { s.w with keys := s.w.keys ++ [⟨c.name, s.w.next⟩], next := s.w.next + 1 }
    match o with
    | .ok => { s with w := w, m := { s.m with pk := some s.w.next, keypair := some c.name }, made := true, pc := then_ }
    | .fail => failed s
    | .lost => failed { s with w := w }

/-- openstack.go:420-455, 486-488: the security group -/
def doGroup (c : Cfg) (s : S) (o : Out) : S :=
  match pick c.name false none s.w.groups with
  | some g => if o = .ok then { s with m := { s.m with group := some g }, sg := c.name, pc := afterGroup c } else failed s
  | none =>
    let w := { s.w with groups := s.w.groups ++ [{ id := s.w.next, name := c.name }], next := s.w.next + 1 }
    match o with
    | .ok => { s with w := w, pc := .rules s.w.next (c.ports.map some ++ [none]) }
    | .fail => failed s
    | .lost => failed { s with w := w }

/-- openstack.go:457-488: the rules of a new security group -/
def doRule (c : Cfg) (s : S) (g : Nat) (r : Option Nat) (rs : List (Option Nat)) (o : Out) : S :=
  let w := { s.w with groups := addRule g r s.w.groups }
  match o with
  | .ok =>
    if rs = [] then { s with w := w, m := { s.m with group := some g }, sg := c.name, pc := afterGroup c }
    else { s with w := w, pc := .rules g rs }
  | .fail => failed s
  | .lost => failed { s with w := w }

/-- openstack.go:537-561: the network -/
def doNet (c : Cfg) (s : S) (o : Out) : S :=
  match s.w.nets.filter (·.name = c.name) with
  | [] =>
    let w := { s.w with nets := s.w.nets ++ [{ id := s.w.next, name := c.name }], next := s.w.next + 1 }
    (match o with
    | .ok => { s with w := w, m := { s.m with net := some s.w.next }, pc := .subnet s.w.next }
    | .fail => failed s
    | .lost => failed { s with w := w })
  | [n] => if o = .ok then { s with m := { s.m with net := some n.id }, pc := .subnet n.id } else failed s
  | _ => failed s

/-- the subnets of the network with this id -/
def subsOf (w : World) (n : Nat) : List Nat :=
  match w.nets.find? (·.id = n) with
  | some x => x.subs
  | none => []

/-- openstack.go:563-587: the subnet -/
def doSubnet (s : S) (n : Nat) (o : Out) : S :=
  match subsOf s.w n with
  | [sub] => { s with m := { s.m with subnet := some sub }, pc := .router }
  | _ =>
    let w := { s.w with nets := addSub n s.w.next s.w.nets, next := s.w.next + 1 }
    match o with
    | .ok => { s with w := w, m := { s.m with subnet := some s.w.next }, pc := .router }
    | .fail => failed s
    | .lost => failed { s with w := w }

/-- openstack.go:589-624: the router -/
def doRouter (c : Cfg) (s : S) (o : Out) : S :=
  match s.w.routers.find? (·.name = c.name) with
  | some r => if o = .ok then { s with m := { s.m with router := some r.id }, pc := .trunc } else failed s
  | none =>
    let w := { s.w with routers := s.w.routers ++ [{ id := s.w.next, name := c.name }], next := s.w.next + 1 }
    match o with
    | .ok => { s with w := w, pc := .iface s.w.next }
    | .fail => failed s
    | .lost => failed { s with w := w }

/-- openstack.go:624-634: the interface of a new router -/
def doIface (s : S) (r : Nat) (o : Out) : S :=
  let w := { s.w with routers := addIface r (s.m.subnet.getD 0) s.w.routers }
  match o with
  | .ok => { s with w := w, m := { s.m with router := some r }, pc := .trunc }
  | .fail => { s with pc := .unroute r }
  | .lost => { s with w := w, pc := .unroute r }

/-- openstack.go:629: a router without interface is deleted again -/
def doUnroute (s : S) (r : Nat) (o : Out) : S :=
  match o with
  | .fail => failed s
  | _ => failed { s with w := { s.w with routers := s.w.routers.filter (·.id ≠ r) } }

/-- openstack.go:1182-1196: the servers that are destroyed -/
def doomed (c : Cfg) (w : World) : List Nat :=
  (w.servers.filter fun x => decide (c.own ≠ x.name) && c.name.isPrefixOf x.name).map (·.id)

/-- openstack.go:1223: after the servers -/
def afterServers (c : Cfg) (l : List Nat) : Pc := if l ≠ [] then .tSrv l else if c.own = [] then .tIface 0 else .tKey

/-- openstack.go:1176-1200 -/
def doList (c : Cfg) (s : S) (o : Out) : S :=
  match o with
  | .ok => { s with did := decide (doomed c s.w ≠ []), pc := afterServers c (doomed c s.w) }
  | _ => { s with merr := true, pc := afterServers c [] }

/-- openstack.go:1201-1221: errors are ignored -/
def doSrv (c : Cfg) (s : S) (i : Nat) (l : List Nat) (o : Out) : S :=
  { s with
    w := if o = .fail then s.w else { s.w with servers := s.w.servers.filter (·.id ≠ i) }
    pc := afterServers c l }

/-- openstack.go:1225-1247: ten tries to remove the interface of the router -/
def doTIface (s : S) (tries : Nat) (o : Out) : S :=
  match s.m.router, s.m.subnet with
  | none, _ => { s with pc := .tNet }
  | some _, none => { s with pc := .tRouter }
  | some r, some sub =>
    let w := { s.w with routers := delIface r sub s.w.routers }
    if o = .ok ∧ (s.w.routers.any fun x => x.id = r && x.ifaces.contains sub) then { s with w := w, pc := .tRouter }
    else
      let s := if o = .lost then { s with w := w } else s
      if 10 ≤ tries + 1 then { s with merr := s.merr || decide (o ≠ .ok), pc := .tRouter }
      else { s with pc := .tIface (tries + 1) }

/-- openstack.go:1248-1255: the router; one that is not there is no error (1303-1308 `combineError`) -/
def doTRouter (s : S) (o : Out) : S :=
  match s.m.router with
  | none => { s with pc := .tNet }
  | some r =>
    let w := { s.w with routers := s.w.routers.filter (·.id ≠ r) }
    match o with
    | .ok => { s with w := w, did := s.did || s.w.routers.any (·.id = r), pc := .tNet }
    | .fail => { s with merr := true, pc := .tNet }
    | .lost => { s with w := w, merr := true, pc := .tNet }

/-- openstack.go:1258-1266 -/
def doTNet (s : S) (o : Out) : S :=
  match s.m.net with
  | none => { s with pc := .tGroup }
  | some n =>
    let w := { s.w with nets := s.w.nets.filter (·.id ≠ n) }
    match o with
    | .ok => { s with w := w, did := s.did || s.w.nets.any (·.id = n), pc := .tGroup }
    | .fail => { s with merr := true, pc := .tGroup }
    | .lost => { s with w := w, merr := true, pc := .tGroup }

/-- openstack.go:1269-1277 -/
def doTGroup (s : S) (o : Out) : S :=
  match s.m.group with
  | none => { s with pc := .tKey }
  | some g =>
    let w := { s.w with groups := s.w.groups.filter (·.id ≠ g) }
    match o with
    | .ok => { s with w := w, did := s.did || s.w.groups.any (·.id = g), pc := .tKey }
    | .fail => { s with merr := true, pc := .tKey }
    | .lost => { s with w := w, merr := true, pc := .tKey }

/-- openstack.go:1294-1300, cloud.go:885-893: the end of tearDown -/
def finish (s : S) : S :=
  if s.merr then { s with pc := .idle, log := s.log ++ [.tearFailed] }
  else if !s.did then { s with pc := .idle, log := s.log ++ [.nothing] }
  else if s.m.pk = none then { s with pc := .tFile }
  else { s with pc := .idle, log := s.log ++ [.tore] }

/-- openstack.go:1280-1292: the key pair -/
def doTKey (c : Cfg) (s : S) (o : Out) : S :=
  match s.m.keypair with
  | none => finish s
  | some k =>
    if s.made || c.own = [] || (s.sg ≠ [] && s.sg ≠ k) then
      let w := { s.w with keys := s.w.keys.filter (·.name ≠ k) }
      let m := { s.m with pk := none }
      (match o with
      | .ok => finish { s with w := w, m := m }
      | .fail => finish { s with merr := true, m := m }
      | .lost => finish { s with w := w, merr := true, m := m })
    else finish s

/-- cloud.go:890-895: the file is removed -/
def doFile (s : S) (o : Out) : S :=
  match o with
  | .fail => { s with pc := .idle, log := s.log ++ [.tearFailed] }
  | _ => { s with disk := .absent, pc := .idle, log := s.log ++ [.tore] }

/-- the next call of the process, with its outcome -/
def next (c : Cfg) (s : S) (o : Out) : Option S :=
  match s.pc with
  | .off | .idle => none
  | .key => some (doKey c s o)
  | .group => some (doGroup c s o)
  | .rules g (r :: rs) => some (doRule c s g r rs o)
  | .rules _ [] => none
  | .hostNet => some (if o = .ok then { s with pc := .trunc } else failed s) -- openstack.go:496-533
  | .net => some (doNet c s o)
  | .subnet n => some (doSubnet s n o)
  | .router => some (doRouter c s o)
  | .iface r => some (doIface s r o)
  | .unroute r => some (doUnroute s r o)
  | .trunc => some (if o = .ok then { s with disk := .torn, pc := .write } else failed s) -- cloud.go:905
  | .write => some (if o = .ok then { s with disk := .saved s.m, pc := .know } else failed s) -- cloud.go:912-913
  | .know => -- cloud.go:436-463
    some (if o = .ok then { s with pc := .idle, log := s.log ++ [.deployed] } else failed s)
  | .tList => some (doList c s o)
  | .tSrv (i :: l) => some (doSrv c s i l o)
  | .tSrv [] => none
  | .tIface k => some (doTIface s k o)
  | .tRouter => some (doTRouter s o)
  | .tNet => some (doTNet s o)
  | .tGroup => some (doTGroup s o)
  | .tKey => some (doTKey c s o)
  | .tFile => some (doFile s o)

def step (c : Cfg) (s : S) : Ev → Option S
  | .new => -- cloud.go:332-375, 917-946
    if s.pc = .off then
      (match s.disk with
      | .torn => some { s with log := s.log ++ [.newFailed] }
      | .absent => some { s with pc := .idle, m := {}, made := false, sg := [] }
      | .saved r => some { s with pc := .idle, m := r, made := false, sg := [] })
    else none
  | .deploy =>
    if s.pc = .idle then
      (if validName c.name then some { s with pc := .key, log := s.log ++ [.deploying] }
       else some { s with log := s.log ++ [.deployFailed] })
    else none
  | .tear => if s.pc = .idle then some { s with pc := .tList, merr := false, did := false } else none
  | .spawn u =>
    if s.pc = .idle then
      some { s with w := { s.w with servers := s.w.servers ++ [⟨s.w.next, c.name ++ '-' :: u⟩], next := s.w.next + 1 } }
    else none
  | .next o => next c s o
  | .kill => if s.pc = .off then none else some { s with pc := .off, log := s.log ++ [.killed] }

def run (c : Cfg) (s : S) : List Ev → Option S
  | [] => some s
  | e :: es => (step c s e).bind fun s => run c s es

end Verif.Cloud.Deploy
