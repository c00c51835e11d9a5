/-
Details of jobs on status web pages: a page asks for details of jobs and is then sent the new details whenever one of them changes.
jobqueue/serverWebI.go:297-352 and 397-419 (the requests for details), 200-245 and 430-465 (the connection), jobqueue/server.go:1694-1775
(the last part of the changed callback), 3086-3127 (the connections), 3284-3334 (the subscriptions).

The details of a job are represented by a number that grows with every change of them. The queue calls the changed callback in a goroutine for a list of
jobs; the callback copies the subscriptions, then takes the jobs one after another, reads the details of the job, looks which of the
connections are open, and starts a goroutine for each of them that writes when it gets the connection. Simplifications: writing works as long
as the connection is open; a job is not changed between looking it up and copying it; a connection is closed and its subscriptions are
removed in one step; the waiting of the callback for a job to start (1716-1728) is the time between its steps.
-/
namespace Verif.Server.Push

/-- a change, as sent to a page or on its way: connection, key of the job, details -/
structure Msg where
  conn : Nat
  key : Nat
  ver : Nat
deriving DecidableEq, Repr

/-- a callback that has copied the subscriptions: the jobs that are left, and the subscriptions (connection, key) -/
structure Work where
  keys : List Nat
  subs : List (Nat × Nat)
deriving DecidableEq, Repr

structure S where
  /-- the details of each job -/
  ver : Nat → Nat := fun _ => 0
  /-- `wsconns` -/
  conns : List Nat := []
  /-- connections there have been -/
  used : List Nat := []
  /-- `jobSubscriptions` -/
  subs : List (Nat × Nat) := []
  /-- callbacks that have not begun -/
  pend : List (List Nat) := []
  work : List Work := []
  /-- goroutines that want to write -/
  fly : List Msg := []
  /-- requests whose jobs have been read, and that are not written yet -/
  asks : List (List Msg) := []
  /-- what was written to pages, the last one at the end -/
  got : List Msg := []
  /-- (not in the code) subscriptions whose last change of details no callback is going to see -/
  late : List (Nat × Nat) := []

inductive Ev where
  | openConn (c : Nat)
  | close (c : Nat)
  /-- the jobs are moved together to another sub-queue, and the callback is started -/
  | change (ks : List Nat)
  /-- other details of a job are set without the callback: releaseJob (server.go:2119-2139) and kickJobs (2322-2325) after the job was
  moved, jstart, jtouch, jmod -/
  | touch (k : Nat)
  /-- the i-th callback copies the subscriptions -/
  | begin (i : Nat)
  /-- the i-th working callback handles its next job -/
  | push (i : Nat)
  /-- a request for details reads the jobs -/
  | ask (c : Nat) (ks : List Nat)
  /-- the i-th request writes the details and subscribes -/
  | answer (i : Nat)
  /-- the i-th goroutine writes -/
  | deliver (i : Nat)
  | unsub (c : Nat) (k : Nat)
  | unsubAll (c : Nat)
deriving DecidableEq, Repr

/-- server.go:1694-1702: from the subscriptions of connections to the connections of each job; 1710-1714: those of the next job, and
1741-1761: that are open -/
def readers (s : S) (w : Work) (k : Nat) : List Nat := ((w.subs.filter (·.2 = k)).map (·.1)).filter (· ∈ s.conns)

/-- server.go:1706-1775: the next job of a callback -/
def doPush (s : S) (w : Work) (k : Nat) : List Msg := (readers s w k).map fun c => ⟨c, k, s.ver k⟩

/-- a callback that will still look at the job for the page -/
def awaits (s : S) (c k : Nat) : Bool := s.pend.any (k ∈ ·) || s.work.any fun w => k ∈ w.keys && (c, k) ∈ w.subs

def step (s : S) : Ev → Option S
  | .openConn c => if c ∈ s.used then none else some { s with conns := c :: s.conns, used := c :: s.used }
  | .close c =>
    some { s with conns := s.conns.filter (· ≠ c), subs := s.subs.filter (·.1 ≠ c) }
  | .change ks =>
    some { s with
      ver := fun k => if k ∈ ks then s.ver k + 1 else s.ver k
      pend := s.pend ++ [ks]
      late := s.late.filter (·.2 ∉ ks) }
  | .touch k =>
    some { s with
      ver := fun k' => if k' = k then s.ver k' + 1 else s.ver k'
      late := s.late ++ s.subs.filter fun p => p.2 = k && !awaits s p.1 p.2 }
  | .begin i =>
    match s.pend[i]? with
    | some ks => some { s with pend := s.pend.eraseIdx i, work := s.work ++ [⟨ks, s.subs⟩] }
    | none => none
  | .push i =>
    match s.work[i]? with
    | some ⟨k :: ks, sb⟩ => some { s with work := s.work.set i ⟨ks, sb⟩, fly := s.fly ++ doPush s ⟨k :: ks, sb⟩ k }
    | some ⟨[], _⟩ => some { s with work := s.work.eraseIdx i }
    | none => none
  | .ask c ks =>
    if c ∈ s.conns then some { s with asks := s.asks ++ [ks.map fun k => ⟨c, k, s.ver k⟩] } else none
  | .answer i =>
    match s.asks[i]? with
    | some ms =>
      let ms' := ms.filter (·.conn ∈ s.conns)
      some { s with
        asks := s.asks.eraseIdx i
        got := s.got ++ ms'
        subs := s.subs ++ (ms'.map fun m => (m.conn, m.key)).filter (· ∉ s.subs)
        late := (s.late.filter fun p => p ∉ ms'.map fun m => (m.conn, m.key)) ++
          (ms'.filter fun m => m.ver ≠ s.ver m.key && !awaits s m.conn m.key).map fun m => (m.conn, m.key) }
    | none => none
  | .deliver i =>
    match s.fly[i]? with
    | some m => some { s with fly := s.fly.eraseIdx i, got := if m.conn ∈ s.conns then s.got ++ [m] else s.got }
    | none => none
  | .unsub c k => some { s with subs := s.subs.filter (· ≠ (c, k)) }
  | .unsubAll c => some { s with subs := s.subs.filter (·.1 ≠ c) }

def run (s : S) : List Ev → Option S
  | [] => some s
  | e :: es => (step s e).bind fun s => run s es

end Verif.Server.Push
