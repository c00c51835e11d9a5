/-
Running a command on a cloud server over ssh, and its cancellation when the server is destroyed or on request.
cloud/server.go:786-860 (RunCmd), 1283-1287 (Destroy).

One call of RunCmd: the caller, a goroutine that waits for the cancellation, and one that runs the command; the channels between them all
have room for one element. What matters of the elements is who sent them. The steps are the channel operations.
-/
namespace Verif.Cloud.RunCmd

inductive Who where
  | runner | canceller
deriving DecidableEq, Repr

/-- where a goroutine is that sends three elements: 812-818 and 838-854 -/
inductive Pc where
  /-- waiting, or running the command -/
  | wait
  /-- the runner: about to send on `finished` (838) -/
  | tell
  | out
  | err
  | done
  /-- the canceller: about to remove the registration (821-824) -/
  | leave
  | ended
deriving DecidableEq, Repr

/-- the caller: 856-859 -/
inductive Main where
  | wait
  | gotDone (d : Who)
  | gotOut (d o : Who)
  | returned (d o e : Who)
deriving DecidableEq, Repr

structure S where
  main : Main := .wait
  runner : Pc := .wait
  canceller : Pc := .wait
  outCh : Option Who := none
  errCh : Option Who := none
  doneCh : Option Who := none
  finished : Bool := false
  /-- `cancelCh` has an element -/
  cancelCh : Bool := false
  closed : Bool := false
  /-- `cancelCh` is in `cancelRunCmd` -/
  registered : Bool := true
  /-- `destroyed` of the server -/
  destroyed : Bool := false
  /-- the context is done -/
  ctxDone : Bool := false
  /-- (not in the code) the command has ended -/
  cmdEnded : Bool := false
  /-- (not in the code) how many elements the runner and the canceller have sent to the caller -/
  rsent : Nat := 0
  csent : Nat := 0
deriving DecidableEq, Repr

inductive Ev where
  /-- the command ends (or the connection breaks) -/
  | cmdEnds
  /-- the next channel operation of the runner -/
  | runner
  /-- the canceller's select takes the cancellation (811), the context (815), the end (819); or its next channel operation -/
  | selCancel
  | selCtx
  | selFinished
  | canceller
  | main
  /-- the first Destroy: 1285-1287 -/
  | destroy
  | ctxDone
deriving DecidableEq, Repr

/-- sending the three elements -/
def send (s : S) (w : Who) (pc : Pc) : Option (S × Pc) :=
  match pc with
  | .out => if s.outCh = none then some ({ s with outCh := some w }, .err) else none
  | .err => if s.errCh = none then some ({ s with errCh := some w }, .done) else none
  | .done => if s.doneCh = none then some ({ s with doneCh := some w }, match w with | .runner => .ended | .canceller => .leave) else none
  | _ => none

inductive Res where
  | ok (s : S)
  /-- the step is not possible (now) -/
  | blocked
  | panics
deriving DecidableEq, Repr

def step (s : S) : Ev → Res
  | .cmdEnds => if s.runner = .wait then .ok { s with runner := .tell, cmdEnded := true } else .blocked
  | .runner =>
    if s.runner = .tell then (if s.finished = false then .ok { s with finished := true, runner := .out } else .blocked)
    else match send s .runner s.runner with
      | some (s', pc) => .ok { s' with runner := pc, rsent := s.rsent + 1 }
      | none => .blocked
  | .selCancel => if s.canceller = .wait ∧ s.cancelCh = true then .ok { s with cancelCh := false, canceller := .out } else .blocked
  | .selCtx => if s.canceller = .wait ∧ s.ctxDone = true then .ok { s with canceller := .out } else .blocked
  | .selFinished => if s.canceller = .wait ∧ s.finished = true then .ok { s with finished := false, canceller := .leave } else .blocked
  | .canceller =>
    if s.canceller = .leave then
      (if s.closed then .panics else .ok { s with closed := true, registered := false, canceller := .ended })
    else match send s .canceller s.canceller with
      | some (s', pc) => .ok { s' with canceller := pc, csent := s.csent + 1 }
      | none => .blocked
  | .main =>
    match s.main with
    | .wait => match s.doneCh with
      | some w => .ok { s with doneCh := none, main := .gotDone w }
      | none => .blocked
    | .gotDone d => match s.outCh with
      | some w => .ok { s with outCh := none, main := .gotOut d w }
      | none => .blocked
    | .gotOut d o => match s.errCh with
      | some w => .ok { s with errCh := none, main := .returned d o w }
      | none => .blocked
    | .returned _ _ _ => .blocked
  | .destroy =>
    if s.destroyed then .ok s
    else if s.registered then
      (if s.closed then .panics else if s.cancelCh then .blocked else .ok { s with cancelCh := true, destroyed := true })
    else .ok { s with destroyed := true }
  | .ctxDone => .ok { s with ctxDone := true }

def run (s : S) : List Ev → Res
  | [] => .ok s
  | e :: es =>
    match step s e with
    | .ok t => run t es
    | r => r

end Verif.Cloud.RunCmd
