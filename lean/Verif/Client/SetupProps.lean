import Verif.Client.Setup
/-!
# C106: what is left of a job that could not be started
-/
namespace Verif.Client.Setup

namespace Spec

/-- all that is needed before the command of a job may be started -/
def Ready (j : Job) (e : Env) : Prop :=
  e.mine = true ∧ e.cmdLine = true ∧ e.pipes = true ∧ e.cwd = true ∧ (j.cwdMatters = false → e.hashed = true) ∧
  (j.bsub = true → e.lsfDir = true ∧ e.symlinks = true ∧ e.json = true) ∧
  (j.mounts = true → e.mount = true ∨ e.couldFail = true ∨ (e.fuse = true ∧ e.again = true)) ∧ e.env = true ∧
  (j.docker = true → e.docker = true ∧ (j.dockerFirst = true → e.remember = true))

/-- the failure was one for this reason -/
def Cause (j : Job) (e : Env) : Reason → Prop
  | .cwd => e.cwd = false ∨ (j.cwdMatters = false ∧ e.hashed = false) ∨ (j.bsub = true ∧ (e.lsfDir = false ∨ e.symlinks = false))
  | .mount => j.mounts = true ∧ e.mount = false ∧ e.couldFail = false
  | .env => e.env = false
  | .json => j.bsub = true ∧ e.json = false
  | .docker => j.docker = true ∧ (e.docker = false ∨ e.remember = false)
  | .start => e.start = false

end Spec

/-- nothing was told or started yet -/
structure Pre (o : Out) : Prop where
  failed : o.failed = false
  told : o.told = []
  started : o.started = false
  killed : o.killed = false
  triggered : o.triggered = []

/-- what holds of the result -/
structure Post (j : Job) (e : Env) (o : Out) : Prop where
  fine : o.failed = false → o.started = true ∧ e.started = true ∧ o.told = [] ∧ o.killed = false ∧ o.triggered = []
  one : o.failed = true → (o.started = false ∧ o.triggered = [] ∧ ∃ r, (o.told = [.bury r] ∨ o.told = [.release r]) ∧ Spec.Cause j e r) ∨
    (o.started = true ∧ e.started = false ∧ o.killed = true ∧ o.triggered = [false] ∧ o.told = [] ∧ o.mounted = false)
  mnt : o.failed = true → o.mounted = true → Spec.Cause j e .docker ∨ Spec.Cause j e .json
  lsf : o.failed = true → o.lsf = false

/-- a failure that is told -/
theorem post_fail {j : Job} {e : Env} {o : Out} {b : Bool} {r : Reason} (t : Told) (p : Pre o) (ht : t = .bury r ∨ t = .release r)
    (hc : Spec.Cause j e r) (hm : o.mounted = true → Spec.Cause j e .docker ∨ Spec.Cause j e .json) : Post j e ((o.tell t).fail b) := by
  obtain ⟨p1, p2, p3, p4, p5⟩ := p
  constructor
  · intro h; simp [Out.fail] at h
  · intro _
    refine .inl ⟨p3, p5, r, ?_, hc⟩
    rcases ht with rfl | rfl <;> simp [Out.fail, Out.tell, p2]
  · exact fun _ => hm
  · exact fun _ => rfl

theorem launch_post (j : Job) (e : Env) (o : Out) (p : Pre o) : Post j e (launch e o) := by
  unfold launch
  split
  · have := post_fail (j := j) (e := e) (o := { o with mounted := false }) (b := true) (.release .start) ⟨p.1, p.2, p.3, p.4, p.5⟩ (.inr rfl)
      (by simp_all [Spec.Cause]) (by simp)
    exact this
  · split
    · obtain ⟨p1, p2, p3, p4, p5⟩ := p
      constructor
      · intro h; simp [Out.fail] at h
      · intro _; right; simp_all [Out.fail]
      · intro _ h; simp [Out.fail] at h
      · exact fun _ => rfl
    · obtain ⟨p1, p2, p3, p4, p5⟩ := p
      constructor <;> simp_all

theorem docker_post (j : Job) (e : Env) (o : Out) (p : Pre o) : Post j e (docker j e o) := by
  unfold docker
  split
  · exact post_fail _ p (.inl rfl) (by simp_all [Spec.Cause]) (fun _ => .inl (by simp_all [Spec.Cause]))
  · split
    · exact post_fail _ p (.inl rfl) (by simp_all [Spec.Cause]) (fun _ => .inl (by simp_all [Spec.Cause]))
    · exact launch_post j e o p

theorem environ_post (j : Job) (e : Env) (o : Out) (p : Pre o) : Post j e (environ j e o) := by
  unfold environ
  split
  · have := post_fail (j := j) (e := e) (o := { o with mounted := false }) (b := false) (.bury .env) ⟨p.1, p.2, p.3, p.4, p.5⟩ (.inl rfl)
      (by simp_all [Spec.Cause]) (by simp)
    exact this
  · split
    · exact post_fail _ p (.inl rfl) (by simp_all [Spec.Cause]) (fun _ => .inr (by simp_all [Spec.Cause]))
    · exact docker_post j e o p

theorem mount_post (j : Job) (e : Env) (o : Out) (p : Pre o) (hm : o.mounted = false) : Post j e (mount j e o) := by
  unfold mount
  split
  · exact environ_post j e _ ⟨p.1, p.2, p.3, p.4, p.5⟩
  · split
    · exact environ_post j e _ p
    · split
      · exact environ_post j e _ ⟨p.1, p.2, p.3, p.4, p.5⟩
      · exact post_fail _ p (.inl rfl) (by simp_all [Spec.Cause]) (by simp [hm])

theorem links_post (j : Job) (e : Env) (o : Out) (p : Pre o) (hm : o.mounted = false) : Post j e (links j e o) := by
  unfold links
  split
  · exact mount_post j e o p hm
  · split
    · exact post_fail _ p (.inl rfl) (by simp_all [Spec.Cause]) (by simp [hm])
    · split
      · exact post_fail _ ⟨p.1, p.2, p.3, p.4, p.5⟩ (.inl rfl) (by simp_all [Spec.Cause]) (by simp [hm])
      · exact mount_post j e _ ⟨p.1, p.2, p.3, p.4, p.5⟩ hm

theorem workDir_post (j : Job) (e : Env) (o : Out) (p : Pre o) (hm : o.mounted = false) : Post j e (workDir j e o) := by
  unfold workDir
  split
  · exact post_fail _ p (.inl rfl) (by simp_all [Spec.Cause]) (by simp [hm])
  · split
    · exact links_post j e o p hm
    · split
      · exact post_fail _ p (.inl rfl) (by simp_all [Spec.Cause]) (by simp [hm])
      · exact links_post j e _ ⟨p.1, p.2, p.3, p.4, p.5⟩ hm

theorem setup_post (j : Job) (e : Env) : Post j e (setup j e) ∨
    (setup j e = ({} : Out).fail false ∧ (e.mine = false ∨ e.cmdLine = false ∨ e.pipes = false)) := by
  unfold setup
  split
  · exact .inr ⟨rfl, by simp_all⟩
  · split
    · exact .inr ⟨rfl, by simp_all⟩
    · split
      · exact .inr ⟨rfl, by simp_all⟩
      · exact .inl (workDir_post j e {} ⟨rfl, rfl, rfl, rfl, rfl⟩ rfl)

/-! ## When the command is started -/

theorem launch_started (e : Env) (o : Out) (h : o.started = false) : (launch e o).started = e.start := by
  unfold launch; cases hs : e.start <;> simp [Out.fail, Out.tell, h]; split <;> rfl

theorem docker_started (j : Job) (e : Env) (o : Out) (h : o.started = false) : (docker j e o).started = true ↔
    (j.docker = true → e.docker = true ∧ (j.dockerFirst = true → e.remember = true)) ∧ e.start = true := by
  unfold docker
  split
  · simp_all [Out.fail, Out.tell]
  · split
    · simp_all [Out.fail, Out.tell]
    · rw [launch_started e o h]
      cases hd : j.docker <;> cases he : e.docker <;> cases hf : j.dockerFirst <;> cases hr : e.remember <;> simp_all

theorem environ_started (j : Job) (e : Env) (o : Out) (h : o.started = false) : (environ j e o).started = true ↔
    e.env = true ∧ (j.bsub = true → e.json = true) ∧
    (j.docker = true → e.docker = true ∧ (j.dockerFirst = true → e.remember = true)) ∧ e.start = true := by
  unfold environ
  split
  · simp_all [Out.fail, Out.tell]
  · split
    · simp_all [Out.fail, Out.tell]
    · rw [docker_started j e o h]
      cases hd : e.env <;> cases he : j.bsub <;> cases hf : e.json <;> simp_all

theorem mount_started (j : Job) (e : Env) (o : Out) (h : o.started = false) : (mount j e o).started = true ↔
    (j.mounts = true → e.mount = true ∨ e.couldFail = true ∨ (e.fuse = true ∧ e.again = true)) ∧
    e.env = true ∧ (j.bsub = true → e.json = true) ∧
    (j.docker = true → e.docker = true ∧ (j.dockerFirst = true → e.remember = true)) ∧ e.start = true := by
  unfold mount
  cases h1 : j.mounts <;> cases h2 : e.mount <;> cases h3 : e.couldFail <;> cases h4 : e.fuse <;> cases h5 : e.again <;>
    simp [environ_started, h, Out.fail, Out.tell]

theorem links_started (j : Job) (e : Env) (o : Out) (h : o.started = false) : (links j e o).started = true ↔
    (j.bsub = true → e.lsfDir = true ∧ e.symlinks = true) ∧
    (j.mounts = true → e.mount = true ∨ e.couldFail = true ∨ (e.fuse = true ∧ e.again = true)) ∧
    e.env = true ∧ (j.bsub = true → e.json = true) ∧
    (j.docker = true → e.docker = true ∧ (j.dockerFirst = true → e.remember = true)) ∧ e.start = true := by
  unfold links
  cases h1 : j.bsub <;> cases h2 : e.lsfDir <;> cases h3 : e.symlinks <;>
    simp [mount_started, h, Out.fail, Out.tell, h1]

/-! ## Theorems -/

/-- C106: the command of a job is started only by the client that reserved the job, and only once all was set up for it;
and if all was and it can be started, it is. -/
theorem C106_started (j : Job) (e : Env) : (setup j e).started = true ↔ Spec.Ready j e ∧ e.start = true := by
  unfold Spec.Ready setup workDir
  cases h1 : e.mine <;> cases h2 : e.cmdLine <;> cases h3 : e.pipes <;> cases h4 : e.cwd <;> cases h5 : j.cwdMatters <;>
    cases h6 : e.hashed <;> cases h7 : j.bsub <;> simp [links_started, Out.fail, Out.tell, h7] <;>
    constructor <;> simp_all

example : (setup { bsub := true, mounts := true } {}).started = true ∧ (setup { mounts := true } { mount := false }).started = false := by decide

/-- C106, if the job could not be started for a reason other than that its command line or the pipes for its output could not
be made: the server is told exactly one thing, to bury or to release the job, with the reason. Missing: those two reasons. -/
theorem C106_told_partial (j : Job) (e : Env) (h : (setup j e).started = false) (hm : e.mine = true) (hc : e.cmdLine = true) (hp : e.pipes = true) :
    ∃ r, ((setup j e).told = [.bury r] ∨ (setup j e).told = [.release r]) ∧ Spec.Cause j e r := by
  rcases setup_post j e with p | ⟨_, hn | hn | hn⟩
  · cases hf : (setup j e).failed
    · exact absurd (p.fine hf).1 (by simp [h])
    · rcases p.one hf with ⟨_, _, h'⟩ | h'
      · exact h'
      · exact absurd h'.1 (by simp [h])
  · simp [hn] at hm
  · simp [hn] at hc
  · simp [hn] at hp

example : (setup {} { env := false }).told = [.bury .env] ∧ (setup {} { start := false }).told = [.release .start] := by decide

/-- C106: a command that was started, and of which the server could not be told, is killed; the behaviours for failure are
triggered, and nothing stays mounted. -/
theorem C106_untold (j : Job) (e : Env) (h : (setup j e).started = true) (hs : e.started = false) :
    (setup j e).failed = true ∧ (setup j e).killed = true ∧ (setup j e).triggered = [false] ∧ (setup j e).mounted = false ∧
    (setup j e).told = [] := by
  rcases setup_post j e with p | ⟨hq, _⟩
  · cases hf : (setup j e).failed
    · exact absurd (p.fine hf).2.1 (by simp [hs])
    · rcases p.one hf with h' | ⟨_, _, h1, h2, h3, h4⟩
      · exact absurd h'.1 (by simp [h])
      · exact ⟨rfl, h1, h2, h4, h3⟩
  · rw [hq] at h; cases h

example : (setup {} { started := false }).started = true := by decide

/-- C106: a client of which `Execute` goes on has started the command, has told the server nothing but that, and has not
killed it. -/
theorem C106_on (j : Job) (e : Env) (h : (setup j e).failed = false) :
    (setup j e).started = true ∧ e.started = true ∧ (setup j e).told = [] ∧ (setup j e).killed = false := by
  rcases setup_post j e with p | ⟨hq, _⟩
  · exact ⟨(p.fine h).1, (p.fine h).2.1, (p.fine h).2.2.1, (p.fine h).2.2.2.1⟩
  · rw [hq] at h; cases h

/-- C106, if docker works and the job can be written as JSON: when `Execute` gives up before the command runs, no file system
stays mounted; and in any case the directory with the LSF links is removed. Missing: docker or JSON fails. -/
theorem C106_unmounted_partial (j : Job) (e : Env) (h : (setup j e).failed = true) (hd : e.docker = true) (hr : e.remember = true)
    (hj : e.json = true) : (setup j e).mounted = false ∧ (setup j e).lsf = false := by
  rcases setup_post j e with p | ⟨hq, _⟩
  · refine ⟨?_, p.lsf h⟩
    cases hm : (setup j e).mounted
    · rfl
    · rcases p.mnt h hm with h' | h' <;> simp [Spec.Cause, hd, hr, hj] at h'
  · rw [hq]; exact ⟨rfl, rfl⟩

example : (setup { mounts := true } { env := false }).failed = true := by decide

/-- The code violates C106: docker cannot be used: the job is buried, and its file systems stay mounted. -/
theorem C106_violated_mounted : ∃ j e, (setup j e).failed = true ∧ (setup j e).told = [.bury .docker] ∧ (setup j e).mounted = true :=
  ⟨{ mounts := true, docker := true }, { docker := false }, by decide⟩

/-- The code violates C106: the command line (for a container, say) cannot be made: the server is not told. -/
theorem C106_violated_silent : ∃ j e, e.mine = true ∧ (setup j e).failed = true ∧ (setup j e).told = [] ∧ (setup j e).started = false :=
  ⟨{}, { cmdLine := false }, by decide⟩

/-- The code violates C106: the file systems cannot be mounted: the job is buried, and its directory for temporary files is
left behind. -/
theorem C106_violated_tmp : ∃ j e, (setup j e).failed = true ∧ (setup j e).told = [.bury .mount] ∧ (setup j e).tmp = true :=
  ⟨{ mounts := true }, { mount := false }, by decide⟩

/-! ## Making the working directory -/

/-- C106: if the working directory cannot be made, that is given up after four tries; if it can, at most three after
failures, and the hold file can be, it worked. -/
theorem C106_dir (n : Nat) (rs : List Round) :
    hold 0 (List.replicate n .noDir ++ rs) = if n ≤ 3 then hold n rs else some false := by
  have : ∀ n t, t ≤ 3 → hold t (List.replicate n .noDir ++ rs) = if t + n ≤ 3 then hold (t + n) rs else some false := by
    intro n
    induction n with
    | zero => intro t ht; simp [ht]
    | succ n ih =>
      intro t ht
      rw [List.replicate_succ, List.cons_append]
      simp only [hold]
      by_cases h : t + 1 ≤ 3
      · rw [if_pos h, ih (t + 1) h]
        simp only [Nat.add_assoc, Nat.add_comm 1 n]
      · rw [if_neg h, if_neg (by omega)]
  have := this n 0 (by omega)
  simpa using this

example : hold 0 [.noDir, .noDir, .noDir, .good] = some true ∧ hold 0 [.noDir, .noDir, .noDir, .noDir] = some false := by decide

/-- The code violates C106: if the hold file cannot be made (the directory is there, but not to be written to), it tries for
ever. -/
theorem C106_violated_spin (n : Nat) : hold 0 (List.replicate n .noHold) = none := by
  have : ∀ n t, hold t (List.replicate n .noHold) = none := by
    intro n
    induction n with
    | zero => intro t; rfl
    | succ n ih => intro t; simp [List.replicate_succ, hold, ih]
  exact this n 0

end Verif.Client.Setup
