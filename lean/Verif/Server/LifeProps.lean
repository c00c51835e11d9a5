import Verif.Server.LifeLemmas

/-!
# C23, C24, C26, C33, C61: the life of a job

Histories are lists of requests and timer events for any number of jobs and clients, from a
manager that was just started.
-/

namespace Verif.Server

theorem upd_jobs_ne {f : Nat → Option Job} {k k' : Nat} {a : Option Job} (h : k' ≠ k) :
    upd f k' a k = f k := upd_ne f a (Ne.symm h)

/-- A step leaves all other jobs alone. -/
theorem lstep_frame (s : Life) {o : Op} {k : Nat} (h : o.key ≠ k) :
    (lstep s o).1.jobs k = s.jobs k := by
  have er : ∀ (k' : Nat) (j : Job) (e : Option End) (f : Bool), k' ≠ k →
      (endRun s k' j e f).jobs k = s.jobs k := by
    intro k' j e f h; exact upd_jobs_ne h
  have rl : ∀ (k' : Nat) (j : Job) (e : Option End) (f : Bool), k' ≠ k →
      (releaseJob s k' j e f).1.jobs k = s.jobs k := by
    intro k' j e f h
    unfold releaseJob
    split
    · split
      · split
        · rfl
        · exact er _ _ _ _ h
      · split
        · exact er _ _ _ _ h
        · rfl
    · split
      · split
        · rfl
        · exact er _ _ _ _ h
      · split
        · exact er _ _ _ _ h
        · rfl
  cases o <;> simp only [Op.key] at h <;>
    simp only [lstep, add, reserve, jstart, jtouch, jarchive, jrelease, jbury, jkick, jkill, jdel,
      ttr, reap, delayed, depUpdate]
  · split
    · rfl
    · exact upd_jobs_ne h
  · split
    · rfl
    · split
      · exact upd_jobs_ne h
      · rfl
  · split
    · rfl
    · split
      · exact upd_jobs_ne h
      · rfl
  · split
    · rfl
    · split
      · rfl
      · exact upd_jobs_ne h
  · split
    · rfl
    · split
      · exact upd_jobs_ne h
      · exact upd_jobs_ne h
  · split
    · rfl
    · exact rl _ _ _ _ h
  · split
    · rfl
    · exact rl _ _ _ _ h
  · split
    · rfl
    · split
      · exact upd_jobs_ne h
      · rfl
  · split
    · rfl
    · split
      · split
        · exact rl _ _ _ _ h
        · exact upd_jobs_ne h
      · rfl
  · split
    · rfl
    · split
      · rfl
      · exact upd_jobs_ne h
  · split
    · rfl
    · split
      · split
        · exact upd_jobs_ne h
        · exact upd_jobs_ne h
      · rfl
  · split
    · rfl
    · split
      · exact rl _ _ _ _ h
      · rfl
  · split
    · rfl
    · split
      · exact upd_jobs_ne h
      · rfl
  · split
    · rfl
    · exact upd_jobs_ne h

theorem count_one {l : List Nat} (hn : l.Nodup) {a : Nat} (h : a ∈ l) : l.count a = 1 := by
  rw [hn.count]; simp [h]

/-! ## C24 -/

/-- **C24 (owner).** jstart, jtouch, jarchive, jrelease and jbury requests for a job that is not
in the queue, or by a client that is not the one that reserved it last, are refused and change
nothing. -/
theorem C24_owner (s : Life) (c k : Nat) (o : Op)
    (ho : (∃ v, o = .jstart c k v) ∨ o = .jtouch c k ∨ (∃ e, o = .jarchive c k e) ∨
      (∃ e, o = .jrelease c k e) ∨ (∃ e, o = .jbury c k e))
    (hj : ∀ j, s.jobs k = some j → j.by' ≠ some c) :
    (lstep s o).1 = s ∧ ((lstep s o).2 = .badJob ∨ (lstep s o).2 = .mustReserve) := by
  have h : ∀ b, ∃ r, getij s c k b = .error r ∧ (r = .badJob ∨ r = .mustReserve) := by
    intro b
    cases hg : getij s c k b with
    | error r =>
      rcases getij_err hg with ⟨h, _⟩ | ⟨h, _⟩
      · exact ⟨r, rfl, .inl h⟩
      · exact ⟨r, rfl, .inr h⟩
    | ok j => exact absurd (getij_ok hg).2.1 (hj j (getij_ok hg).1)
  obtain ⟨r1, h1, h1'⟩ := h true
  obtain ⟨r2, h2, h2'⟩ := h false
  rcases ho with ⟨v, rfl⟩ | rfl | ⟨e, rfl⟩ | ⟨e, rfl⟩ | ⟨e, rfl⟩
  · simp only [lstep, jstart, h1]; exact ⟨trivial, h1'⟩
  · simp only [lstep, jtouch, h1]; exact ⟨trivial, h1'⟩
  · simp only [lstep, jarchive, h1]; exact ⟨trivial, h1'⟩
  · simp only [lstep, jrelease, h2]; exact ⟨trivial, h2'⟩
  · simp only [lstep, jbury, h2]; exact ⟨trivial, h2'⟩

/-- **C24 (running).** jstart, jtouch and jarchive requests for a job that is not in the run
sub-queue are refused with ErrBadJob and change nothing. -/
theorem C24_running (s : Life) (c k : Nat) (o : Op)
    (ho : (∃ v, o = .jstart c k v) ∨ o = .jtouch c k ∨ (∃ e, o = .jarchive c k e))
    (hj : ∀ j, s.jobs k = some j → j.sub ≠ .run) :
    (lstep s o).1 = s ∧ (lstep s o).2 = .badJob := by
  have h : getij s c k true = .error .badJob := by
    cases hg : getij s c k true with
    | error r =>
      unfold getij at hg
      split at hg
      · exact hg ▸ rfl
      · rename_i j h
        have := hj j h
        simp [this] at hg
        rw [← hg]
    | ok j => exact absurd ((getij_ok hg).2.2 rfl) (hj j (getij_ok hg).1)
  rcases ho with ⟨v, rfl⟩ | rfl | ⟨e, rfl⟩
  · simp only [lstep, jstart, h]; exact ⟨trivial, trivial⟩
  · simp only [lstep, jtouch, h]; exact ⟨trivial, trivial⟩
  · simp only [lstep, jarchive, h]; exact ⟨trivial, trivial⟩

/-- **C24 (partial: jrelease and jbury).** Release and bury requests for a job that is not in the
run sub-queue never move it to another sub-queue, and leave all other jobs alone. Missing: that
they are refused without any effect; see `C24_violated`. -/
theorem C24_release_partial (s : Life) (c k : Nat) (e : Option End) (o : Op)
    (ho : o = .jrelease c k e ∨ o = .jbury c k e)
    (j : Job) (hj : s.jobs k = some j) (hr : j.sub ≠ .run) :
    (∃ j', (lstep s o).1.jobs k = some j' ∧ j'.sub = j.sub) ∧
    ∀ k', k' ≠ k → (lstep s o).1.jobs k' = s.jobs k' := by
  have rl : ∀ f, ∃ j', (releaseJob s k j e f).1.jobs k = some j' ∧ j'.sub = j.sub := by
    intro f
    have en : ∃ j', (endRun s k j e f).jobs k = some j' ∧ j'.sub = j.sub := by
      refine ⟨_, upd_same _ _ _, ?_⟩
      simp only [afterExit_sub]
    unfold releaseJob
    simp only [hr, if_false]
    split
    · split
      · split
        · exact ⟨j, hj, rfl⟩
        · exact en
      · exact ⟨j, hj, rfl⟩
    · split
      · split
        · exact ⟨j, hj, rfl⟩
        · exact en
      · exact ⟨j, hj, rfl⟩
  refine ⟨?_, ?_⟩
  · rcases ho with rfl | rfl
    · simp only [lstep, jrelease]
      split
      · exact ⟨j, hj, rfl⟩
      · rename_i j' hg
        have := (getij_ok hg).1
        rw [hj] at this; injection this with this; subst this
        exact rl _
    · simp only [lstep, jbury]
      split
      · exact ⟨j, hj, rfl⟩
      · rename_i j' hg
        have := (getij_ok hg).1
        rw [hj] at this; injection this with this; subst this
        exact rl _
  · intro k' hk
    rcases ho with rfl | rfl <;> exact lstep_frame s (fun h => hk h.symm)

/-- A job reserved by client 1 and started. -/
def demo : List Op := [.add 5 1 [], .reserve 1 5, .jstart 1 5 true]

example : ((lrun (fresh fun _ => none) demo).jobs 5).map (fun j => (j.sub, j.by', j.started)) =
    some (.run, some 1, true) := by decide +kernel

example : (lstep (lrun (fresh fun _ => none) demo) (.jtouch 2 5)).2 = .mustReserve ∧
    (lstep (lrun (fresh fun _ => none) demo) (.jtouch 1 6)).2 = .badJob ∧
    (lstep (lrun (fresh fun _ => none) demo) (.jtouch 1 5)).2 = .kill false := by
  decide +kernel

/-- **C24 is violated** for jrelease: client 1 reserves a job but does not start it in time, so it
goes to the delay sub-queue. The late release request of client 1 is accepted and changes the
job, although it is not running. -/
theorem C24_violated :
    ∃ (os : List Op) (j j' : Job),
      (lrun (fresh fun _ => none) os).jobs 5 = some j ∧ j.sub = .delay ∧
      (lstep (lrun (fresh fun _ => none) os) (.jrelease 1 5 none)).2 = .ok ∧
      (lstep (lrun (fresh fun _ => none) os) (.jrelease 1 5 none)).1.jobs 5 = some j' ∧
      j' ≠ j := by
  refine ⟨[.add 5 1 [], .reserve 1 5, .ttr 5],
    { sub := .delay, by' := some 1, code := -1, until' := 2, retries := 1 },
    { sub := .delay, by' := some 1, code := -1, until' := 2, retries := 1, state := .delayed },
    ?_, ?_, ?_, ?_, ?_⟩ <;> decide +kernel

/-! ## C23 -/

/-- The op ended a run of job `k` in failure: before it the job was in the run sub-queue and its
command had been started, after it the job is still in the queue but not running. -/
def failedRun (s : Life) (o : Op) (k : Nat) : Bool :=
  match s.jobs k, (lstep s o).1.jobs k with
  | some j, some j' => j.sub == .run && j.started && j'.sub != .run
  | _, _ => false

/-- How many runs of job `k` ended in failure during a history. -/
def failures (s : Life) (k : Nat) : List Op → Nat
  | [] => 0
  | o :: os => (if failedRun s o k then 1 else 0) + failures (lstep s o).1 k os

/-- Nobody kicks, buries, deletes or archives job `k`, and its dependencies do not change. -/
def Untouched (k : Nat) (o : Op) : Prop :=
  o ≠ .jkick k ∧ (∀ c e, o ≠ .jbury c k e) ∧ (∀ c e, o ≠ .jarchive c k e) ∧ o ≠ .jdel k ∧
  o ≠ .depUpdate k

/-- The invariant: job `j` with `r` retries has failed `n` times. -/
structure Fails (j : Job) (r n : Nat) : Prop where
  le : n ≤ r + 1
  until' : j.until' = (r + 1 - n) % 256
  bury : j.sub = .bury ↔ n = r + 1
  run : j.sub = .run → j.exited = false
  delay : j.sub = .delay → j.started = true → j.state = .delayed
  buried : j.sub = .bury → j.state = .buried
  dep : j.sub ≠ .dependent

/-- What `endRun` makes of the job. -/
theorem endRun_job (s : Life) (k : Nat) (j : Job) (e : Option End) (f : Bool) :
    ∃ j', (endRun s k j e f).jobs k = some j' ∧ j'.sub = j.sub ∧ j'.started = j.started ∧
      j'.until' = (if f then 0 else if j.started then (j.until' + 255) % 256 else j.until') ∧
      j'.state = (if j'.until' = 0 then .buried else .delayed) := by
  refine ⟨_, upd_same _ _ _, ?_, ?_, ?_, ?_⟩
  · simp only [afterExit_sub]
  · simp only [afterExit_started]
  · simp only [afterExit_started, afterExit_until]
  · rfl

theorem releaseJob_fails {s : Life} {k : Nat} {j0 j : Job} {r n : Nat} (hr : r ≤ 255)
    (h0 : s.jobs k = some j0) (hs : j0.sub = j.sub) (hst : j0.started = j.started)
    (h0f : Fails j0 r n) (h : Fails j r n) (e : Option End) :
    ∃ j', (releaseJob s k j e false).1.jobs k = some j' ∧
      Fails j' r (n + if j0.sub == .run && j0.started && j'.sub != .run then 1 else 0) := by
  have hsame : ∃ j', s.jobs k = some j' ∧
      (Fails j' r (n + if j0.sub == .run && j0.started && j'.sub != .run then 1 else 0)) := by
    refine ⟨j0, h0, ?_⟩
    cases hx : j0.sub <;> simp <;> exact h0f
  unfold releaseJob
  simp only [Bool.false_or]
  split
  · rename_i hb
    simp only [Bool.and_eq_true, beq_iff_eq] at hb
    split
    · split
      · exact hsame
      · rename_i h1 h2
        exact absurd (h.buried h1) h2
    · split
      · rename_i h1
        obtain ⟨j', hj', e1, e2, e3, e4⟩ := endRun_job s k { j with sub := .bury } e false
        refine ⟨j', hj', ?_⟩
        simp only at e1 e2 e3
        rw [hs, hst, h1, hb.1, e1]
        simp only [beq_self_eq_true, Bool.true_and]
        have hn : n = r := by
          have := h.until'; have := h.le; have := hb.2
          omega
        have hu : j'.until' = 0 := by
          rw [e3]; simp [hb.1, hb.2]
        subst hn
        have e5 : (Sub.bury != Sub.run) = true := rfl
        simp only [e5, if_true]
        refine ⟨by omega, by rw [hu]; simp, ?_, ?_, ?_, ?_, ?_⟩
        · simp [e1]
        · intro hx; rw [e1] at hx; cases hx
        · intro hx; rw [e1] at hx; cases hx
        · intro _; rw [e4, hu]; rfl
        · rw [e1]; decide
      · exact hsame
  · rename_i hb
    split
    · rename_i h1
      split
      · exact hsame
      · rename_i h2
        obtain ⟨j', hj', e1, e2, e3, e4⟩ := endRun_job s k j e false
        refine ⟨j', hj', ?_⟩
        have hns : j.started = false := by
          cases hst' : j.started
          · rfl
          · exact absurd (h.delay h1 hst') h2
        have e5 : (j0.sub == .run) = false := by rw [hs, h1]; rfl
        simp only [e5, Bool.false_and, Bool.false_eq_true, if_false, Nat.add_zero]
        have hu : j'.until' = j.until' := by rw [e3]; simp [hns]
        refine ⟨h.le, by rw [hu]; exact h.until', ?_, ?_, ?_, ?_, ?_⟩
        · rw [e1]; exact h.bury
        · intro hx; rw [e1, h1] at hx; cases hx
        · intro _ hx; rw [e2, hns] at hx; cases hx
        · intro hx; rw [e1, h1] at hx; cases hx
        · rw [e1]; exact h.dep
    · split
      · rename_i h1 h2
        obtain ⟨j', hj', e1, e2, e3, e4⟩ := endRun_job s k { j with sub := .delay } e false
        refine ⟨j', hj', ?_⟩
        simp only at e1 e2 e3
        have hnb : n ≠ r + 1 := fun hx => by
          have := h.bury.2 hx; rw [h2] at this; cases this
        have hle := h.le
        have hun := h.until'
        cases hst' : j.started with
        | false =>
          rw [hst] 
          simp only [hst', Bool.and_false, Bool.false_and, Bool.false_eq_true, if_false,
            Nat.add_zero]
          have hu : j'.until' = j.until' := by rw [e3]; simp [hst']
          refine ⟨h.le, by rw [hu]; exact h.until', ?_, ?_, ?_, ?_, ?_⟩
          · rw [e1]; constructor
            · intro hx; cases hx
            · intro hx; exact absurd hx hnb
          · intro hx; rw [e1] at hx; cases hx
          · intro _ hx; rw [e2, hst'] at hx; cases hx
          · intro hx; rw [e1] at hx; cases hx
          · rw [e1]; decide
        | true =>
          have hne1 : j.until' ≠ 1 := by
            intro hx; apply hb; simp [hst', hx]
          rw [hs, hst, h2, hst', e1]
          have e5 : (Sub.delay != Sub.run) = true := rfl
          simp only [e5, beq_self_eq_true, Bool.true_and, if_true]
          have hu : j'.until' = (j.until' + 255) % 256 := by rw [e3]; simp [hst']
          have hnr : n ≠ r := by
            intro hx; apply hne1; rw [hun]; omega
          have hu2 : j'.until' = (r + 1 - (n + 1)) % 256 := by rw [hu, hun]; omega
          have hu3 : j'.until' ≠ 0 := by rw [hu2]; omega
          refine ⟨by omega, hu2, ?_, ?_, ?_, ?_, ?_⟩
          · rw [e1]; constructor
            · intro hx; cases hx
            · intro hx; omega
          · intro hx; rw [e1] at hx; cases hx
          · intro _ _; rw [e4]; simp [hu3]
          · intro hx; rw [e1] at hx; cases hx
          · rw [e1]; decide
      · exact hsame

theorem Fails.same {j : Job} {r n : Nat} (h : Fails j r n) :
    Fails j r (n + if j.sub == .run && j.started && j.sub != .run then 1 else 0) := by
  cases hx : j.sub <;> simp <;> exact h

/-- A job that stays where it is. -/
theorem Fails.keep {j j' : Job} {r n : Nat} (h : Fails j r n) (hs : j'.sub = j.sub)
    (hu : j'.until' = j.until') (hx : j'.sub = .run → j'.exited = false)
    (hd : j'.sub = .delay → j'.started = true → j'.state = .delayed)
    (hb : j'.sub = .bury → j'.state = .buried) :
    Fails j' r (n + if j.sub == .run && j.started && j'.sub != .run then 1 else 0) := by
  have : (j.sub == .run && j.started && j'.sub != .run) = false := by
    rw [hs]; cases j.sub <;> simp <;> rfl
  rw [this]
  exact ⟨h.le, by rw [hu]; exact h.until', by rw [hs]; exact h.bury, hx, hd, hb,
    by rw [hs]; exact h.dep⟩

/-- A job that was not running and moves to a sub-queue other than bury. -/
theorem Fails.move {j j' : Job} {r n : Nat} (h : Fails j r n)
    (hr : (j.sub == .run && j.started && j'.sub != .run) = false)
    (hnb : j.sub ≠ .bury) (hs : j'.sub ≠ .bury) (hs' : j'.sub ≠ .dependent)
    (hu : j'.until' = j.until') (hx : j'.sub = .run → j'.exited = false)
    (hd : j'.sub = .delay → j'.started = true → j'.state = .delayed) :
    Fails j' r (n + if j.sub == .run && j.started && j'.sub != .run then 1 else 0) := by
  rw [hr]
  refine ⟨h.le, by rw [hu]; exact h.until', ?_, hx, hd, fun e => absurd e hs, hs'⟩
  constructor
  · intro e; exact absurd e hs
  · intro e; exact absurd (h.bury.2 e) hnb

theorem lstep_fails {s : Life} {k : Nat} {j : Job} {r n : Nat} (hr : r ≤ 255)
    (hj : s.jobs k = some j) (h : Fails j r n) {o : Op} (ho : Untouched k o) :
    ∃ j', (lstep s o).1.jobs k = some j' ∧
      Fails j' r (n + if failedRun s o k then 1 else 0) := by
  suffices hs : ∃ j', (lstep s o).1.jobs k = some j' ∧
      Fails j' r (n + if j.sub == .run && j.started && j'.sub != .run then 1 else 0) by
    obtain ⟨j', h1, h2⟩ := hs
    refine ⟨j', h1, ?_⟩
    simp only [failedRun, hj, h1]
    exact h2
  by_cases hk : o.key = k
  · have same : ∃ j', s.jobs k = some j' ∧
        Fails j' r (n + if j.sub == .run && j.started && j'.sub != .run then 1 else 0) :=
      ⟨j, hj, h.same⟩
    cases o <;> simp only [Op.key] at hk <;> subst hk
    case add k r gs =>
      refine ⟨j, ?_, h.same⟩
      simp only [lstep, add, hj]
    case reserve c k =>
      simp only [lstep, reserve, hj]
      split
      · rename_i hc
        simp only [Bool.and_eq_true, decide_eq_true_eq] at hc
        refine ⟨_, upd_same _ _ _, h.move ?_ (by rw [hc.1]; decide) (by simp) (by simp) rfl
          (fun _ => rfl) (fun e => (by cases e))⟩
        rw [hc.1]; rfl
      · exact same
    case jstart c k v =>
      simp only [lstep, jstart]
      split
      · exact same
      · rename_i j1 hg
        have := getij_ok hg
        rw [hj] at this; obtain ⟨h1, _, h3⟩ := this
        injection h1 with h1; subst h1
        have h3 := h3 rfl
        split
        · refine ⟨_, upd_same _ _ _, h.keep rfl rfl (fun _ => h.run h3) ?_ ?_⟩
          · intro e; simp only [h3] at e; cases e
          · intro e; simp only [h3] at e; cases e
        · exact same
    case jtouch c k =>
      simp only [lstep, jtouch]
      split
      · exact same
      · rename_i j1 hg
        have := getij_ok hg
        rw [hj] at this; obtain ⟨h1, _, h3⟩ := this
        injection h1 with h1; subst h1
        have h3 := h3 rfl
        split
        · exact same
        · refine ⟨_, upd_same _ _ _, h.keep rfl rfl (fun _ => h.run h3) ?_ ?_⟩
          · intro e; simp only [h3] at e; cases e
          · intro e; simp only [h3] at e; cases e
    case jarchive c k e => exact absurd rfl (ho.2.2.1 c e)
    case jrelease c k e =>
      simp only [lstep, jrelease]
      split
      · exact same
      · rename_i j1 hg
        have := (getij_ok hg).1
        rw [hj] at this; injection this with this; subst this
        exact releaseJob_fails hr hj rfl rfl h h e
    case jbury c k e => exact absurd rfl (ho.2.1 c e)
    case jkick k => exact absurd rfl ho.1
    case jkill k =>
      simp only [lstep, jkill, hj]
      split
      · rename_i h1
        split
        · exact releaseJob_fails (j := { j with killed := true }) hr hj rfl rfl h
            ⟨h.le, h.until', h.bury, h.run, h.delay, h.buried, h.dep⟩ _
        · refine ⟨_, upd_same _ _ _, h.keep rfl rfl h.run h.delay h.buried⟩
      · exact same
    case jdel k => exact absurd rfl ho.2.2.2.1
    case ttr k =>
      simp only [lstep, ttr, hj]
      split
      · rename_i h1
        split
        · rename_i h2
          refine ⟨_, upd_same _ _ _, h.keep rfl rfl (fun _ => h.run h1) ?_ ?_⟩
          · intro e; simp only [h1] at e; cases e
          · intro e; simp only [h1] at e; cases e
        · rename_i h2
          have hns : j.started = false := by
            cases hst : j.started
            · rfl
            · exfalso; apply h2; simp [hst, h.run h1]
          refine ⟨_, upd_same _ _ _, h.move ?_ (by rw [h1]; decide) (by simp) (by simp) rfl
            (fun e => (by cases e)) ?_⟩
          · rw [hns]; simp
          · intro _ e; simp only [hns] at e; cases e
      · exact same
    case reap k =>
      simp only [lstep, reap, hj]
      split
      · exact releaseJob_fails hr hj rfl rfl h h _
      · exact same
    case delayed k =>
      simp only [lstep, delayed, hj]
      split
      · rename_i h1
        refine ⟨_, upd_same _ _ _, h.move ?_ (by rw [h1]; decide) (by simp) (by simp) rfl
          (fun e => (by cases e)) (fun e => (by cases e))⟩
        rw [h1]; rfl
      · exact same
    case depUpdate k => exact absurd rfl ho.2.2.2.2
  · rw [lstep_frame s hk]
    exact ⟨j, hj, h.same⟩

theorem lrun_fails {r k : Nat} (hr : r ≤ 255) :
    ∀ (os : List Op) (s : Life) (j : Job) (n : Nat), s.jobs k = some j → Fails j r n →
      (∀ o ∈ os, Untouched k o) →
      ∃ j', (lrun s os).jobs k = some j' ∧ Fails j' r (n + failures s k os) := by
  intro os
  induction os with
  | nil => intro s j n hj h _; exact ⟨j, hj, by simpa [failures] using h⟩
  | cons o os ih =>
    intro s j n hj h ho
    obtain ⟨j1, h1, h2⟩ := lstep_fails hr hj h (ho o (List.mem_cons_self ..))
    obtain ⟨j2, h3, h4⟩ := ih (lstep s o).1 j1 _ h1 h2
      (fun o' h' => ho o' (List.mem_cons_of_mem _ h'))
    exact ⟨j2, h3, by simpa [failures, Nat.add_assoc] using h4⟩

/-- **C23.** A job added with `r` retries (any byte) and then left alone stays in the queue; it is
buried iff exactly `r + 1` of its runs have failed, and until then at most `r` have. Releases of
runs whose command was not started are not counted. All this whatever happens to other jobs, and
whatever reservations, starts, releases, kills and time-outs happen to this one. -/
theorem C23_retries (s : Life) (k r : Nat) (gs : List Nat) (hr : r ≤ 255)
    (hk : s.jobs k = none) (os : List Op) (ho : ∀ o ∈ os, Untouched k o) :
    ∃ j, (lrun (lstep s (.add k r gs)).1 os).jobs k = some j ∧
      (j.sub = .bury → failures (lstep s (.add k r gs)).1 k os = r + 1) ∧
      (j.sub ≠ .bury → failures (lstep s (.add k r gs)).1 k os ≤ r) := by
  have h1 : (lstep s (.add k r gs)).1.jobs k =
      some { until' := (r + 1) % 256, retries := r, groups := gs } := by
    simp only [lstep, add, hk, upd_same]
  obtain ⟨j, h2, h3⟩ := lrun_fails hr os _ _ 0 h1
    ⟨by omega, by simp, by simp, by simp, by simp, by simp, by simp⟩ ho
  refine ⟨j, h2, ?_, ?_⟩
  · intro hb; have := h3.bury.1 hb; omega
  · intro hb
    have h4 := h3.le
    have h5 : 0 + failures (lstep s (.add k r gs)).1 k os ≠ r + 1 :=
      fun e => hb (h3.bury.2 e)
    omega

/-- **C23 (kick).** A kicked job is given all its tries again. -/
theorem C23_kick (s : Life) (k : Nat) (j : Job) (hj : s.jobs k = some j) (hb : j.sub = .bury)
    (hr : j.retries ≤ 255) (os : List Op) (ho : ∀ o ∈ os, Untouched k o) :
    ∃ j', (lrun (lstep s (.jkick k)).1 os).jobs k = some j' ∧
      (j'.sub = .bury → failures (lstep s (.jkick k)).1 k os = j.retries + 1) ∧
      (j'.sub ≠ .bury → failures (lstep s (.jkick k)).1 k os ≤ j.retries) := by
  have h1 : (lstep s (.jkick k)).1.jobs k =
      some { j with sub := .ready, until' := (j.retries + 1) % 256, state := .ready } := by
    simp only [lstep, jkick, hj, hb, if_true, put, upd_same]
  obtain ⟨j', h2, h3⟩ := lrun_fails hr os _ _ 0 h1
    ⟨by omega, by simp, by simp, by simp, by simp, by simp, by simp⟩ ho
  refine ⟨j', h2, ?_, ?_⟩
  · intro hb; have := h3.bury.1 hb; omega
  · intro hb
    have h4 := h3.le
    have h5 : 0 + failures (lstep s (.jkick k)).1 k os ≠ j.retries + 1 :=
      fun e => hb (h3.bury.2 e)
    omega

/-- One failing run of job 5, and one reservation given back without starting the command. -/
def failOnce : List Op :=
  [.reserve 1 5, .jstart 1 5 true, .jrelease 1 5 (some ⟨true, 1, true⟩), .delayed 5]
def giveBack : List Op := [.reserve 2 5, .jrelease 2 5 none, .delayed 5]

example :
    let os := giveBack ++ failOnce ++ giveBack ++ failOnce
    (∀ o ∈ os, Untouched 5 o) ∧
    failures (lstep (fresh fun _ => none) (.add 5 1 [])).1 5 os = 2 ∧
    ((lrun (lstep (fresh fun _ => none) (.add 5 1 [])).1 os).jobs 5).map (·.sub) =
      some .bury := by
  refine ⟨?_, by decide +kernel, by decide +kernel⟩
  intro o ho
  simp only [failOnce, giveBack, List.mem_append, List.mem_cons, List.not_mem_nil, or_false] at ho
  rcases ho with ((((rfl | rfl | rfl) | (rfl | rfl | rfl | rfl)) | (rfl | rfl | rfl)) |
    (rfl | rfl | rfl | rfl)) <;>
  exact ⟨by simp, by simp, by simp, by simp, by simp⟩

/-! ## C33 -/

/-- No jarchive request of the history is refused as a bad request. -/
def NoBadArchive (s : Life) : List Op → Prop
  | [] => True
  | o :: os =>
    ((∃ c k e, o = .jarchive c k e) → (lstep s o).2 ≠ .badRequest) ∧
    NoBadArchive (lstep s o).1 os

/-- What a job should hold: its limit groups if it is running, nothing otherwise. -/
def RunHold (s : Life) : Prop :=
  ∀ k j, s.jobs k = some j →
    (j.sub = .run → j.exited = false ∧ j.held = j.groups) ∧ (j.sub ≠ .run → j.held = [])

theorem releaseJob_runHold {s : Life} {k : Nat} {j : Job} (h : s.jobs k = some j)
    (hr : RunHold s) (j1 : Job) (h1 : j1.held = j.held) 
    (h3 : j1.exited = j.exited) (e : Option End) (f : Bool) :
    ∀ j', (releaseJob s k j1 e f).1.jobs k = some j' →
      (j'.sub = .run → j'.exited = false ∧ j'.held = j'.groups) ∧ (j'.sub ≠ .run → j'.held = []) := by
  have hj := hr k j h
  have en : ∀ j2 : Job, j2.held = j1.held → j2.exited = j1.exited → j2.sub ≠ .run →
      ∀ j', (endRun s k j2 e f).jobs k = some j' →
        (j'.sub = .run → j'.exited = false ∧ j'.held = j'.groups) ∧
        (j'.sub ≠ .run → j'.held = []) := by
    intro j2 e1 e2 e3 j' hj'
    simp only [endRun, put, upd_same, Option.some.injEq] at hj'
    subst hj'
    simp only [afterExit_sub]
    refine ⟨fun e => absurd e e3, fun _ => ?_⟩
    unfold afterExit
    split
    · rename_i hx
      rw [e2, h3] at hx
      rw [e1, h1]
      by_cases hs : j.sub = .run
      · rw [(hj.1 hs).1] at hx; cases hx
      · exact hj.2 hs
    · split
      · rfl
      · split <;> rfl
  have same : ∀ j', s.jobs k = some j' →
      (j'.sub = .run → j'.exited = false ∧ j'.held = j'.groups) ∧ (j'.sub ≠ .run → j'.held = []) :=
    hr k
  unfold releaseJob
  split
  · split
    · split
      · exact same
      · rename_i hb _; exact en j1 rfl rfl (by rw [hb]; decide)
    · split
      · exact en { j1 with sub := .bury } rfl rfl (by simp)
      · exact same
  · split
    · split
      · exact same
      · rename_i hb _; exact en j1 rfl rfl (by rw [hb]; decide)
    · split
      · exact en { j1 with sub := .delay } rfl rfl (by simp)
      · exact same

theorem lstep_runHold {s : Life} (hr : RunHold s) {o : Op} (ho : OpOk o)
    (hb : (∃ c k e, o = .jarchive c k e) → (lstep s o).2 ≠ .badRequest) :
    RunHold (lstep s o).1 := by
  intro k j hj
  by_cases hk : o.key = k
  · revert j
    have same := hr k
    cases o <;> simp only [Op.key] at hk <;> subst hk
    case add k r gs =>
      intro j hj
      simp only [lstep, add] at hj
      split at hj
      · exact hr k j hj
      · simp only [upd_same, Option.some.injEq] at hj
        subst hj
        exact ⟨fun e => (by cases e), fun _ => rfl⟩
    case reserve c k =>
      intro j hj
      simp only [lstep, reserve] at hj
      split at hj
      · exact hr k j hj
      · rename_i j0 h0
        split at hj
        · rename_i hc
          simp only [Bool.and_eq_true, decide_eq_true_eq] at hc
          simp only [put, upd_same, Option.some.injEq] at hj
          subst hj
          refine ⟨fun _ => ⟨rfl, ?_⟩, fun e => absurd rfl e⟩
          simp only
          split
          · rename_i he
            rw [(hr k j0 h0).2 (by rw [hc.1]; decide)]
            simp at he; exact he.symm
          · rfl
        · exact hr k j hj
    case jstart c k v =>
      intro j hj
      simp only [lstep, jstart] at hj
      split at hj
      · exact hr k j hj
      · rename_i j0 hg
        split at hj
        · simp only [put, upd_same, Option.some.injEq] at hj
          subst hj
          exact hr k j0 (getij_ok hg).1
        · exact hr k j hj
    case jtouch c k =>
      intro j hj
      simp only [lstep, jtouch] at hj
      split at hj
      · exact hr k j hj
      · rename_i j0 hg
        split at hj
        · exact hr k j hj
        · simp only [put, upd_same, Option.some.injEq] at hj
          subst hj
          exact hr k j0 (getij_ok hg).1
    case jarchive c k e =>
      intro j hj
      have hb := hb ⟨c, k, e, rfl⟩
      simp only [lstep, jarchive] at hj hb
      split at hj
      · exact hr k j hj
      · rename_i j0 hg
        rw [hg] at hb
        simp only at hb
        split at hj
        · rename_i hc; simp only [hc, if_true] at hb; exact absurd rfl hb
        · simp [upd_same] at hj
    case jrelease c k e =>
      intro j hj
      simp only [lstep, jrelease] at hj
      split at hj
      · exact hr k j hj
      · rename_i j0 hg
        exact releaseJob_runHold (getij_ok hg).1 hr j0 rfl rfl _ _ j hj
    case jbury c k e =>
      intro j hj
      simp only [lstep, jbury] at hj
      split at hj
      · exact hr k j hj
      · rename_i j0 hg
        exact releaseJob_runHold (getij_ok hg).1 hr j0 rfl rfl _ _ j hj
    case jkick k =>
      intro j hj
      simp only [lstep, jkick] at hj
      split at hj
      · exact hr k j hj
      · rename_i j0 h0
        split at hj
        · rename_i hc
          simp only [put, upd_same, Option.some.injEq] at hj
          subst hj
          exact ⟨fun e => (by cases e), fun _ => (hr k j0 h0).2 (by rw [hc]; decide)⟩
        · exact hr k j hj
    case jkill k =>
      intro j hj
      simp only [lstep, jkill] at hj
      split at hj
      · exact hr k j hj
      · rename_i j0 h0
        split at hj
        · split at hj
          · exact releaseJob_runHold h0 hr { j0 with killed := true } rfl rfl _ _ j hj
          · simp only [put, upd_same, Option.some.injEq] at hj
            subst hj
            exact hr k j0 h0
        · exact hr k j hj
    case jdel k =>
      intro j hj
      simp only [lstep, jdel] at hj
      split at hj
      · exact hr k j hj
      · split at hj
        · exact hr k j hj
        · simp [upd_same] at hj
    case ttr k =>
      intro j hj
      simp only [lstep, ttr] at hj
      split at hj
      · exact hr k j hj
      · rename_i j0 h0
        split at hj
        · split at hj
          · simp only [put, upd_same, Option.some.injEq] at hj
            subst hj
            exact hr k j0 h0
          · simp only [put, upd_same, Option.some.injEq] at hj
            subst hj
            exact ⟨fun e => (by cases e), fun _ => rfl⟩
        · exact hr k j hj
    case reap k =>
      intro j hj
      simp only [lstep, reap] at hj
      split at hj
      · exact hr k j hj
      · rename_i j0 h0
        split at hj
        · exact releaseJob_runHold h0 hr j0 rfl rfl _ _ j hj
        · exact hr k j hj
    case delayed k =>
      intro j hj
      simp only [lstep, delayed] at hj
      split at hj
      · exact hr k j hj
      · rename_i j0 h0
        split at hj
        · rename_i hc
          simp only [put, upd_same, Option.some.injEq] at hj
          subst hj
          exact ⟨fun e => (by cases e), fun _ => (hr k j0 h0).2 (by rw [hc]; decide)⟩
        · exact hr k j hj
    case depUpdate k => exact ho.elim
  · rw [lstep_frame s hk] at hj
    exact hr k j hj

theorem lrun_runHold {s : Life} (hr : RunHold s) : ∀ {os : List Op}, (∀ o ∈ os, OpOk o) →
    NoBadArchive s os → RunHold (lrun s os) := by
  intro os
  induction os generalizing s with
  | nil => intro _ _; exact hr
  | cons o os ih =>
    intro h hb
    exact ih (lstep_runHold hr (h o (List.mem_cons_self ..)) hb.1)
      (fun o' h' => h o' (List.mem_cons_of_mem _ h')) hb.2

/-- Job `k` is running and is a member of limit group `g`. -/
def Uses (s : Life) (k g : Nat) : Prop := ∃ j, s.jobs k = some j ∧ j.sub = .run ∧ g ∈ j.groups

theorem lrun_lim (os : List Op) (s : Life) : (lrun s os).lim = s.lim := by
  have rl : ∀ (s : Life) (k : Nat) (j : Job) (e : Option End) (f : Bool),
      (releaseJob s k j e f).1.lim = s.lim := by
    intro s k j e f
    unfold releaseJob
    repeat' split
    all_goals rfl
  induction os generalizing s with
  | nil => rfl
  | cons o os ih =>
    rw [lrun, ih]
    cases o <;> simp only [lstep, add, reserve, jstart, jtouch, jarchive, jrelease, jbury, jkick,
      jkill, jdel, ttr, reap, delayed, depUpdate] <;> (repeat' split) <;>
      first
      | rfl
      | exact rl _ _ _ _ _

theorem mem_filter_sum {f : Nat → Nat} {p : Nat → Bool} {ks : List Nat}
    (h : ∀ k ∈ ks, f k = if p k then 1 else 0) : (ks.map f).sum = (ks.filter p).length := by
  induction ks with
  | nil => rfl
  | cons a l ih =>
    have ih := ih (fun k hk => h k (List.mem_cons_of_mem _ hk))
    have ha := h a (List.mem_cons_self ..)
    simp only [List.map_cons, List.sum_cons, ih, ha, List.filter_cons]
    split
    · simp only [List.length_cons]; omega
    · simp

/-- **C33 (partial).** In every history of requests and time-outs in which no archive request is
refused as bad and no queued job has dependencies added, the slots counted for a limited group
are exactly the running jobs in that group: each such job is counted once, from the moment it is
reserved until it leaves the run sub-queue in whatever way, and nothing else is counted. Missing:
the two excluded cases, see `C33_violated_dependency` and `C33_violated_archive`. -/
theorem C33_partial (lim : Nat → Option Nat) (os : List Op) (ho : ∀ o ∈ os, OpOk o)
    (hb : NoBadArchive (fresh lim) os) (g : Nat) (hg : (lim g).isSome) :
    ∃ ks : List Nat, ks.Nodup ∧ (∀ k, k ∈ ks ↔ Uses (lrun (fresh lim) os) k g) ∧
      (lrun (fresh lim) os).cnt g = ks.length := by
  have hi := lrun_hinv (fresh_hinv lim) ho
  have hr := lrun_runHold (s := fresh lim) (fun k j h => by simp [fresh] at h) ho hb
  have hl : (lrun (fresh lim) os).lim = lim := by rw [lrun_lim]; rfl
  generalize lrun (fresh lim) os = s at *
  obtain ⟨ks, hn, hm, hs⟩ := hi.sum
  classical
  refine ⟨ks.filter (fun k => decide (Uses s k g)), hn.filter _, ?_, ?_⟩
  · intro k
    simp only [List.mem_filter, decide_eq_true_eq]
    constructor
    · exact fun h => h.2
    · intro h
      refine ⟨hm k ?_, h⟩
      obtain ⟨j, hj, _⟩ := h
      rw [hj]; simp
  · rw [hs g (by rw [hl]; exact hg)]
    apply mem_filter_sum
    intro k _
    by_cases hu : Uses s k g
    · obtain ⟨j, hj, h1, h2⟩ := hu
      have : decide (Uses s k g) = true := by simp; exact ⟨j, hj, h1, h2⟩
      rw [this, hj]
      simp only [hc, if_true, ((hr k j hj).1 h1).2]
      exact count_one (hi.ok k j hj).2 h2
    · have : decide (Uses s k g) = false := by simp [hu]
      rw [this]
      cases hj : s.jobs k with
      | none => rfl
      | some j =>
        simp only [hc, Bool.false_eq_true, if_false]
        by_cases hs : j.sub = .run
        · rw [((hr k j hj).1 hs).2]
          exact List.count_eq_zero_of_not_mem (fun h => hu ⟨j, hj, hs, h⟩)
        · rw [(hr k j hj).2 hs]; rfl

/-- Job 5 and job 6 are in group 3, whose limit is 1. -/
def lim3 : Nat → Option Nat := fun g => if g = 3 then some 1 else none

def limDemo : List Op :=
  [.add 5 0 [3, 4], .add 6 0 [3], .reserve 1 5, .reserve 2 6, .jstart 1 5 true,
   .jarchive 1 5 (some ⟨true, 0, true⟩), .reserve 2 6]

example : (∀ o ∈ limDemo, OpOk o) ∧ NoBadArchive (fresh lim3) limDemo ∧
    (lstep (lrun (fresh lim3) (limDemo.take 3)) (.reserve 2 6)).2 = .nothing ∧
    (lrun (fresh lim3) limDemo).cnt 3 = 1 ∧
    ((lrun (fresh lim3) limDemo).jobs 6).map (·.sub) = some .run := by
  refine ⟨?_, ?_, by decide +kernel, by decide +kernel, by decide +kernel⟩
  · intro o ho
    simp only [limDemo, List.mem_cons, List.not_mem_nil, or_false] at ho
    rcases ho with rfl | rfl | rfl | rfl | rfl | rfl | rfl <;> simp [OpOk]
  · simp only [limDemo, NoBadArchive]
    refine ⟨fun _ => ?_, fun _ => ?_, fun _ => ?_, fun _ => ?_, fun _ => ?_, fun _ => ?_,
      fun _ => ?_, trivial⟩ <;> decide +kernel

/-- Counts stay within the limits. -/
def Within (s : Life) : Prop := ∀ g n, s.lim g = some n → s.cnt g ≤ n

theorem lstep_within {s : Life} (hi : HInv s) (hw : Within s) {o : Op} (ho : OpOk o) :
    Within (lstep s o).1 := by
  intro g n hg
  have hl : (lstep s o).1.lim = s.lim := lrun_lim [o] s
  rw [hl] at hg
  have hw := hw g n hg
  have hgs : (s.lim g).isSome := by simp [hg]
  have drop : ∀ held, dropHeld s.lim s.cnt held g ≤ n := by
    intro held; rw [dropHeld_eq s.lim g hgs]; omega
  have ae : ∀ j, afterExitCnt s j g ≤ n := by
    intro j; unfold afterExitCnt; split
    · exact hw
    · exact drop _
  have rl : ∀ (k : Nat) (j : Job) (e : Option End) (f : Bool),
      (releaseJob s k j e f).1.cnt g ≤ n := by
    intro k j e f
    unfold releaseJob
    repeat' split
    all_goals first
      | exact hw
      | exact ae _
  cases o with
  | reserve c k =>
    simp only [lstep, reserve]
    split
    · exact hw
    · rename_i j hj
      split
      · rename_i hc
        simp only [Bool.and_eq_true, decide_eq_true_eq, admits, List.all_eq_true] at hc
        simp only [put]
        rw [incAll_eq s.lim g hgs]
        by_cases hm : g ∈ j.groups
        · have h1 := hc.2 g hm
          simp only [hg, decide_eq_true_eq] at h1
          rw [count_one (hi.ok k j hj).2 hm]
          omega
        · rw [List.count_eq_zero_of_not_mem hm]; exact hw
      · exact hw
  | depUpdate k => exact ho.elim
  | _ =>
    simp only [lstep, add, jstart, jtouch, jarchive, jrelease, jbury, jkick,
      jkill, jdel, ttr, reap, delayed] <;> (repeat' split) <;>
      first
      | exact hw
      | exact rl _ _ _ _
      | exact ae _
      | exact drop _

/-- **C33 (limit; partial).** Under the same exclusions the running jobs in a group never exceed
its limit. -/
theorem C33_limit_partial (lim : Nat → Option Nat) (os : List Op) (ho : ∀ o ∈ os, OpOk o)
    (hb : NoBadArchive (fresh lim) os) (g n : Nat) (hg : lim g = some n) (ks : List Nat)
    (hn : ks.Nodup) (hu : ∀ k ∈ ks, Uses (lrun (fresh lim) os) k g) : ks.length ≤ n := by
  obtain ⟨ks', hn', hm', hc'⟩ := C33_partial lim os ho hb g (by simp [hg])
  have hw : Within (lrun (fresh lim) os) := by
    have key : ∀ (os : List Op) (s : Life), HInv s → Within s → (∀ o ∈ os, OpOk o) →
        Within (lrun s os) := by
      intro os
      induction os with
      | nil => intro s _ h _; exact h
      | cons o os ih =>
        intro s hi hw ho
        have h1 := ho o (List.mem_cons_self ..)
        exact ih _ (lstep_hinv hi h1) (lstep_within hi hw h1)
          (fun o' h' => ho o' (List.mem_cons_of_mem _ h'))
    exact key os _ (fresh_hinv lim) (fun g n _ => Nat.zero_le _) ho
  have h1 := hw g n (by rw [lrun_lim]; exact hg)
  rw [hc'] at h1
  have h2 : ks ⊆ ks' := fun k hk => (hm' k).2 (hu k hk)
  have h3 : ks.length ≤ ks'.length := by
    clear hm' hc' h1 hu hn'
    induction ks generalizing ks' with
    | nil => simp
    | cons a l ih =>
      rw [List.nodup_cons] at hn
      have ha := h2 (List.mem_cons_self ..)
      have := ih hn.2 (ks'.erase a) (fun x hx => by
        rw [List.mem_erase_of_ne]
        · exact h2 (List.mem_cons_of_mem _ hx)
        · intro e; subst e; exact hn.1 hx)
      rw [List.length_erase_of_mem ha] at this
      have : 0 < ks'.length := List.length_pos_of_mem ha
      simp only [List.length_cons]; omega
  omega

/-- **C33 is violated** when a job is added to a dependency group that a running job depends on:
the running job's data is replaced, and its slot is never given back, so the group (limit 1) is
blocked although nothing runs in it. -/
theorem C33_violated_dependency :
    let s := lrun (fresh lim3) [.add 5 0 [3], .reserve 1 5, .depUpdate 5, .jdel 5, .add 6 0 [3]]
    s.jobs 5 = none ∧ s.cnt 3 = 1 ∧ (lstep s (.reserve 2 6)).2 = .nothing := by
  decide +kernel

/-- **C33 is violated** when an archive request is refused because the end state is missing or
incomplete: the slot is given back while the job goes on running, and a second job of the group
(limit 1) can be reserved. -/
theorem C33_violated_archive :
    let s := lrun (fresh lim3)
      [.add 5 0 [3], .add 6 0 [3], .reserve 1 5, .jstart 1 5 true, .jarchive 1 5 none,
       .reserve 2 6]
    (s.jobs 5).map (·.sub) = some .run ∧ (s.jobs 6).map (·.sub) = some .run := by
  decide +kernel

end Verif.Server
