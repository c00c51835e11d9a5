import Verif.Client.Report
/-! # C108: what a client tells the server about a job counts once, and its own copy says the same -/
namespace Verif.Client.Report

/-- specification: two copies of a job agree on what the last run was -/
def SameRun (a b : Job) : Prop :=
  a.exited = b.exited ∧ a.code = b.code ∧ a.ram = b.ram ∧ a.disk = b.disk ∧ a.cpu = b.cpu ∧ a.endT = b.endT ∧ a.cwd = b.cwd ∧
  a.attempts = b.attempts ∧ a.pid = b.pid

/-- specification: the calls made when the command starts (once, as a rule) -/
def starts (y : Sys) : List (Int × Nat × Nat) → Sys
  | [] => y
  | (pid, srvNow, now) :: l => starts (call y now (.start pid srvNow)).1 l

/-- specification: requests that end a run -/
def IsEnd : Req → Prop
  | .start _ _ => False
  | _ => True

/-- specification: a run that ended with an exit code other than 0 -/
def Failed (e : Jes) : Prop := e.exited = true ∧ e.code ≠ 0

private structure Running (y : Sys) (ub : Nat) (started : Prop) : Prop where
  same : SameRun y.cl y.srv.job
  ub1 : y.srv.job.untilBuried = ub
  ub2 : y.cl.untilBuried = ub
  ex : y.srv.job.exited = false
  endT : y.srv.job.endT = 0
  sub : y.srv.sub = .run
  mine : y.srv.mine = true
  st : y.srv.job.startT ≠ 0 ↔ started

private theorem starts_running (l : List (Int × Nat × Nat)) : ∀ (y : Sys) (ub : Nat) (st : Prop), Running y ub st →
    (∀ x ∈ l, 0 < x.1 ∧ x.2.1 ≠ 0) → Running (starts y l) ub (st ∨ l ≠ []) := by
  induction l with
  | nil => intro y ub st h _; simpa [starts] using h
  | cons x l ih =>
    intro y ub st h hl
    obtain ⟨pid, sn, n⟩ := x
    have hx := hl (pid, sn, n) (by simp)
    obtain ⟨hp, hs⟩ := hx
    have hp' : ¬ pid ≤ 0 := by omega
    have : Running (call y n (.start pid sn)).1 ub True := by
      have hg : getij y.srv true = .ok := by simp [getij, h.sub, h.mine]
      obtain ⟨h1, h2, h3, h4, h5, h6, h7, h8, h9⟩ := h.same
      simp only [call, serve, hg, hp', before, after, if_true, if_false]
      refine ⟨⟨h1, h2, h3, h4, h5, h6.trans h.endT, h7, ?_, rfl⟩, h.ub1, h.ub2, h.ex, rfl, h.sub, h.mine, ?_⟩
      all_goals simp_all
    have h2 := ih _ ub True this (fun x hx => hl x (by simp [hx]))
    simp only [true_or] at h2
    simpa [starts] using h2

private theorem reserve_running (j : Job) (r : Nat) : Running (reserve j r) j.untilBuried False :=
  ⟨⟨rfl, rfl, rfl, rfl, rfl, rfl, rfl, rfl, rfl⟩, rfl, rfl, rfl, rfl, rfl, rfl, by simp [reserve]⟩

private theorem dec8_ne (n : Nat) : dec8 n ≠ n := by
  unfold dec8; split <;> omega

/-- The copy of the client and the server's, for a job that was reserved, started any number of times and then ended by a
call that succeeded. -/
private theorem end_same (y : Sys) (ub now : Nat) (st : Prop) (h : Running y ub st) (r : Req) (hr : IsEnd r)
    (hok : (call y now r).2 = .ok) : SameRun (call y now r).1.cl (call y now r).1.srv.job := by
  obtain ⟨h1, h2, h3, h4, h5, h6, h7, h8, h9⟩ := h.same
  have hg : ∀ b, getij y.srv b = .ok := by intro b; simp [getij, h.sub, h.mine]
  have e3 := h.ex
  rw [e3] at h1
  cases r with
  | start _ _ => exact hr.elim
  | release e reason =>
    cases hx : e.exited <;> by_cases hst : y.srv.job.startT = 0 <;> by_cases hc : e.code = 0 <;> by_cases hu : y.srv.job.untilBuried = 1 <;>
      simp [call, serve, hg, before, after, ended, releaseJob, h.sub, afterRelease, updateAfterExit, h.ex, SameRun, hx, hst, hc, hu,
        e3, h1, h2, h3, h4, h5, h6, h7, h8, h9]
  | bury e reason =>
    cases hx : e.exited <;> by_cases hst : y.srv.job.startT = 0 <;> by_cases hc : e.code = 0 <;> by_cases hu : y.srv.job.untilBuried = 1 <;>
      simp [call, serve, hg, before, after, ended, releaseJob, h.sub, afterRelease, updateAfterExit, h.ex, SameRun, hx, hst, hc, hu,
        e3, h1, h2, h3, h4, h5, h6, h7, h8, h9]
  | archive e =>
    cases hx : e.exited
    · simp [call, serve, hg, updateAfterExit, h.ex, hx, e3] at hok
    · by_cases hc : e.code = 0 <;> by_cases hst : y.srv.job.startT = 0 <;> by_cases he : e.endT = 0 <;>
        simp [call, serve, hg, before, after, ended, updateAfterExit, h.ex, hx, e3, hc, hst, he, SameRun, h5, h7, h8, h9] at hok ⊢

/-- C108: after a run that this client started and ended, its copy and the server's agree on the run: exit code, memory, disk, CPU
time, end time, directory, process id and number of attempts. -/
theorem C108_run (j : Job) (retries now : Nat) (l : List (Int × Nat × Nat)) (hl : ∀ x ∈ l, 0 < x.1 ∧ x.2.1 ≠ 0) (r : Req) (hr : IsEnd r)
    (hok : (call (starts (reserve j retries) l) now r).2 = .ok) :
    SameRun (call (starts (reserve j retries) l) now r).1.cl (call (starts (reserve j retries) l) now r).1.srv.job :=
  end_same _ _ _ _ (starts_running l _ _ _ (reserve_running j retries) hl) r hr hok

/-- C108: after `Archive` and `Bury` the state in the copy is the one that the server shows. -/
theorem C108_state (j : Job) (retries now : Nat) (l : List (Int × Nat × Nat)) (hl : ∀ x ∈ l, 0 < x.1 ∧ x.2.1 ≠ 0) (r : Req)
    (hr : (∃ e, r = .archive e) ∨ ∃ e reason, r = .bury e reason)
    (hok : (call (starts (reserve j retries) l) now r).2 = .ok) :
    (call (starts (reserve j retries) l) now r).1.cl.state = shown (call (starts (reserve j retries) l) now r).1.srv := by
  have h := starts_running l _ _ _ (reserve_running j retries) hl
  revert hok h
  generalize starts (reserve j retries) l = y
  intro hok h
  have hg : ∀ b, getij y.srv b = .ok := by intro b; simp [getij, h.sub, h.mine]
  rcases hr with ⟨e, rfl⟩ | ⟨e, reason, rfl⟩
  · cases hx : e.exited
    · simp [call, serve, hg, updateAfterExit, h.ex, hx] at hok
    · by_cases hc : e.code = 0 <;> by_cases hst : y.srv.job.startT = 0 <;> by_cases he : e.endT = 0 <;>
        simp [call, serve, hg, before, after, updateAfterExit, h.ex, hx, hc, hst, he, shown] at hok ⊢
  · simp only [call, serve, hg, before, after, releaseJob, h.sub, shown]
    simp

/-- C108: after `Release` the copy has the server's number of tries left if and only if the job was started exactly if it
ended with an exit code other than 0; and if so (and tries were left), it has the state that the server shows. -/
theorem C108_release_partial (j : Job) (retries now : Nat) (l : List (Int × Nat × Nat)) (hl : ∀ x ∈ l, 0 < x.1 ∧ x.2.1 ≠ 0) (e : Jes) (reason : String) :
    ((call (starts (reserve j retries) l) now (.release e reason)).1.cl.untilBuried =
      (call (starts (reserve j retries) l) now (.release e reason)).1.srv.job.untilBuried ↔ (l ≠ [] ↔ Failed e)) ∧
    ((l ≠ [] ↔ Failed e) → j.untilBuried ≠ 0 →
      (call (starts (reserve j retries) l) now (.release e reason)).1.cl.state =
      shown (call (starts (reserve j retries) l) now (.release e reason)).1.srv) := by
  have h := starts_running l _ _ _ (reserve_running j retries) hl
  rw [false_or] at h
  revert h
  generalize starts (reserve j retries) l = y
  intro h
  have hs := h.st
  obtain ⟨h1, h2, h3, h4, h5, h6, h7, h8, h9⟩ := h.same
  have hg : ∀ b, getij y.srv b = .ok := by intro b; simp [getij, h.sub, h.mine]
  have hd := dec8_ne j.untilBuried
  have hd1 : dec8 j.untilBuried = 0 ↔ j.untilBuried = 1 := by unfold dec8; split <;> omega
  have d1 : dec8 1 = 0 := rfl
  rw [← hs]
  have e1 := h.ub1
  have e2 := h.ub2
  have e3 := h.ex
  rw [h.ex] at h1
  simp only [Failed]
  cases hx : e.exited <;> by_cases hst : y.srv.job.startT = 0 <;> by_cases hc : e.code = 0 <;> by_cases hu : j.untilBuried = 1 <;>
    simp [call, serve, hg, before, after, ended, releaseJob, h.sub, afterRelease, updateAfterExit, h.ex, shown, hx, hst, hc, hu, e1, e2, e3, h1, hd, hd.symm, hd1, d1]

/-! ## The loop of Execute -/

/-- specification: the client has a job that it started, and the server knows -/
structure Has (y : Sys) : Prop where
  sub : y.srv.sub = .run
  mine : y.srv.mine = true
  started : y.srv.job.startT ≠ 0
  ends : y.srv.ends = 0
  exited : y.srv.job.exited = false

/-- others have taken the job from the client -/
private def Away (s : Srv) : Prop := s.mine = false ∨ s.sub = .ready ∨ s.sub = .gone

private theorem away_other (s : Srv) (o : Other) (ho : o ≠ .dead) (h : Away s) : Away (other s o) := by
  rcases h with h | h | h <;> cases o <;> simp_all [other, Away] <;> (repeat' split) <;> simp_all

private theorem away_serve (s : Srv) (r : Req) (hr : IsEnd r) (h : Away s) : (serve s r).1 = s ∧ (serve s r).2 ≠ .ok := by
  rcases h with h | h | h <;> cases r <;> simp_all [serve, getij, IsEnd, releaseJob] <;> (repeat' split) <;> simp_all

private theorem run_other (s : Srv) (o : Other) (ho : o ≠ .dead) (h : s.sub = .run) : other s o = s := by
  cases o <;> simp_all [other]

private theorem ended_other (s : Srv) (o : Other) (ho : o ≠ .dead) (h : s.sub ≠ .run) : other s o = s ∨ Away (other s o) := by
  cases o <;> simp_all [other, Away] <;> (repeat' split) <;> simp_all

private theorem serve_sub (s : Srv) (r : Req) (hr : IsEnd r) (h : s.sub = .run) (hm : s.mine = true) (hok : (serve s r).2 = .ok) :
    (serve s r).1.sub ≠ .run := by
  have hg : ∀ b, getij s b = .ok := by intro b; simp [getij, h, hm]
  cases r with
  | start _ _ => exact hr.elim
  | release e reason =>
    by_cases hb : s.job.startT ≠ 0 ∧ s.job.untilBuried = 1 <;> simp [serve, hg, releaseJob, h, hb]
  | bury e reason => simp [serve, hg, releaseJob, h]
  | archive e => simp only [serve, hg] at hok ⊢; (repeat' split) <;> simp_all

private theorem uae_startT (j : Job) (e : Jes) : (updateAfterExit j e).startT = j.startT := by
  unfold updateAfterExit; (repeat' split) <;> rfl

private theorem uae_ub (j : Job) (e : Jes) : (updateAfterExit j e).untilBuried = j.untilBuried := by
  unfold updateAfterExit; (repeat' split) <;> rfl

private theorem uae_twice (j : Job) (e : Jes) : updateAfterExit (updateAfterExit j e) e = updateAfterExit j e := by
  unfold updateAfterExit; (repeat' split) <;> simp_all

private theorem ar_ub (j : Job) (e : Jes) (reason : String) (hs : j.startT ≠ 0) :
    (afterRelease j e reason false).untilBuried = dec8 j.untilBuried ∧ (afterRelease j e reason false).startT = j.startT ∧
    (afterRelease j e reason false).state = if dec8 j.untilBuried = 0 then .buried else .delayed := by
  simp [afterRelease, uae_startT, uae_ub, hs]

/-- the second time the server gets a request that ends the run, nothing changes -/
private theorem serve_twice (s : Srv) (r : Req) (hr : IsEnd r) (h : s.sub = .run) (hm : s.mine = true) (hs : s.job.startT ≠ 0) :
    (serve (serve s r).1 r).1 = (serve s r).1 ∧ ((serve s r).2 ≠ .ok → (serve (serve s r).1 r).2 ≠ .ok ∧ (serve s r).1.sub = .run) := by
  have hg : ∀ b, getij s b = .ok := by intro b; simp [getij, h, hm]
  cases r with
  | start _ _ => exact hr.elim
  | release e reason =>
    obtain ⟨a1, a2, a3⟩ := ar_ub s.job e reason hs
    by_cases hu : s.job.untilBuried = 1
    · have d : dec8 s.job.untilBuried = 0 := by simp [dec8, hu]
      rw [d] at a1
      simp [serve, hg, releaseJob, h, hs, hu, getij, hm, a1]
    · have d : dec8 s.job.untilBuried ≠ 0 := by unfold dec8; split <;> omega
      rw [if_neg d] at a3
      by_cases hd : dec8 s.job.untilBuried = 1 <;> simp [serve, hg, releaseJob, h, hs, hu, getij, hm, a1, a2, a3, hd]
  | bury e reason =>
    simp [serve, hg, releaseJob, h, getij, hm, afterRelease]
  | archive e =>
    by_cases hb : (!(updateAfterExit s.job e).exited || (updateAfterExit s.job e).code ≠ 0 || (updateAfterExit s.job e).startT = 0 ||
      (updateAfterExit s.job e).endT = 0) = true
    · have : serve s (.archive e) = ({ s with job := updateAfterExit s.job e }, .badRequest) := by
        simp only [serve, hg, if_true]; rw [if_pos hb]
      rw [this]
      have hg2 : ∀ b, getij { s with job := updateAfterExit s.job e } b = .ok := by intro b; simp [getij, h, hm]
      have : serve { s with job := updateAfterExit s.job e } (.archive e) = ({ s with job := updateAfterExit s.job e }, .badRequest) := by
        simp only [serve, hg2, if_true, uae_twice]; rw [if_pos hb]
      rw [this]; simp [h]
    · have : serve s (.archive e) = ({ s with job := { updateAfterExit s.job e with state := .complete, reason := "" }, sub := .gone, ends := s.ends + 1 }, .ok) := by
        simp only [serve, hg, if_true]; rw [if_neg hb]
      rw [this]
      simp [serve, getij]

/-- where the server can be in the loop, nobody having confirmed the job dead -/
private def At (s0 : Srv) (r : Req) (s : Srv) : Prop :=
  s = s0 ∨ ((serve s0 r).2 = .ok ∧ (s = (serve s0 r).1 ∨ Away s)) ∨ ((serve s0 r).2 ≠ .ok ∧ s = (serve s0 r).1)

private theorem at_other (s0 : Srv) (r : Req) (hr : IsEnd r) (h : s0.sub = .run) (hm : s0.mine = true) (hs : s0.job.startT ≠ 0) (s : Srv) (o : Other)
    (ho : o ≠ .dead) (ha : At s0 r s) : At s0 r (other s o) := by
  rcases ha with rfl | ⟨hk, rfl | ha⟩ | ⟨hk, rfl⟩
  · left; exact run_other _ o ho h
  · rcases ended_other _ o ho (serve_sub s0 r hr h hm hk) with he | he
    · rw [he]; exact .inr (.inl ⟨hk, .inl rfl⟩)
    · exact .inr (.inl ⟨hk, .inr he⟩)
  · exact .inr (.inl ⟨hk, .inr (away_other s o ho ha)⟩)
  · rw [run_other _ o ho ((serve_twice s0 r hr h hm hs).2 hk).2]; exact .inr (.inr ⟨hk, rfl⟩)

private theorem at_others (s0 : Srv) (r : Req) (hr : IsEnd r) (h : s0.sub = .run) (hm : s0.mine = true) (hs : s0.job.startT ≠ 0) (os : List Other) :
    ∀ s : Srv, .dead ∉ os → At s0 r s → At s0 r (os.foldl other s) := by
  induction os with
  | nil => intro s _ ha; exact ha
  | cons o os ih =>
    intro s hd ha
    exact ih _ (fun h => hd (by simp [h])) (at_other s0 r hr h hm hs s o (fun h => hd (by simp [h])) ha)

private theorem at_serve (s0 : Srv) (r : Req) (hr : IsEnd r) (h : s0.sub = .run) (hm : s0.mine = true) (hs : s0.job.startT ≠ 0) (s : Srv)
    (ha : At s0 r s) : At s0 r (serve s r).1 ∧ ((serve s r).2 = .ok → (serve s r).1 = (serve s0 r).1 ∧ (serve s0 r).2 = .ok) := by
  have ht := serve_twice s0 r hr h hm hs
  rcases ha with rfl | ⟨hk, rfl | ha⟩ | ⟨hk, rfl⟩
  · by_cases hk : (serve s r).2 = .ok
    · exact ⟨.inr (.inl ⟨hk, .inl rfl⟩), fun _ => ⟨rfl, hk⟩⟩
    · exact ⟨.inr (.inr ⟨hk, rfl⟩), fun h => (hk h).elim⟩
  · rw [ht.1]; exact ⟨.inr (.inl ⟨hk, .inl rfl⟩), fun _ => ⟨rfl, hk⟩⟩
  · have hw := away_serve s r hr ha
    rw [hw.1]; exact ⟨.inr (.inl ⟨hk, .inr ha⟩), fun h => (hw.2 h).elim⟩
  · rw [ht.1]; exact ⟨.inr (.inr ⟨hk, rfl⟩), fun h => ((ht.2 hk).1 h).elim⟩

private theorem before_twice (j : Job) (r : Req) (hr : IsEnd r) : before (before j 0 r) 0 r = before j 0 r := by
  cases r with
  | start _ _ => exact hr.elim
  | _ => rfl

private theorem call_srv (y : Sys) (now : Nat) (r : Req) : (call y now r).1.srv = (serve y.srv r).1 ∧ (call y now r).2 = (serve y.srv r).2 ∧
    (call y now r).1.cl = if (serve y.srv r).2 = .ok then after (before y.cl now r) r else before y.cl now r := by
  simp only [call]; split <;> simp_all

private theorem loop_worked (s0 : Srv) (c0 : Job) (r : Req) (hr : IsEnd r) (h : s0.sub = .run) (hm : s0.mine = true) (hs : s0.job.startT ≠ 0)
    (l : List (List Other × Attempt)) : ∀ y : Sys, (∀ x ∈ l, Other.dead ∉ x.1) → At s0 r y.srv → (y.cl = c0 ∨ y.cl = before c0 0 r) →
    (loop y r l).2 = .worked → (serve s0 r).2 = .ok ∧ (loop y r l).1 = ⟨(serve s0 r).1, after (before c0 0 r) r⟩ := by
  induction l with
  | nil => intro y _ _ _ hw; simp [loop] at hw
  | cons x l ih =>
    intro y hd ha hc hw
    obtain ⟨os, t⟩ := x
    have ha1 := at_others s0 r hr h hm hs os y.srv (hd (os, t) (by simp)) ha
    have hd2 : ∀ x ∈ l, Other.dead ∉ x.1 := fun x hx => hd x (by simp [hx])
    have hb : before y.cl 0 r = before c0 0 r := by
      rcases hc with hc | hc <;> rw [hc]; exact before_twice c0 r hr
    have h2 := at_serve s0 r hr h hm hs _ ha1
    obtain ⟨c1, c2, c3⟩ := call_srv { y with srv := os.foldl other y.srv } 0 r
    cases t with
    | unreached => exact ih _ hd2 ha1 (.inr hb) hw
    | lost => exact ih _ hd2 h2.1 (.inr hb) hw
    | heard =>
      simp only [loop] at hw ⊢
      split at hw
      · rename_i hk
        simp only [hk]
        rw [hk] at c2
        have h3 := h2.2 c2.symm
        refine ⟨h3.2, ?_⟩
        rw [if_pos c2.symm] at c3
        have : ∀ (a b : Sys), a.srv = b.srv → a.cl = b.cl → a = b := by intro a b; cases a; cases b; simp_all
        apply this
        · rw [c1]; exact h3.1
        · rw [c3]; simp [hb]
      · simp at hw
      · simp at hw
      · rename_i hn _ _
        have hne : (serve (os.foldl other y.srv) r).2 ≠ .ok := by rw [← c2]; exact hn
        rw [if_neg hne] at c3
        have := ih (call { y with srv := os.foldl other y.srv } 0 r).1 hd2 (by rw [c1]; exact h2.1) (.inr (by rw [c3]; exact hb)) hw
        exact this

/-- C108: when the loop of `Execute` ends with the server's word that all is well, client and server are as if the server had been told
exactly once, however many requests it got and whatever others did meanwhile, unless one of them confirmed the job dead. -/
theorem C108_once (y : Sys) (r : Req) (hr : IsEnd r) (h : Has y) (l : List (List Other × Attempt)) (hd : ∀ x ∈ l, Other.dead ∉ x.1)
    (hw : (loop y r l).2 = .worked) : (call y 0 r).2 = .ok ∧ (loop y r l).1 = (call y 0 r).1 := by
  obtain ⟨a, b⟩ := loop_worked y.srv y.cl r hr h.sub h.mine h.started l y hd (.inl rfl) (.inl rfl) hw
  obtain ⟨c1, c2, c3⟩ := call_srv y 0 r
  refine ⟨c2.trans a, ?_⟩
  rw [if_pos a] at c3
  rw [b]
  have : ∀ (a b : Sys), a.srv = b.srv → a.cl = b.cl → a = b := by intro a b; cases a; cases b; simp_all
  exact this _ _ c1.symm c3.symm

private structure Inv (s : Srv) : Prop where
  st : s.mine = true → s.job.startT ≠ 0
  run : s.sub = .run → s.ends = 0
  delay : s.mine = true → s.sub = .delay → s.job.state = .delayed
  bury : s.mine = true → s.sub = .bury → s.job.state = .buried
  le : s.ends ≤ 1

private theorem ar_startT (j : Job) (e : Jes) (reason : String) (b : Bool) : (afterRelease j e reason b).startT = j.startT := by
  unfold afterRelease
  by_cases hb : b = true <;> by_cases hs : j.startT = 0 <;> simp [hb, hs, uae_startT]

private theorem ar_state (j : Job) (e : Jes) (reason : String) (b : Bool) :
    (b = true → (afterRelease j e reason b).state = .buried) ∧
    (b = false → j.startT ≠ 0 → (afterRelease j e reason b).state = if j.untilBuried = 1 then .buried else .delayed) := by
  constructor
  · rintro rfl; simp [afterRelease]
  · rintro rfl hs
    rw [(ar_ub j e reason hs).2.2]
    by_cases h : j.untilBuried = 1
    · simp [h, dec8]
    · have : dec8 j.untilBuried ≠ 0 := by unfold dec8; split <;> omega
      simp [h, this]

private theorem inv_release (s : Srv) (e : Jes) (reason : String) (b : Bool) (h : Inv s) (s' : Srv) (hm : s.mine = true ∨ s.sub = .run)
    (hr : releaseJob s e reason b = some s') : Inv s' := by
  obtain ⟨h1, h2, h3, h4, h5⟩ := h
  have a1 := ar_startT s.job e reason b
  have a2 := ar_state s.job e reason b
  simp only [releaseJob] at hr
  by_cases hb : (b || (decide (s.job.startT ≠ 0) && decide (s.job.untilBuried = 1))) = true
  · rw [if_pos hb] at hr
    have a3 : (afterRelease s.job e reason b).state = .buried := by
      cases b
      · simp at hb; rw [a2.2 rfl hb.1]; simp [hb.2]
      · exact a2.1 rfl
    split at hr
    · cases hr
    split at hr
    · rename_i hsub
      have hm' : s.mine = true := by rcases hm with hm | hm; exact hm; simp [hsub] at hm
      rw [if_pos (h4 hm' hsub)] at hr
      cases hr; exact ⟨h1, h2, h3, h4, h5⟩
    split at hr
    · rename_i hsub
      cases hr; exact ⟨by simpa [a1] using h1, by simp, by simp, by simp [a3], by simp [h2 hsub]⟩
    · cases hr
  · rw [if_neg hb] at hr
    have hb' : b = false := by cases b <;> simp_all
    subst hb'
    have a3 : s.mine = true → (afterRelease s.job e reason false).state = .delayed := by
      intro hm2
      have := h1 hm2
      rw [a2.2 rfl this]; simp_all
    split at hr
    · cases hr
    split at hr
    · rename_i hsub
      have hm' : s.mine = true := by rcases hm with hm | hm; exact hm; simp [hsub] at hm
      rw [if_pos (h3 hm' hsub)] at hr
      cases hr; exact ⟨h1, h2, h3, h4, h5⟩
    split at hr
    · rename_i hsub
      cases hr; exact ⟨by simpa [a1] using h1, by simp, by simpa using a3, by simp, by simp [h2 hsub]⟩
    · cases hr

private theorem inv_other (s : Srv) (o : Other) (h : Inv s) : Inv (other s o) := by
  cases o with
  | delayOver =>
    simp only [other]; split
    · exact ⟨h.st, by simp, by simp, by simp, h.le⟩
    · exact h
  | reserved =>
    simp only [other]; split
    · exact ⟨by simp, by simp, by simp, by simp, by simp⟩
    · exact h
  | kicked =>
    simp only [other]; split
    · exact ⟨h.st, by simp, by simp, by simp, h.le⟩
    · exact h
  | removed =>
    simp only [other]; split
    · exact h
    · exact ⟨h.st, by simp, by simp, by simp, h.le⟩
  | dead =>
    simp only [other]; split
    · rename_i hs
      rcases hr : releaseJob s { exited := true, code := -1 } "lost" false with _ | s'
      · exact h
      · exact inv_release s _ _ _ h s' (.inr hs) hr
    · exact h

private theorem getij_mine (s : Srv) (b : Bool) (h : getij s b = .ok) : s.mine = true := by
  unfold getij at h; (repeat' split at h) <;> simp_all

private theorem inv_serve (s : Srv) (r : Req) (hr : IsEnd r) (h : Inv s) : Inv (serve s r).1 := by
  cases r with
  | start _ _ => exact hr.elim
  | release e reason =>
    simp only [serve]; split
    · rename_i hg
      rcases hr : releaseJob s e reason false with _ | s'
      · exact h
      · exact inv_release s _ _ _ h s' (.inl (getij_mine s _ hg)) hr
    · exact h
  | bury e reason =>
    simp only [serve]; split
    · rename_i hg
      rcases hr : releaseJob s e reason true with _ | s'
      · exact h
      · exact inv_release s _ _ _ h s' (.inl (getij_mine s _ hg)) hr
    · exact h
  | archive e =>
    simp only [serve]; split
    · rename_i hg
      have hrun : s.sub = .run := by
        unfold getij at hg; (repeat' split at hg) <;> simp_all
      have := h.run hrun
      split
      · exact ⟨by simpa [uae_startT] using h.st, h.run, by simp [hrun], by simp [hrun], h.le⟩
      · exact ⟨by simpa [uae_startT] using h.st, by simp, by simp, by simp, by simp [this]⟩
    · exact h

private theorem loop_inv (r : Req) (hr : IsEnd r) (l : List (List Other × Attempt)) : ∀ y : Sys, Inv y.srv → Inv (loop y r l).1.srv := by
  induction l with
  | nil => intro y h; exact h
  | cons x l ih =>
    intro y h
    obtain ⟨os, t⟩ := x
    have h1 : Inv (os.foldl other y.srv) := by
      have : ∀ s, Inv s → Inv (os.foldl other s) := by
        induction os with
        | nil => intro s h; exact h
        | cons o os ih => intro s h; exact ih _ (inv_other s o h)
      exact this _ h
    have h2 := inv_serve _ r hr h1
    obtain ⟨c1, -, -⟩ := call_srv { y with srv := os.foldl other y.srv } 0 r
    have h3 : Inv (call { y with srv := os.foldl other y.srv } 0 r).1.srv := by rw [c1]; exact h2
    cases t with
    | unreached => exact ih _ h1
    | lost => exact ih _ h2
    | heard =>
      simp only [loop]
      split
      · exact h3
      · exact h3
      · exact h3
      · exact ih _ h3

/-- C108: whatever requests get through and whatever others do, the end of a run is carried out at most once. -/
theorem C108_ends (y : Sys) (r : Req) (hr : IsEnd r) (h : Has y) (l : List (List Other × Attempt)) : (loop y r l).1.srv.ends ≤ 1 :=
  (loop_inv r hr l y ⟨fun _ => h.started, fun _ => h.ends, by simp [h.sub], by simp [h.sub], by simp [h.ends]⟩).le

private theorem lost_again (y : Sys) (r : Req) (hr : IsEnd r) (h : Has y) : callLost (callLost y 0 r) 0 r = callLost y 0 r := by
  simp only [callLost, (serve_twice y.srv r hr h.sub h.mine h.started).1, before_twice y.cl r hr]

/-- how the loop goes on after the answer to the first request was lost and nobody else does anything -/
private theorem loop_lost (y : Sys) (r : Req) (hr : IsEnd r) (h : Has y) (l : List Attempt) :
    loop (callLost y 0 r) r (l.map fun t => ([], t)) =
      if .heard ∈ l then
        match (serve (serve y.srv r).1 r).2 with
        | .ok => (⟨(serve y.srv r).1, after (before y.cl 0 r) r⟩, .worked)
        | .badJob => (callLost y 0 r, .refused)
        | .badRequest => (callLost y 0 r, .refused)
        | _ => (callLost y 0 r, .timeOver)
      else (callLost y 0 r, .timeOver) := by
  induction l with
  | nil => rfl
  | cons t l ih =>
    have hb := before_twice y.cl r hr
    have hs := (serve_twice y.srv r hr h.sub h.mine h.started).1
    have e1 : ({ callLost y 0 r with cl := before (callLost y 0 r).cl 0 r } : Sys) = callLost y 0 r := by
      simp [callLost, hb]
    cases t with
    | unreached =>
      simp only [List.map_cons, loop, List.foldl_nil, List.mem_cons, reduceCtorEq, false_or]
      rw [e1, ih]
    | lost =>
      simp only [List.map_cons, loop, List.foldl_nil, List.mem_cons, reduceCtorEq, false_or]
      rw [lost_again y r hr h, ih]
    | heard =>
      obtain ⟨c1, c2, c3⟩ := call_srv (callLost y 0 r) 0 r
      have c2' : (call (callLost y 0 r) 0 r).2 = (serve (serve y.srv r).1 r).2 := c2
      have c3' : (call (callLost y 0 r) 0 r).1.cl = if (serve (serve y.srv r).1 r).2 = .ok then after (before (before y.cl 0 r) 0 r) r
        else before (before y.cl 0 r) 0 r := c3
      simp only [List.map_cons, loop, List.foldl_nil, List.mem_cons, true_or, if_true]
      have hx : ∀ (a b : Sys), a.srv = b.srv → a.cl = b.cl → a = b := by intro a b; cases a; cases b; simp_all
      have hne : (serve (serve y.srv r).1 r).2 ≠ .ok → (call (callLost y 0 r) 0 r).1 = callLost y 0 r := by
        intro hn
        apply hx
        · rw [c1]; exact hs
        · rw [c3', if_neg hn]; exact hb
      rw [c2']
      rcases hk : (serve (serve y.srv r).1 r).2 with _ | _ | _ | _ | _
      · simp only
        congr 1
        apply hx
        · rw [c1]; exact hs
        · rw [c3', if_pos hk, hb]
      · simp only [hne (by simp [hk])]
      · simp only [hne (by simp [hk])]
      · simp only [hne (by simp [hk]), ih, hk]; split <;> rfl
      · simp only [hne (by simp [hk]), ih, hk]; split <;> rfl

/-- specification: answers, at last one that is heard -/
def HeardIn (l : List Attempt) : Prop := Attempt.heard ∈ l

/-- C108, answers lost, nobody else acting: a `Bury`, and a `Release` of a job with three or more tries left, can be told again
until an answer is heard. Missing: a `Release` with fewer tries left, an `Archive`, and the job being touched by others. -/
theorem C108_again_partial (y : Sys) (h : Has y) (e : Jes) (reason : String) (r : Req)
    (hr : r = .bury e reason ∨ (r = .release e reason ∧ 3 ≤ y.srv.job.untilBuried)) (l : List Attempt) (hl : HeardIn l) :
    loop y r (([], .lost) :: l.map fun t => ([], t)) = ((call y 0 r).1, .worked) := by
  have hend : IsEnd r := by rcases hr with rfl | ⟨rfl, -⟩ <;> trivial
  have hg : ∀ b, getij y.srv b = .ok := by intro b; simp [getij, h.sub, h.mine]
  have hk : (serve (serve y.srv r).1 r).2 = .ok ∧ (serve y.srv r).2 = .ok := by
    rcases hr with rfl | ⟨rfl, h3⟩
    · simp [serve, hg, releaseJob, h.sub, getij, h.mine, afterRelease]
    · obtain ⟨a1, a2, a3⟩ := ar_ub y.srv.job e reason h.started
      have d1 : y.srv.job.untilBuried ≠ 1 := by omega
      have d2 : dec8 y.srv.job.untilBuried ≠ 1 := by unfold dec8; split <;> omega
      have d3 : dec8 y.srv.job.untilBuried ≠ 0 := by unfold dec8; split <;> omega
      rw [if_neg d3] at a3
      simp [serve, hg, releaseJob, h.sub, getij, h.mine, h.started, d1, d2, a1, a2, a3]
  have := loop_lost y r hend h l
  have hl' : Attempt.heard ∈ l := hl
  rw [if_pos hl', hk.1] at this
  simp only [loop, List.foldl_nil]
  rw [this]
  obtain ⟨c1, c2, c3⟩ := call_srv y 0 r
  rw [if_pos hk.2] at c3
  simp only
  congr 1
  have hx : ∀ (a b : Sys), a.srv = b.srv → a.cl = b.cl → a = b := by intro a b; cases a; cases b; simp_all
  apply hx
  · exact c1.symm
  · exact c3.symm

/-- The code violates C108: when the answer to the `Release` of a job with one or two tries left is lost, every later attempt is
answered with an internal error, and the client goes on asking until its time (24 hours) is over, though the server did it at once. -/
theorem C108_violated_release (y : Sys) (h : Has y) (e : Jes) (reason : String) (hu : y.srv.job.untilBuried = 1 ∨ y.srv.job.untilBuried = 2)
    (l : List Attempt) :
    (loop y (.release e reason) (([], .lost) :: l.map fun t => ([], t))).2 = .timeOver ∧
    (loop y (.release e reason) (([], .lost) :: l.map fun t => ([], t))).1.srv.ends = 1 := by
  have hg : ∀ b, getij y.srv b = .ok := by intro b; simp [getij, h.sub, h.mine]
  have hk : (serve (serve y.srv (.release e reason)).1 (.release e reason)).2 = .internal ∧ (serve y.srv (.release e reason)).1.ends = 1 := by
    obtain ⟨a1, a2, a3⟩ := ar_ub y.srv.job e reason h.started
    rcases hu with hu | hu
    · have d : dec8 y.srv.job.untilBuried = 0 := by simp [dec8, hu]
      rw [d] at a1
      simp [serve, hg, releaseJob, h.sub, h.started, hu, getij, h.mine, a1, h.ends]
    · have d : dec8 y.srv.job.untilBuried = 1 := by simp [dec8, hu]
      rw [d] at a1
      simp [serve, hg, releaseJob, h.sub, h.started, hu, getij, h.mine, a1, a2, h.ends]
  have := loop_lost y (.release e reason) trivial h l
  simp only [loop, List.foldl_nil]
  rw [this, hk.1]
  by_cases hl : Attempt.heard ∈ l <;> simp [hl, callLost, hk.2]

/-- C108: when the answer to an `Archive` is lost, the next answer heard is that the job is not there, and the client gives up, the
job being complete: the command is said to need another run (`C52_violated_lost`). -/
theorem C108_violated_archive (y : Sys) (h : Has y) (e : Jes) (hx : e.exited = true) (hc : e.code = 0) (he : e.endT ≠ 0)
    (l : List Attempt) (hl : HeardIn l) :
    (loop y (.archive e) (([], .lost) :: l.map fun t => ([], t))).2 = .refused ∧
    shown (loop y (.archive e) (([], .lost) :: l.map fun t => ([], t))).1.srv = .complete := by
  have hg : ∀ b, getij y.srv b = .ok := by intro b; simp [getij, h.sub, h.mine]
  have e3 := h.exited
  have e4 := h.started
  have hs : serve y.srv (.archive e) = ({ y.srv with job := { updateAfterExit y.srv.job e with state := .complete, reason := "" }, sub := .gone, ends := y.srv.ends + 1 }, .ok) := by
    simp [serve, hg, updateAfterExit, hx, hc, he, e3, e4]
  have hk : (serve (serve y.srv (.archive e)).1 (.archive e)).2 = .badJob := by rw [hs]; simp [serve, getij]
  have := loop_lost y (.archive e) trivial h l
  simp only [loop, List.foldl_nil]
  have hl' : Attempt.heard ∈ l := hl
  rw [this, hk, if_pos hl']
  simp [callLost, hs, shown]

/-- C108: if no answer gets lost and nobody else acts, the first one heard is that all is well. -/
theorem C108_heard (y : Sys) (h : Has y) (r : Req) (hr : (∃ e reason, r = .bury e reason) ∨ (∃ e reason, r = .release e reason) ∨
      ∃ e, r = .archive e ∧ e.exited = true ∧ e.code = 0 ∧ e.endT ≠ 0) (n : Nat) (l : List (List Other × Attempt)) :
    loop y r (List.replicate n ([], .unreached) ++ ([], .heard) :: l) = ((call y 0 r).1, .worked) := by
  have hend : IsEnd r := by rcases hr with ⟨_, _, rfl⟩ | ⟨_, _, rfl⟩ | ⟨_, rfl, _⟩ <;> trivial
  have hg : ∀ b, getij y.srv b = .ok := by intro b; simp [getij, h.sub, h.mine]
  have e3 := h.exited
  have e4 := h.started
  have hk : (serve y.srv r).2 = .ok := by
    rcases hr with ⟨e, reason, rfl⟩ | ⟨e, reason, rfl⟩ | ⟨e, rfl, hx, hc, he⟩
    · simp [serve, hg, releaseJob, h.sub]
    · by_cases hu : y.srv.job.untilBuried = 1 <;> simp [serve, hg, releaseJob, h.sub, hu, e4]
    · simp [serve, hg, updateAfterExit, hx, hc, he, e3, e4]
  obtain ⟨c1, c2, c3⟩ := call_srv y 0 r
  rw [if_pos hk] at c3
  have hx : ∀ (a b : Sys), a.srv = b.srv → a.cl = b.cl → a = b := by intro a b; cases a; cases b; simp_all
  have key : ∀ c : Job, before c 0 r = before y.cl 0 r → loop ⟨y.srv, c⟩ r (([], .heard) :: l) = ((call y 0 r).1, .worked) := by
    intro c hc
    obtain ⟨k1, k2, k3⟩ := call_srv ⟨y.srv, c⟩ 0 r
    rw [if_pos hk] at k3
    simp only [loop, List.foldl_nil]
    have k2' : (call ⟨y.srv, c⟩ 0 r).2 = .ok := k2.trans hk
    rw [k2']
    simp only
    congr 1
    apply hx
    · rw [k1, c1]
    · rw [k3, c3, hc]
  have gen : ∀ (n : Nat) (c : Job), before c 0 r = before y.cl 0 r →
      loop ⟨y.srv, c⟩ r (List.replicate n ([], .unreached) ++ ([], .heard) :: l) = ((call y 0 r).1, .worked) := by
    intro n
    induction n with
    | zero => intro c hc; exact key c hc
    | succ n ih =>
      intro c hc
      simp only [List.replicate_succ, List.cons_append, loop, List.foldl_nil]
      exact ih _ (by rw [before_twice c r hend]; exact hc)
  exact gen n y.cl rfl

/-- a job with 3 retries left that was run before, for the cases below -/
private def j3 : Job := ⟨.ready, 4, true, 1, 50, 0, 7, 100, 200, "/tmp/a", "exit", 1, 77⟩

/-- reserved and started -/
private def y3 : Sys := starts (reserve j3 4) [(1234, 300, 301)]

private def fails : Jes := { exited := true, code := 1, ram := 10, endT := 400, cwd := "/tmp/b" }

private def succeeds : Jes := { exited := true, code := 0, ram := 10, endT := 400, cwd := "/tmp/b" }

/-- Non-trivial cases: the hypotheses of the theorems above are met by a job that was reserved and started, and fails. -/
example : Has y3 := ⟨rfl, rfl, by decide, rfl, rfl⟩
example : (call y3 0 (.release fails "exit")).2 = .ok ∧ (call y3 0 (.release fails "exit")).1.cl.untilBuried = 3 ∧
    shown (call y3 0 (.release fails "exit")).1.srv = .delayed := by decide
example : (loop y3 (.release fails "exit") [([], .lost), ([.kicked], .unreached), ([], .heard)]).2 = .worked := by decide
example : (call y3 0 (.archive succeeds)).2 = .ok := by decide
example : (loop y3 (.bury fails "exit") [([], .lost), ([.kicked, .reserved], .heard)]).2 = .timeOver := by decide
example : 3 ≤ y3.srv.job.untilBuried ∧ HeardIn [.lost, .heard] := ⟨by decide, by simp [HeardIn]⟩

/-- The code violates C108: a job that exited 0 is released (as its output could not be uploaded): it was its last try, the server has
buried it, the client's copy says that it is delayed. -/
theorem C108_violated_zero : ∃ (j : Job) (e : Jes), e.exited = true ∧
    (call (starts (reserve j 0) [(1, 1, 1)]) 0 (.release e "upload")).2 = .ok ∧
    (call (starts (reserve j 0) [(1, 1, 1)]) 0 (.release e "upload")).1.cl.state = .delayed ∧
    shown (call (starts (reserve j 0) [(1, 1, 1)]) 0 (.release e "upload")).1.srv = .buried :=
  ⟨{ j3 with untilBuried := 1 }, succeeds, by decide⟩

/-- The code violates C108: after `Started` the copy says that the job is reserved; the server shows that it is running. -/
theorem C108_violated_started : ∃ j : Job, (call (reserve j 3) 1 (.start 5 1)).2 = .ok ∧
    (call (reserve j 3) 1 (.start 5 1)).1.cl.state = .reserved ∧ shown (call (reserve j 3) 1 (.start 5 1)).1.srv = .running :=
  ⟨j3, by decide⟩

/-- The code violates C108: after `Bury` the copy still has tries left; after `Archive` it still has the reason why an earlier run failed. -/
theorem C108_violated_left : ∃ y : Sys, Has y ∧
    ((call y 0 (.bury fails "exit")).1.cl.untilBuried = 4 ∧ (call y 0 (.bury fails "exit")).1.srv.job.untilBuried = 0) ∧
    ((call y 0 (.archive succeeds)).1.cl.reason = "exit" ∧ (call y 0 (.archive succeeds)).1.srv.job.reason = "") :=
  ⟨y3, ⟨rfl, rfl, by decide, rfl, rfl⟩, by decide⟩

/-- The code violates C108: an `Archive` that is refused, as the command failed, records the end of the run nonetheless; what a
`Release` then tells is dropped, though it is answered with no error. -/
theorem C108_violated_refused : ∃ (y : Sys) (e e' : Jes), Has y ∧ (call y 0 (.archive e)).2 = .badRequest ∧
    (call (call y 0 (.archive e)).1 0 (.release e' "exit")).2 = .ok ∧
    (call (call y 0 (.archive e)).1 0 (.release e' "exit")).1.cl.code = 2 ∧
    (call (call y 0 (.archive e)).1 0 (.release e' "exit")).1.srv.job.code = 1 :=
  ⟨y3, fails, { fails with code := 2 }, ⟨rfl, rfl, by decide, rfl, rfl⟩, by decide⟩

/-- The code violates C108: somebody confirmed a job dead that was only lost; its client then tells that it failed with exit code 1 and is
answered with no error, but what is recorded is exit code -1 and that it was lost. -/
theorem C108_violated_dead : ∃ y : Sys, Has y ∧
    (loop y (.release fails "exit") [([.dead], .heard)]).2 = .worked ∧
    (loop y (.release fails "exit") [([.dead], .heard)]).1.cl.code = 1 ∧
    (loop y (.release fails "exit") [([.dead], .heard)]).1.srv.job.code = -1 ∧
    (loop y (.release fails "exit") [([.dead], .heard)]).1.srv.job.reason = "lost" :=
  ⟨y3, ⟨rfl, rfl, by decide, rfl, rfl⟩, by decide⟩

/-- The code violates C108: if the delay of a job that was released is over before an answer is heard, and it is even given to another
client, all later attempts fail, but not finally: for any number of them the client goes on until its time is over. -/
theorem C108_violated_over (n : Nat) : ∃ y : Sys, Has y ∧
    (loop y (.release fails "exit") (([], .lost) :: ([.delayOver, .reserved], .heard) :: List.replicate n ([], .heard))).2 = .timeOver := by
  refine ⟨y3, ⟨rfl, rfl, by decide, rfl, rfl⟩, ?_⟩
  have h1 : loop y3 (.release fails "exit") (([], .lost) :: ([.delayOver, .reserved], .heard) :: List.replicate n ([], .heard)) =
      loop ⟨(other (other (serve y3.srv (.release fails "exit")).1 .delayOver) .reserved), before y3.cl 0 (.release fails "exit")⟩
        (.release fails "exit") (List.replicate n ([], .heard)) := rfl
  rw [h1]
  generalize hy : (⟨(other (other (serve y3.srv (.release fails "exit")).1 .delayOver) .reserved), before y3.cl 0 (.release fails "exit")⟩ : Sys) = y
  have hc : call y 0 (.release fails "exit") = (y, .mustReserve) := by subst hy; rfl
  clear hy h1
  induction n with
  | zero => rfl
  | succ n ih =>
    simp only [List.replicate_succ, loop, List.foldl_nil]
    rw [hc]
    exact ih

end Verif.Client.Report
