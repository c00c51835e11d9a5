import Verif.Server.RunnerCmdProps
import Verif.Sched.LsfProps
import Verif.Utils.ReqProps

/-! # C132: the runner has the time its group needs; runners are found again after a restart of the manager -/

namespace Verif.Server.RunnerCmd
open Verif.Util (split join)

/-! ## Time -/

theorem enough {start year : Int} {m t : Nat} {turn : Cmd.Runner.Turn} {ts : List Cmd.Runner.Turn} {j : Cmd.Runner.Job}
    (hm : t + 60 ≤ m * 60) (hj : j.time ≤ t) (h1 : turn.res = .job j) (h2 : turn.env = true) (htop : turn.top ≤ start + 60)
    (hafter : turn.after ≤ start + 60) :
    ∃ rest, Cmd.Runner.runner start m year (turn :: ts) = .reserve :: .execute j :: rest := by
  have he : Cmd.Runner.endTimeOf start m year = start + (m : Int) * 60 := by
    unfold Cmd.Runner.endTimeOf
    rw [if_pos (by omega)]
  unfold Cmd.Runner.runner Cmd.Runner.loop
  rw [he, if_neg (by omega), h1]
  simp only [h2]
  rw [if_neg (by omega), if_neg (by simp)]
  exact ⟨_, rfl⟩

/-- **C132**: with the local scheduler, OpenStack and Kubernetes a runner that gets a job of its group within a minute runs it: a group is
asked for with a time of `t` seconds, a whole number of minutes that is at least that of each of its jobs. -/
theorem C132_time {t : Nat} (ht : 60 ∣ t) (start year : Int) {turn : Cmd.Runner.Turn} (ts : List Cmd.Runner.Turn) {j : Cmd.Runner.Job}
    (hj : j.time ≤ t) (h1 : turn.res = .job j) (h2 : turn.env = true) (htop : turn.top ≤ start + 60) (hafter : turn.after ≤ start + 60) :
    ∃ rest, Cmd.Runner.runner start (localMins t) year (turn :: ts) = .reserve :: .execute j :: rest := by
  obtain ⟨k, rfl⟩ := ht
  refine enough (t := 60 * k) (m := localMins (60 * k)) ?_ hj h1 h2 htop hafter
  unfold localMins minutes maxQueueTime
  rw [if_pos rfl]
  omega

/-- and so for the time a request is rounded to -/
theorem C132_time_request {C O : Type} (req : Utils.Req C O) (h0 : 0 ≤ req.time) (hb : req.time < 2 ^ 63 - Utils.halfHour)
    (start year : Int) {turn : Cmd.Runner.Turn} (ts : List Cmd.Runner.Turn) {j : Cmd.Runner.Job} (hj : j.time * 1000000000 ≤ req.time)
    (h1 : turn.res = .job j) (h2 : turn.env = true) (htop : turn.top ≤ start + 60) (hafter : turn.after ≤ start + 60) :
    ∃ t : Nat, (Utils.reqForScheduler req).time = t * 1000000000 ∧
      ∃ rest, Cmd.Runner.runner start (localMins t) year (turn :: ts) = .reserve :: .execute j :: rest := by
  obtain ⟨-, -, ⟨k, hk⟩, hge, -⟩ := Utils.C40_enough req (by have : Utils.halfHour = 1800000000000 := rfl; omega) hb
  have hh : Utils.halfHour = 1800000000000 := rfl
  rw [hh] at hk
  refine ⟨(k * 1800).toNat, by omega, C132_time (by omega) start year ts (by omega) h1 h2 htop hafter⟩

/-- the time is not much more than that: the runner stops before it takes a second job that would end later -/
theorem C132_time_bound (t : Nat) : localMins t * 60 ≤ t + 60 := by
  unfold localMins minutes maxQueueTime
  rw [if_pos rfl]
  omega

/-- **C132**: with LSF too, if the queue is one wr chose, from all or from those of a list; or there is none. -/
theorem C132_time_lsf_partial (all : List Sched.Lsf.Queue) (pref : List Str) (r : Sched.Lsf.Req) (hq : ∀ q, r.queue = some q → ',' ∈ q)
    (ht : 60 ∣ r.secs) (start year : Int) {turn : Cmd.Runner.Turn} (ts : List Cmd.Runner.Turn) {j : Cmd.Runner.Job}
    (hj : j.time ≤ r.secs) (h1 : turn.res = .job j) (h2 : turn.env = true) (htop : turn.top ≤ start + 60)
    (hafter : turn.after ≤ start + 60) (hmins : ∀ n, 60 ∣ Sched.Lsf.lookup all n .runlimit) :
    ∃ rest, Cmd.Runner.runner start (lsfMins all pref r) year (turn :: ts) = .reserve :: .execute j :: rest := by
  refine enough (t := r.secs) (m := lsfMins all pref r) ?_ hj h1 h2 htop hafter
  have hpick : ∀ l q, Sched.Lsf.pick all r l = some q → Sched.Lsf.tooLittleTime all q (r.secs + 60) = false := by
    intro l q h
    induction l with
    | nil => cases h
    | cons x l ih =>
      unfold Sched.Lsf.pick at h
      split at h
      · exact ih h
      · split at h
        · exact ih h
        · split at h
          · exact ih h
          · rename_i hn
            cases h
            simpa using hn
  obtain ⟨k, hk⟩ := ht
  unfold lsfMins minutes maxQueueTime Sched.Lsf.maxQueueTime
  cases hd : Sched.Lsf.determineQueue all pref r with
  | none => simp only [if_true]; omega
  | some q =>
    have hl : Sched.Lsf.tooLittleTime all q (r.secs + 60) = false := by
      unfold Sched.Lsf.determineQueue at hd
      cases hqq : r.queue with
      | none => rw [hqq] at hd; exact hpick _ _ hd
      | some q' =>
        rw [hqq] at hd
        simp only [if_pos (hq q' hqq)] at hd
        exact hpick _ _ hd
    unfold Sched.Lsf.tooLittleTime at hl
    obtain ⟨b, hb⟩ := hmins q
    simp only
    generalize Sched.Lsf.lookup all q .runlimit = L at hl hb
    split
    · omega
    · simp only [Bool.and_eq_false_iff, decide_eq_false_iff_not] at hl
      omega

def exShort : Sched.Lsf.Queue := { name := "short".toList, attr := fun c => if c = .runlimit then some 600 else none, permitted := true }

/-- **C132** is not so: a queue the user named is not compared with the time the job needs. If it has a shorter limit every runner gives
the job back at once, and the job is never run. -/
theorem C132_violated_queue (start year : Int) (ts : List Cmd.Runner.Turn) (turn : Cmd.Runner.Turn) (pref : List Str)
    (h0 : start ≤ turn.top) (h1 : turn.res = .job ⟨1, 1800⟩) (h2 : turn.top ≤ turn.after) (h3 : turn.top ≤ start + 600) :
    Cmd.Runner.runner start (lsfMins [exShort] pref { ram := 100, secs := 1800, queue := some "short".toList, avoid := [] }) year (turn :: ts) =
      [.reserve, .release ⟨1, 1800⟩, .stop .time] := by
  have hm : ∀ pref, lsfMins [exShort] pref { ram := 100, secs := 1800, queue := some "short".toList, avoid := [] } = 10 := by
    intro pref
    have : Sched.Lsf.determineQueue [exShort] pref { ram := 100, secs := 1800, queue := some "short".toList, avoid := [] } = some "short".toList :=
      Sched.Lsf.C49_explicit _ _ _ _ rfl (by decide)
    unfold lsfMins Sched.Lsf.maxQueueTime
    rw [this]
    decide +kernel
  rw [hm]
  have he : Cmd.Runner.endTimeOf start ((10 : Nat) : Int) year = start + 600 := rfl
  unfold Cmd.Runner.runner Cmd.Runner.loop
  rw [he, if_neg (by omega), h1]
  simp only
  rw [if_pos ⟨by decide, by omega⟩]

/-- **C132** is not so: a user can have runners wait for more than a minute for a job (`rtimeout`); one that got it so late gives it
back. -/
theorem C132_violated_wait : ∃ (turn : Cmd.Runner.Turn) (atoi : Str → Option Int), turn.res = .job ⟨1, 1800⟩ ∧ turn.top = 0 ∧
    turn.after ≤ turn.top + reserveTimeout atoi (some "90".toList) ∧
    Cmd.Runner.runner 0 (localMins 1800) 0 [turn] = [.reserve, .release ⟨1, 1800⟩, .stop .time] :=
  ⟨{ top := 0, res := .job ⟨1, 1800⟩, after := 61 }, fun _ => some 90, rfl, rfl, by decide, by decide⟩

example : localMins 1800 = 31 ∧ Cmd.Runner.runner 0 (localMins 1800) 0 [{ top := 0, res := .job ⟨1, 1800⟩, after := 60 }] =
    [.reserve, .execute ⟨1, 1800⟩] := by decide

/-- **C132**: the time to wait for a job is what the user gave, if it is a number, or else a second. -/
theorem C132_reserve (atoi : Str → Option Int) (val : Option Str) :
    (∀ v n, val = some v → atoi v = some n → reserveTimeout atoi val = n) ∧
    ((∀ v n, val = some v → atoi v ≠ some n) → reserveTimeout atoi val = 1) := by
  cases val with
  | none => exact ⟨(by intro v n h; cases h), fun _ => rfl⟩
  | some v =>
    refine ⟨?_, ?_⟩
    · intro v' n h1 h2
      cases h1
      simp [reserveTimeout, h2]
    · intro h
      cases hv : atoi v with
      | none => simp [reserveTimeout, hv]
      | some n => exact absurd hv (h v n rfl)

/-! ## Runners after a restart -/

theorem sanitise_id {w : Str} (h : '\'' ∉ w) : sanitise w = w := by
  unfold sanitise
  rw [List.filter_eq_self]
  intro c hc
  simp only [decide_eq_true_eq]
  rintro rfl
  exact h hc

theorem sanitise_append (a b : Str) : sanitise (a ++ b) = sanitise a ++ sanitise b := by simp [sanitise]
theorem sanitise_space (a : Str) : sanitise (' ' :: a) = ' ' :: sanitise a := by simp [sanitise]
theorem sanitise_quote (a : Str) : sanitise ('\'' :: a) = sanitise a := by simp [sanitise]

theorem word_noquote {w : Str} (h : Word w) : '\'' ∉ w := fun hc => (h.2 _ hc).1 rfl

/-- the command line of the runner's process is the command without its quotes -/
theorem psLine_eq {i : Info} (h : i.Ok) {g : Str} (hg : '\'' ∉ g) {r m : Int} {cmd : Str} (hc : scheduleCmd i g r m = some cmd) :
    psLine cmd = some (sanitise cmd) := by
  have hw := cmd_words h hg hc
  unfold psLine
  rw [hw]
  rw [scheduleCmd_eq h] at hc
  simp only [Option.some.injEq] at hc
  subst hc
  obtain ⟨h1, h2, h3, h4, h5⟩ := h
  simp only [sanitise_append, sanitise_space, sanitise_quote, sanitise_id (word_noquote h1.1), sanitise_id (word_noquote h2), sanitise_id hg,
    sanitise_id h3, sanitise_id (word_noquote h4), sanitise_id (word_noquote (showInt_word r)), sanitise_id (word_noquote (showInt_word m)),
    sanitise_id (show '\'' ∉ "runner".toList by decide), sanitise_id (show '\'' ∉ "-s".toList by decide),
    sanitise_id (show '\'' ∉ "--deployment".toList by decide), sanitise_id (show '\'' ∉ "--server".toList by decide),
    sanitise_id (show '\'' ∉ "--domain".toList by decide), sanitise_id (show '\'' ∉ "-r".toList by decide),
    sanitise_id (show '\'' ∉ "-m".toList by decide)]
  have hl : ∀ s, join ' ' (s :: i.log.words) = s ++ sanitise i.log.text := by
    intro s
    cases hlog : i.log with
    | none => simp [Log.words, join, text_none, sanitise]
    | syslog =>
      rw [text_syslog, sanitise_id (by decide)]
      have : " --syslog".toList = ' ' :: "--syslog".toList := by decide +kernel
      rw [this]
      rfl
    | dir d =>
      rw [text_dir, sanitise_append, sanitise_id (word_noquote (h5 d hlog).1), sanitise_id (by decide)]
      have : " --logdir ".toList = ' ' :: ("--logdir".toList ++ [' ']) := by decide +kernel
      rw [this]
      simp [Log.words, join]
  simp only [Option.map_some, List.cons_append, List.nil_append]
  rw [← hl]
  rfl

/-- **C132**: the runner of a job without limit groups is found again. -/
theorem C132_recover_partial {i : Info} (h : i.Ok) {r : Groups.Printed} (hr : '\'' ∉ Groups.stringify r) (rt m : Int) :
    ∃ cmd rcmd, jobCmd i r [] rt m = some cmd ∧ recoverCmd i r [] rt m = some rcmd ∧ psLine cmd = some (sanitise rcmd) := by
  have hg : Groups.generate r [] = Groups.stringify r := by simp [Groups.generate]
  have he : jobCmd i r [] rt m = recoverCmd i r [] rt m := by unfold jobCmd recoverCmd; rw [hg]
  have hc := scheduleCmd_eq h (Groups.stringify r) rt m
  refine ⟨_, _, ?_, ?_, psLine_eq h hr hc⟩
  · rw [he]; exact hc
  · exact hc

/-- **C132** is not so: the runner of a job that has limit groups is never found. -/
theorem C132_violated_recover {i : Info} (h : i.Ok) {r : Groups.Printed} (hr : '\'' ∉ Groups.stringify r) {lgs : List Str} (hne : lgs ≠ [])
    (hl : ∀ l ∈ lgs, '\'' ∉ l) (rt m : Int) (s : Local) (pid ram cores : Nat) :
    ∃ cmd rcmd, jobCmd i r lgs rt m = some cmd ∧ recoverCmd i r lgs rt m = some rcmd ∧
      s.recover rcmd ram cores [{ pid := pid, line := psLine cmd }] = s := by
  have hg : '\'' ∉ Groups.generate r lgs := generate_noquote hr hl
  have hc := scheduleCmd_eq h (Groups.generate r lgs) rt m
  have hc' := scheduleCmd_eq h (Groups.stringify r) rt m
  refine ⟨_, _, hc, hc', ?_⟩
  rw [psLine_eq h hg hc]
  have hlen : (Groups.stringify r).length < (Groups.generate r lgs).length := by
    unfold Groups.generate
    rw [if_pos (by cases lgs with | nil => exact absurd rfl hne | cons a b => simp)]
    simp
  unfold Local.recover
  rw [if_neg]
  · rfl
  · intro e
    simp only [Option.some.injEq] at e
    have e := congrArg List.length e
    simp only [sanitise_append, sanitise_space, sanitise_quote, sanitise_id hg, sanitise_id hr, List.length_append, List.length_cons] at e
    omega

example : ∃ cmd rcmd, jobCmd exInfo exPrinted ["irods".toList] 1 31 = some cmd ∧
    recoverCmd exInfo exPrinted ["irods".toList] 1 31 = some rcmd ∧
    ({} : Local).recover rcmd 200 1 [{ pid := 7, line := psLine cmd }] = {} :=
  C132_violated_recover exInfo_ok (by decide +kernel) (by simp) (by decide +kernel) 1 31 {} 7 200 1

/-! ## What recovered runners hold -/

/-- Specification: things that happen to the scheduler about recovered runners -/
inductive Ev where
  | recover (cmd : Str) (ram cores : Nat) (procs : List Proc)
  | ended (pid : Nat)

def Local.step (s : Local) : Ev → Local
  | .recover cmd ram cores procs => s.recover cmd ram cores procs
  | .ended pid => s.ended pid

def Local.Inv (s : Local) : Prop :=
  s.ram = (s.watched.map (·.2.1)).sum ∧ s.cores = (s.watched.map (·.2.2)).sum ∧ (s.watched.map (·.1)).Nodup ∧
    ∀ w ∈ s.watched, w.1 ∈ s.seen

theorem recover_cases (s : Local) (cmd : Str) (ram cores : Nat) : ∀ procs : List Proc,
    (s.recover cmd ram cores procs = s ∧ ∀ p ∈ procs, p.line = some (sanitise cmd) → p.pid ∈ s.seen) ∨
    ∃ p ∈ procs, p.line = some (sanitise cmd) ∧ p.pid ∉ s.seen ∧ s.recover cmd ram cores procs =
      { seen := p.pid :: s.seen, watched := (p.pid, ram, cores) :: s.watched, ram := s.ram + ram, cores := s.cores + cores }
  | [] => Or.inl ⟨rfl, by simp⟩
  | p :: ps => by
    have ih := recover_cases s cmd ram cores ps
    unfold Local.recover
    split
    · rename_i hp
      split
      · rename_i hs
        rcases ih with ⟨h1, h2⟩ | ⟨q, hq, h⟩
        · exact Or.inl ⟨h1, by intro x hx hl; rcases List.mem_cons.mp hx with rfl | hx; exact hs; exact h2 x hx hl⟩
        · exact Or.inr ⟨q, List.mem_cons_of_mem _ hq, h⟩
      · rename_i hs
        exact Or.inr ⟨p, by simp, hp, hs, rfl⟩
    · rename_i hp
      rcases ih with ⟨h1, h2⟩ | ⟨q, hq, h⟩
      · exact Or.inl ⟨h1, by intro x hx hl; rcases List.mem_cons.mp hx with rfl | hx; exact absurd hl hp; exact h2 x hx hl⟩
      · exact Or.inr ⟨q, List.mem_cons_of_mem _ hq, h⟩

theorem sum_filter_find (f : Nat × Nat × Nat → Nat) : ∀ (l : List (Nat × Nat × Nat)) (pid : Nat) (w : Nat × Nat × Nat),
    (l.map (·.1)).Nodup → l.find? (fun w => w.1 = pid) = some w →
    (l.map f).sum = f w + ((l.filter (fun x => x.1 ≠ pid)).map f).sum
  | [], pid, w, _, h => by simp at h
  | x :: l, pid, w, hn, h => by
    simp only [List.map_cons, List.nodup_cons] at hn
    rw [List.find?_cons] at h
    split at h
    · rename_i hx
      cases h
      simp only [decide_eq_true_eq] at hx
      have : l.filter (fun y => y.1 ≠ pid) = l := by
        rw [List.filter_eq_self]
        intro y hy
        simp only [ne_eq, decide_eq_true_eq]
        intro e
        exact hn.1 (List.mem_map.mpr ⟨y, hy, by rw [e, hx]⟩)
      rw [List.filter_cons_of_neg (by simp [hx]), this]
      simp
    · rename_i hx
      simp only [decide_eq_false_iff_not] at hx
      have ih := sum_filter_find f l pid w hn.2 h
      rw [List.filter_cons_of_pos (by simpa using hx)]
      simp only [List.map_cons, List.sum_cons]
      omega

theorem inv_step {s : Local} (h : s.Inv) (e : Ev) : (s.step e).Inv := by
  obtain ⟨h1, h2, h3, h4⟩ := h
  cases e with
  | recover cmd ram cores procs =>
    simp only [Local.step]
    rcases recover_cases s cmd ram cores procs with ⟨he, _⟩ | ⟨p, hp, _, hs, he⟩
    · rw [he]; exact ⟨h1, h2, h3, h4⟩
    · rw [he]
      refine ⟨by simp [h1]; omega, by simp [h2]; omega, ?_, ?_⟩
      · simp only [List.map_cons, List.nodup_cons]
        refine ⟨?_, h3⟩
        intro hc
        obtain ⟨w, hw, hwe⟩ := List.mem_map.mp hc
        have := h4 w hw
        rw [hwe] at this
        exact hs this
      · intro w hw
        rcases List.mem_cons.mp hw with rfl | hw
        · simp
        · exact List.mem_cons_of_mem _ (h4 w hw)
  | ended pid =>
    simp only [Local.step, Local.ended]
    split
    · exact ⟨h1, h2, h3, h4⟩
    · rename_i w hw
      have s1 := sum_filter_find (·.2.1) s.watched pid w h3 hw
      have s2 := sum_filter_find (·.2.2) s.watched pid w h3 hw
      refine ⟨?_, ?_, ?_, ?_⟩
      · show s.ram - w.2.1 = ((s.watched.filter (fun x => x.1 ≠ pid)).map (·.2.1)).sum
        omega
      · show s.cores - w.2.2 = ((s.watched.filter (fun x => x.1 ≠ pid)).map (·.2.2)).sum
        omega
      · exact List.Nodup.sublist (List.Sublist.map _ List.filter_sublist) h3
      · intro x hx
        exact h4 x (List.mem_filter.mp hx).1

/-- **C132**: whatever the order in which runners are recovered and end, the memory and cores counted as in use for recovered runners are
those of the ones that have not ended, each counted once. -/
theorem C132_recovered_sum (es : List Ev) :
    (es.foldl Local.step {}).ram = ((es.foldl Local.step {}).watched.map (·.2.1)).sum ∧
    (es.foldl Local.step {}).cores = ((es.foldl Local.step {}).watched.map (·.2.2)).sum ∧
    ((es.foldl Local.step {}).watched.map (·.1)).Nodup := by
  have key : ∀ (es : List Ev) (s : Local), s.Inv → (es.foldl Local.step s).Inv := by
    intro es
    induction es with
    | nil => exact fun _ h => h
    | cons e es ih => exact fun s h => ih _ (inv_step h e)
  have := key es {} ⟨rfl, rfl, by simp, by simp⟩
  exact ⟨this.1, this.2.1, this.2.2.1⟩

/-- **C132**: and nothing is in use any more when all have ended. -/
theorem C132_recovered_free (es : List Ev) (h : (es.foldl Local.step {}).watched = []) :
    (es.foldl Local.step {}).ram = 0 ∧ (es.foldl Local.step {}).cores = 0 := by
  have := C132_recovered_sum es
  rw [h] at this
  exact ⟨this.1, this.2.1⟩

/-- what remains of a runner that ended: it is not watched -/
theorem C132_ended (s : Local) (pid : Nat) : ∀ w ∈ (s.ended pid).watched, w.1 ≠ pid ∧ w ∈ s.watched := by
  intro w hw
  unfold Local.ended at hw
  split at hw
  · rename_i hf
    refine ⟨?_, hw⟩
    have := List.find?_eq_none.mp hf w hw
    simpa using this
  · have := List.mem_filter.mp hw
    exact ⟨by simpa using this.2, this.1⟩

/-- the runners there are with a command line, that have not been seen -/
def unseen (s : Local) (cmd : Str) (procs : List Proc) : List Proc :=
  procs.filter fun p => decide (p.line = some (sanitise cmd)) && decide (p.pid ∉ s.seen)

/-- **C132**: each of a number of jobs that had the same command is counted for a runner of its own, as long as there are any. -/
theorem C132_recovered_count (cmd : Str) (ram cores : Nat) (procs : List Proc) (hn : (procs.map (·.pid)).Nodup) : ∀ (n : Nat) (s : Local),
    (Nat.repeat (fun s => Local.recover s cmd ram cores procs) n s).watched.length = s.watched.length + min n (unseen s cmd procs).length ∧
    (Nat.repeat (fun s => Local.recover s cmd ram cores procs) n s).ram = s.ram + min n (unseen s cmd procs).length * ram ∧
    (Nat.repeat (fun s => Local.recover s cmd ram cores procs) n s).cores = s.cores + min n (unseen s cmd procs).length * cores ∧
    (unseen (Nat.repeat (fun s => Local.recover s cmd ram cores procs) n s) cmd procs).length = (unseen s cmd procs).length - n
  | 0, s => by simp [Nat.repeat]
  | n + 1, s => by
    obtain ⟨i1, i2, i3, i4⟩ := C132_recovered_count cmd ram cores procs hn n s
    simp only [Nat.repeat]
    generalize Nat.repeat (fun s => Local.recover s cmd ram cores procs) n s = u at i1 i2 i3 i4
    rcases recover_cases u cmd ram cores procs with ⟨he, hall⟩ | ⟨p, hp, hl, hs, he⟩
    · have h0 : unseen u cmd procs = [] := by
        unfold unseen
        rw [List.filter_eq_nil_iff]
        intro p hp
        simp only [Bool.and_eq_true, decide_eq_true_eq, not_and, Decidable.not_not]
        exact hall p hp
      rw [he]
      rw [h0] at i4 ⊢
      simp only [List.length_nil] at i4 ⊢
      have hmin : min (n + 1) (unseen s cmd procs).length = min n (unseen s cmd procs).length := by omega
      rw [hmin]
      exact ⟨i1, i2, i3, by omega⟩
    · have hlen : (unseen u cmd procs).length = (unseen (u.recover cmd ram cores procs) cmd procs).length + 1 := by
        rw [he]
        unfold unseen
        clear i1 i2 i3 i4 he
        induction procs with
        | nil => cases hp
        | cons q qs ih =>
          simp only [List.map_cons, List.nodup_cons] at hn
          rcases List.mem_cons.mp hp with rfl | hp'
          · have hrest : qs.filter (fun x => decide (x.line = some (sanitise cmd)) && decide (x.pid ∉ p.pid :: u.seen)) =
                qs.filter (fun x => decide (x.line = some (sanitise cmd)) && decide (x.pid ∉ u.seen)) := by
              apply List.filter_congr
              intro x hx
              have : x.pid ≠ p.pid := fun e => hn.1 (List.mem_map.mpr ⟨x, hx, e⟩)
              simp [this]
            rw [List.filter_cons_of_pos (by simp [hl, hs]), List.filter_cons_of_neg (by simp), hrest]
            rfl
          · have hne : q.pid ≠ p.pid := fun e => hn.1 (List.mem_map.mpr ⟨p, hp', e.symm⟩)
            have ih := ih hn.2 hp'
            simp only at ih ⊢
            rw [List.filter_cons, List.filter_cons]
            have hcond : (decide (q.line = some (sanitise cmd)) && decide (q.pid ∉ p.pid :: u.seen)) =
                (decide (q.line = some (sanitise cmd)) && decide (q.pid ∉ u.seen)) := by simp [hne]
            rw [hcond]
            split
            · simp only [List.length_cons]; omega
            · exact ih
      have hlt : n < (unseen s cmd procs).length := by omega
      have hmin : min (n + 1) (unseen s cmd procs).length = min n (unseen s cmd procs).length + 1 := by omega
      rw [hmin]
      refine ⟨?_, ?_, ?_, by omega⟩
      · rw [he]; simp only [List.length_cons]; omega
      · rw [he]; simp only [Nat.succ_mul]; omega
      · rw [he]; simp only [Nat.succ_mul]; omega

example : (unseen {} "wr runner -s 'a'".toList [⟨1, some "wr runner -s a".toList⟩, ⟨2, none⟩, ⟨3, some "wr runner -s a".toList⟩]).length = 2 := by
  decide +kernel

end Verif.Server.RunnerCmd
