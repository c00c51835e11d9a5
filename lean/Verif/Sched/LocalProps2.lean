import Verif.Sched.LocalProps
/-!
# C44: the local scheduler runs a command exactly as often as asked
-/
namespace Verif.Sched.Local

/-- specification: what a user who asks for runs of `cmd` and sees them begin and end expects. The pair is the number of
runs in progress and the number of runs still wanted, those in progress included. A run may begin only if more are wanted
than are in progress (otherwise `none`); one that ends is no longer wanted, unless more were in progress than wanted; one
that breaks on starting does not count. -/
def ledger (cmd : String) : Int × Int → List Obs → Option (Int × Int)
  | p, [] => some p
  | (r, w), .asked c n :: l => ledger cmd (if c = cmd then (r, n) else (r, w)) l
  | (r, w), .began c :: l => if c = cmd then (if r < w then ledger cmd (r + 1, w) l else none) else ledger cmd (r, w) l
  | (r, w), .ended c :: l => ledger cmd (if c = cmd then (r - 1, if r ≤ w then w - 1 else w) else (r, w)) l
  | (r, w), .broke c :: l => ledger cmd (if c = cmd then (r - 1, w) else (r, w)) l

/-- specification: the number of runs in progress -/
def runs (s : S) (cmd : String) : Int := (s.threads.filter fun t => t.cmd = cmd ∧ t.phase ≠ .gone).length

/-- local.go:338-367 `scheduled` -/
def scheduled (s : S) (cmd : String) : Int := match s.queue cmd with
  | none => 0
  | some j => match s.jobs[j]? with
    | none => 0
    | some job => job.count

/-- What is excluded: negative counts; a command is scheduled again while runs of it are in progress that were cancelled
by a count of zero; a run is counted, or the command looked at by `processQueue`, during a call of `schedule` for it; a
run fails to start while more are in progress than wanted. -/
def Calm (cmd : String) (s : S) : Ev → Prop
  | .schedule c _ n => c = cmd → 0 ≤ n ∧ (s.queue cmd = none → runs s cmd = 0)
  | .pick _ c => c = cmd → ∀ j n, s.pending ≠ some (cmd, j, n)
  | .done t => ∀ th, s.threads[t]? = some th → th.cmd = cmd → (∀ j n, s.pending ≠ some (cmd, j, n)) ∧
      (th.phase = .failed → s.queue cmd ≠ none → runs s cmd ≤ scheduled s cmd)
  | _ => True

def AlongCalm (cmd : String) : S → List Ev → Prop
  | _, [] => True
  | s, e :: h => Calm cmd s e ∧ ∀ s' o, step s e = some (s', o) → AlongCalm cmd s' h

private def one (cmd : String) (t : Thread) : Int := if t.cmd = cmd ∧ t.phase ≠ .gone then 1 else 0

private theorem runs_sum (s : S) (cmd : String) : runs s cmd = (s.threads.map (one cmd)).sum := by
  unfold runs
  induction s.threads with
  | nil => rfl
  | cons a ts ih =>
    rw [List.filter_cons, List.map_cons, List.sum_cons, ← ih]
    by_cases h : a.cmd = cmd ∧ a.phase ≠ .gone
    · simp [h, one]; omega
    · simp [h, one]

private theorem sum_pos (cmd : String) : ∀ (ts : List Thread) (i : Nat) (t : Thread), ts[i]? = some t → t.cmd = cmd → t.phase ≠ .gone →
    1 ≤ (ts.map (one cmd)).sum
  | [], _, _, h, _, _ => by simp at h
  | a :: ts, 0, t, h, h1, h2 => by
    simp at h; subst h
    have hn : 0 ≤ (ts.map (one cmd)).sum := by
      clear h2 h1
      induction ts with
      | nil => simp
      | cons b ts ih => simp only [List.map_cons, List.sum_cons]; unfold one at *; split <;> omega
    simp only [List.map_cons, List.sum_cons]; rw [show one cmd a = 1 by simp [one, h1, h2]]; omega
  | a :: ts, i + 1, t, h, h1, h2 => by
    simp only [List.getElem?_cons_succ] at h
    have := sum_pos cmd ts i t h h1 h2
    simp only [List.map_cons, List.sum_cons]; unfold one at *; split <;> omega

private theorem ledger_append (cmd : String) (l1 l2 : List Obs) : ∀ p, ledger cmd p (l1 ++ l2) = (ledger cmd p l1).bind fun q => ledger cmd q l2 := by
  induction l1 with
  | nil => intro p; rfl
  | cons a l ih =>
    intro ⟨r, w⟩
    cases a <;> simp only [List.cons_append, ledger, ih]
    split
    · split <;> rfl
    · rfl

private theorem ledger_began (cmd : String) (n : Nat) : ∀ r w : Int, r + n ≤ w → ledger cmd (r, w) (List.replicate n (.began cmd)) = some (r + n, w) := by
  induction n with
  | zero => intro r w _; simp [ledger]
  | succ n ih =>
    intro r w h
    rw [List.replicate_succ, ledger, if_pos rfl, if_pos (by omega), ih _ _ (by omega)]
    simp; omega

private theorem ledger_began_other (cmd c : String) (hc : c ≠ cmd) (n : Nat) (p : Int × Int) : ledger cmd p (List.replicate n (.began c)) = some p := by
  induction n with
  | zero => rfl
  | succ n ih => obtain ⟨r, w⟩ := p; rw [List.replicate_succ, ledger, if_neg hc, ih]

/-- job objects belong to one command -/
private structure G (s : S) : Prop where
  q : ∀ c j, s.queue c = some j → ∃ job, s.jobs[j]? = some job ∧ job.cmd = c
  t : ∀ th ∈ s.threads, ∃ job, s.jobs[th.job]? = some job ∧ job.cmd = th.cmd
  p : ∀ c j n, s.pending = some (c, j, n) → ∃ job, s.jobs[j]? = some job ∧ job.cmd = c

/-- the books of the scheduler agree with the ledger -/
private structure K (cmd : String) (s : S) (r w : Int) : Prop where
  run : s.running cmd = r
  alive : (s.threads.map (one cmd)).sum = r
  present : ∀ j, s.queue cmd = some j → 0 ≤ w ∧ (∃ job, s.jobs[j]? = some job ∧ job.count = w ∧ job.dec = decrements w r) ∧
    ∀ t ∈ s.threads, t.cmd = cmd → t.phase ≠ .gone → t.job = j
  absent : s.queue cmd = none → w = 0
  pend : ∀ j n, s.pending = some (cmd, j, n) → s.queue cmd = some j ∧ 0 ≤ n

private theorem getElem?_set_job {jobs : List Job} {i : Nat} {job job' : Job} (h : jobs[i]? = some job) (hc : job'.cmd = job.cmd) (j : Nat) (c : String)
    (hj : ∃ x, jobs[j]? = some x ∧ x.cmd = c) : ∃ x, (jobs.set i job')[j]? = some x ∧ x.cmd = c := by
  obtain ⟨x, h1, h2⟩ := hj
  by_cases e : i = j
  · subst e
    rw [h] at h1; injection h1 with h1; subst h1
    exact ⟨job', List.getElem?_set_self (by rw [List.getElem?_eq_some_iff] at h; exact h.1), by rw [hc, h2]⟩
  · exact ⟨x, by rw [List.getElem?_set_ne e]; exact h1, h2⟩

private theorem G.jobs {s s' : S} (g : G s) {i : Nat} {job job' : Job} (h : s.jobs[i]? = some job) (hc : job'.cmd = job.cmd)
    (ej : s'.jobs = s.jobs.set i job') (eq : ∀ c j, s'.queue c = some j → s.queue c = some j)
    (et : ∀ t ∈ s'.threads, ∃ t0 ∈ s.threads, t0.job = t.job ∧ t0.cmd = t.cmd) (ep : ∀ x, s'.pending = some x → s.pending = some x) : G s' := by
  refine ⟨?_, ?_, ?_⟩
  · intro c j hq; rw [ej]; exact getElem?_set_job h hc _ _ (g.q c j (eq c j hq))
  · intro th ht; rw [ej]
    obtain ⟨t0, h0, e1, e2⟩ := et th ht
    rw [← e1, ← e2]; exact getElem?_set_job h hc _ _ (g.t t0 h0)
  · intro c j n hp; rw [ej]; exact getElem?_set_job h hc _ _ (g.p c j n (ep _ hp))

private theorem G.same {s s' : S} (g : G s) (ej : s'.jobs = s.jobs) (eq : ∀ c j, s'.queue c = some j → s.queue c = some j)
    (et : ∀ t ∈ s'.threads, ∃ t0 ∈ s.threads, t0.job = t.job ∧ t0.cmd = t.cmd) (ep : ∀ x, s'.pending = some x → s.pending = some x) : G s' := by
  refine ⟨?_, ?_, ?_⟩
  · intro c j hq; rw [ej]; exact g.q c j (eq c j hq)
  · intro th ht; rw [ej]
    obtain ⟨t0, h0, e1, e2⟩ := et th ht
    rw [← e1, ← e2]; exact g.t t0 h0
  · intro c j n hp; rw [ej]; exact g.p c j n (ep _ hp)

private theorem queue_put_none {q : String → Option Nat} {k c : String} {j : Nat} (h : put q k none c = some j) : q c = some j := by
  unfold put at h; split at h
  · cases h
  · exact h

private theorem set_threads {ts : List Thread} {i : Nat} {t : Thread} (h : ts[i]? = some t) (ph : Phase) :
    ∀ x ∈ ts.set i { t with phase := ph }, ∃ t0 ∈ ts, t0.job = x.job ∧ t0.cmd = x.cmd := by
  intro x hx
  rcases List.mem_or_eq_of_mem_set hx with hx | rfl
  · exact ⟨x, hx, rfl, rfl⟩
  · exact ⟨t, List.mem_of_getElem? h, rfl, rfl⟩

private theorem self_threads {ts : List Thread} : ∀ x ∈ ts, ∃ t0 ∈ ts, t0.job = x.job ∧ t0.cmd = x.cmd :=
  fun x hx => ⟨x, hx, rfl, rfl⟩

/-- nothing that matters for the books changes -/
private theorem K.same {cmd : String} {s s' : S} {r w : Int} (h : K cmd s r w) (e1 : s'.running = s.running) (e2 : s'.threads = s.threads)
    (e3 : s'.queue = s.queue) (e4 : s'.jobs = s.jobs) (e5 : s'.pending = s.pending) : K cmd s' r w := by
  refine ⟨by rw [e1]; exact h.run, by rw [e2]; exact h.alive, ?_, by rw [e3]; exact h.absent, by rw [e5, e3]; exact h.pend⟩
  rw [e2, e3, e4]; exact h.present

/-- a run goes on but does not end -/
private theorem K.phase {cmd : String} {s s' : S} {r w : Int} {i : Nat} {t : Thread} {ph : Phase} (h : K cmd s r w) (ht : s.threads[i]? = some t)
    (h1 : t.phase ≠ .gone) (h2 : ph ≠ .gone) (e2 : s'.threads = s.threads.set i { t with phase := ph })
    (e1 : s'.running = s.running) (e3 : s'.queue = s.queue) (e4 : s'.jobs = s.jobs) (e5 : s'.pending = s.pending) : K cmd s' r w := by
  refine ⟨by rw [e1]; exact h.run, ?_, ?_, by rw [e3]; exact h.absent, by rw [e5, e3]; exact h.pend⟩
  · rw [e2, sum_set _ _ _ _ _ ht, h.alive]
    have : one cmd { t with phase := ph } = one cmd t := by simp [one, h1, h2]
    rw [this]; omega
  · rw [e3, e4]
    intro j hj
    obtain ⟨a, b, c⟩ := h.present j hj
    refine ⟨a, b, ?_⟩
    intro x hx hc hp
    rw [e2] at hx
    rcases List.mem_or_eq_of_mem_set hx with hx | rfl
    · exact c x hx hc hp
    · exact c t (List.mem_of_getElem? ht) hc h1

private theorem G.step {s s' : S} {e : Ev} {o : List Obs} (g : G s) (hst : step s e = some (s', o)) : G s' := by
  cases e with
  | schedule c rq n =>
    simp only [Local.step] at hst
    split at hst
    · simp at hst; obtain ⟨rfl, -⟩ := hst; exact g
    · split at hst
      · cases hst
      · split at hst
        · simp at hst; obtain ⟨rfl, -⟩ := hst
          have hold : ∀ (i : Nat) (c' : String), (∃ job, s.jobs[i]? = some job ∧ job.cmd = c') →
              ∃ job, (s.jobs ++ [{ cmd := c, req := rq, count := n }])[i]? = some job ∧ job.cmd = c' := by
            rintro i c' ⟨job, h1, h2⟩
            exact ⟨job, by rw [List.getElem?_append_left (List.getElem?_eq_some_iff.1 h1).1]; exact h1, h2⟩
          refine ⟨?_, fun th ht => hold _ _ (g.t th ht), fun c' j n hp => hold _ _ (g.p c' j n hp)⟩
          intro c' j hq
          by_cases e : c' = c
          · subst e; simp [put] at hq; subst hq
            exact ⟨_, by simp; rfl, rfl⟩
          · simp [put, e] at hq; exact hold _ _ (g.q c' j hq)
        · rename_i j hq
          simp at hst; obtain ⟨rfl, -⟩ := hst
          refine ⟨g.q, g.t, ?_⟩
          intro c' j' n' hp
          simp at hp; obtain ⟨rfl, rfl, -⟩ := hp
          exact g.q _ _ hq
  | update =>
    simp only [Local.step] at hst
    split at hst
    · cases hst
    · split at hst
      · cases hst
      · rename_i c j n hp _ job hj
        simp only [Option.some.injEq, Prod.mk.injEq] at hst; obtain ⟨rfl, -⟩ := hst
        split
        · exact g.jobs hj (job' := { job with count := n, dec := decrements n (s.running c) }) rfl rfl
            (fun c j h => queue_put_none h) self_threads (by simp [removeKey])
        · exact g.jobs hj (job' := { job with count := n, dec := decrements n (s.running c) }) rfl rfl (fun c j h => h) self_threads (by simp)
  | begin =>
    simp only [Local.step] at hst
    split at hst
    · cases hst
    · split at hst
      · simp at hst; obtain ⟨rfl, -⟩ := hst
        exact g.same rfl (fun _ _ h => h) self_threads (fun _ h => h)
      · simp at hst; obtain ⟨rfl, -⟩ := hst
        exact g.same rfl (fun _ _ h => h) self_threads (fun _ h => h)
  | pick p c =>
    simp only [Local.step] at hst
    split at hst
    · rename_i waits j hp hq
      split at hst
      · cases hst
      · split at hst
        · cases hst
        · rename_i job hjob
          split at hst
          · simp only [Option.some.injEq, Prod.mk.injEq] at hst; obtain ⟨rfl, -⟩ := hst
            exact g.same rfl (fun _ _ h => queue_put_none h) self_threads (fun _ h => h)
          · split at hst
            · simp at hst; obtain ⟨rfl, -⟩ := hst; exact g
            · split at hst
              · simp at hst; obtain ⟨rfl, -⟩ := hst; exact g
              · simp only [Option.some.injEq, Prod.mk.injEq] at hst; obtain ⟨rfl, -⟩ := hst
                refine ⟨g.q, ?_, g.p⟩
                intro th ht
                rcases List.mem_append.1 ht with ht | ht
                · exact g.t th ht
                · obtain ⟨-, rfl⟩ := List.mem_replicate.1 ht
                  exact g.q c j hq
    · cases hst
  | finish p =>
    simp only [Local.step] at hst
    split at hst
    · cases hst
    · split at hst
      · cases hst
      · simp at hst; obtain ⟨rfl, -⟩ := hst
        exact g.same rfl (fun _ _ h => h) self_threads (fun _ h => h)
  | reserve t =>
    simp only [Local.step] at hst
    split at hst
    · rename_i th hth
      split at hst
      · simp only [Option.some.injEq, Prod.mk.injEq] at hst; obtain ⟨rfl, -⟩ := hst
        unfold setPhase take
        split <;> exact g.same rfl (fun _ _ h => h) (set_threads hth _) (fun _ h => h)
      · cases hst
    · cases hst
  | fail t =>
    simp only [Local.step] at hst
    split at hst
    · rename_i th hth
      split at hst
      · simp only [Option.some.injEq, Prod.mk.injEq] at hst; obtain ⟨rfl, -⟩ := hst
        exact g.same rfl (fun _ _ h => h) (set_threads hth _) (fun _ h => h)
      · cases hst
    · cases hst
  | free t =>
    simp only [Local.step] at hst
    split at hst
    · rename_i th hth
      split at hst
      · simp only [Option.some.injEq, Prod.mk.injEq] at hst; obtain ⟨rfl, -⟩ := hst
        unfold setPhase giveBack
        split <;> exact g.same rfl (fun _ _ h => h) (set_threads hth _) (fun _ h => h)
      · cases hst
    · cases hst
  | done t =>
    simp only [Local.step] at hst
    split at hst
    · rename_i th hth
      split at hst
      · split at hst
        · cases hst
        · rename_i job hjob
          split at hst
          · simp only [Option.some.injEq, Prod.mk.injEq] at hst; obtain ⟨rfl, -⟩ := hst
            have hc : (countRun job).cmd = job.cmd := by unfold countRun; split <;> rfl
            split
            · exact g.jobs hjob hc rfl (fun _ _ h => queue_put_none h) (set_threads hth _) (fun _ h => h)
            · exact g.jobs hjob hc rfl (fun _ _ h => h) (set_threads hth _) (fun _ h => h)
          · simp only [Option.some.injEq, Prod.mk.injEq] at hst; obtain ⟨rfl, -⟩ := hst
            exact g.same rfl (fun _ _ h => h) (set_threads hth _) (fun _ h => h)
      · cases hst
    · cases hst
  | recover rq =>
    simp only [Local.step, Option.some.injEq, Prod.mk.injEq] at hst; obtain ⟨rfl, -⟩ := hst
    unfold take
    split <;> exact g.same rfl (fun _ _ h => h) self_threads (fun _ h => h)
  | exited i =>
    simp only [Local.step] at hst
    split at hst
    · simp only [Option.some.injEq, Prod.mk.injEq] at hst; obtain ⟨rfl, -⟩ := hst
      unfold giveBack
      split <;> exact g.same rfl (fun _ _ h => h) self_threads (fun _ h => h)
    · cases hst
  | timeout p =>
    simp only [Local.step] at hst
    split at hst
    · simp at hst; obtain ⟨rfl, -⟩ := hst
      exact g.same rfl (fun _ _ h => h) self_threads (fun _ h => h)
    · cases hst

/-- job `j` of another command changes -/
private theorem K.other {cmd : String} {s s' : S} {r w : Int} (g : G s) (h : K cmd s r w) {c : String} (hc : c ≠ cmd) {i : Nat} {job job' : Job}
    (hj : s.jobs[i]? = some job) (hjc : job.cmd = c) (e1 : s'.running cmd = s.running cmd)
    (e2 : (s'.threads.map (one cmd)).sum = (s.threads.map (one cmd)).sum)
    (e2' : ∀ t ∈ s'.threads, t.cmd = cmd → t.phase ≠ .gone → t ∈ s.threads)
    (e3 : s'.queue cmd = s.queue cmd) (e4 : s'.jobs = s.jobs.set i job')
    (e5 : ∀ j n, s'.pending = some (cmd, j, n) → s.pending = some (cmd, j, n)) : K cmd s' r w := by
  refine ⟨by rw [e1]; exact h.run, by rw [e2]; exact h.alive, ?_, by rw [e3]; exact h.absent, fun j n hp => by rw [e3]; exact h.pend j n (e5 j n hp)⟩
  rw [e3, e4]
  intro j hq
  obtain ⟨a, ⟨x, b1, b2⟩, d⟩ := h.present j hq
  refine ⟨a, ⟨x, ?_, b2⟩, fun t ht h1 h2 => d t (e2' t ht h1 h2) h1 h2⟩
  rw [List.getElem?_set_ne]
  · exact b1
  · intro e; subst e
    obtain ⟨y, y1, y2⟩ := g.q cmd i hq
    rw [hj] at y1; injection y1 with y1; subst y1
    exact hc (hjc.symm.trans y2)

private theorem dec_pos {w r : Int} (h : 0 < decrements w r) : w < r ∧ decrements w r = r - w := by
  unfold decrements at *; split at h
  · rename_i hh; exact ⟨hh, by rw [if_pos hh]⟩
  · omega

private theorem K.step {cmd : String} {s s' : S} {r w : Int} {e : Ev} {o : List Obs} (g : G s) (h : K cmd s r w) (hc : Calm cmd s e)
    (hst : step s e = some (s', o)) : ∃ r' w', ledger cmd (r, w) o = some (r', w') ∧ K cmd s' r' w' := by
  have hruns : runs s cmd = r := by rw [runs_sum, h.alive]
  cases e with
  | schedule c rq n =>
    simp only [Local.step] at hst
    split at hst
    · simp at hst; obtain ⟨rfl, rfl⟩ := hst; exact ⟨r, w, rfl, h⟩
    · split at hst
      · cases hst
      · split at hst
        · rename_i hq
          simp at hst; obtain ⟨rfl, rfl⟩ := hst
          by_cases e : c = cmd
          · subst e
            obtain ⟨hn, hz⟩ := hc rfl
            have hr := hz hq
            rw [hruns] at hr
            refine ⟨r, n, by simp [ledger], h.run, h.alive, ?_, by simp [put], ?_⟩
            · intro j hj
              simp [put] at hj; subst hj
              refine ⟨hn, ⟨_, by simp; rfl, rfl, by simp [decrements]; omega⟩, ?_⟩
              intro t ht h1 h2
              obtain ⟨i, hi⟩ := List.mem_iff_getElem?.1 ht
              have := sum_pos c _ i t hi h1 h2
              rw [h.alive] at this; omega
            · intro j n' hp
              have := (h.pend j n' hp).1
              rw [hq] at this; cases this
          · refine ⟨r, w, by simp [ledger, e], h.run, h.alive, ?_, by simpa [put, Ne.symm e] using h.absent, ?_⟩
            · intro j hj
              simp [put, Ne.symm e] at hj
              obtain ⟨a, ⟨x, b1, b2⟩, d⟩ := h.present j hj
              exact ⟨a, ⟨x, by rw [List.getElem?_append_left (List.getElem?_eq_some_iff.1 b1).1]; exact b1, b2⟩, d⟩
            · intro j n' hp
              simp [put, Ne.symm e]; exact h.pend j n' hp
        · rename_i j hq
          simp at hst; obtain ⟨rfl, rfl⟩ := hst
          refine ⟨r, w, rfl, h.run, h.alive, h.present, h.absent, ?_⟩
          intro j' n' hp
          simp at hp; obtain ⟨rfl, rfl, rfl⟩ := hp
          exact ⟨hq, (hc rfl).1⟩
  | update =>
    simp only [Local.step] at hst
    split at hst
    · cases hst
    · split at hst
      · cases hst
      · rename_i c j n hp _ job hj
        simp only [Option.some.injEq, Prod.mk.injEq] at hst; obtain ⟨rfl, rfl⟩ := hst
        by_cases e : c = cmd
        · subst e
          obtain ⟨hq, hn⟩ := h.pend j n hp
          refine ⟨r, n, by simp [ledger], ?_⟩
          by_cases hz : n = 0
          · rw [if_pos hz]
            exact ⟨h.run, h.alive, by simp [removeKey, put], fun _ => hz, by simp [removeKey]⟩
          · rw [if_neg hz]
            refine ⟨h.run, h.alive, ?_, by simp [hq], by simp⟩
            intro j' hq'
            simp only [hq, Option.some.injEq] at hq'; subst hq'
            refine ⟨hn, ⟨_, List.getElem?_set_self (List.getElem?_eq_some_iff.1 hj).1, rfl, by rw [h.run]⟩, (h.present j hq).2.2⟩
        · obtain ⟨job', h1, h2⟩ := g.p c j n hp
          rw [hj] at h1; injection h1 with h1; subst h1
          refine ⟨r, w, by simp [ledger, e], ?_⟩
          split
          · exact K.other g h e (job' := { job with count := n, dec := decrements n (s.running c) }) hj h2 rfl rfl (fun t ht _ _ => ht)
              (by simp [removeKey, put, Ne.symm e]) rfl (by simp [removeKey])
          · exact K.other g h e (job' := { job with count := n, dec := decrements n (s.running c) }) hj h2 rfl rfl (fun t ht _ _ => ht) rfl rfl (by simp)
  | begin =>
    simp only [Local.step] at hst
    split at hst
    · cases hst
    · split at hst <;> (simp at hst; obtain ⟨rfl, rfl⟩ := hst; exact ⟨r, w, rfl, h.same rfl rfl rfl rfl rfl⟩)
  | pick p c =>
    simp only [Local.step] at hst
    split at hst
    · rename_i waits j hp hq
      split at hst
      · cases hst
      · split at hst
        · cases hst
        · rename_i job hjob
          split at hst
          · rename_i hz
            simp only [Option.some.injEq, Prod.mk.injEq] at hst; obtain ⟨rfl, rfl⟩ := hst
            refine ⟨r, w, rfl, h.run, h.alive, ?_, ?_, ?_⟩
            · intro j' hj'; exact h.present j' (queue_put_none hj')
            · intro hn
              by_cases e : cmd = c
              · subst e
                obtain ⟨_, ⟨x, b1, b2, _⟩, _⟩ := h.present j hq
                rw [hjob] at b1; injection b1 with b1; subst b1
                rw [← b2]; exact hz.1
              · simp [removeKey, put, e] at hn; exact h.absent hn
            · intro j' n' hp'
              by_cases e : c = cmd
              · exact absurd hp' (hc e j' n')
              · simp [removeKey, put, Ne.symm e]; exact h.pend j' n' hp'
          · split at hst
            · simp at hst; obtain ⟨rfl, rfl⟩ := hst; exact ⟨r, w, rfl, h⟩
            · split at hst
              · simp at hst; obtain ⟨rfl, rfl⟩ := hst; exact ⟨r, w, rfl, h⟩
              · rename_i hshould hcan
                generalize hn : atMost (canCount s job.req) (job.count - s.running c) = n at hst hcan
                have hnle : n ≤ job.count - s.running c := by rw [← hn]; unfold atMost; split <;> omega
                simp only [Option.some.injEq, Prod.mk.injEq] at hst; obtain ⟨rfl, rfl⟩ := hst
                have htn : (n.toNat : Int) = n := by omega
                by_cases e : c = cmd
                · subst e
                  obtain ⟨a, ⟨x, b1, b2, b3⟩, d⟩ := h.present j hq
                  rw [hjob] at b1; injection b1 with b1; subst b1
                  rw [h.run, b2] at hnle
                  refine ⟨r + n, w, by rw [ledger_began _ _ _ _ (by omega), htn], ?_, ?_, ?_, h.absent, h.pend⟩
                  · simp [start, put, h.run, htn]
                  · simp only [start, List.map_append, List.sum_append, h.alive, List.map_replicate]
                    have : one c { job := j, cmd := c, req := job.req } = 1 := by simp [one]
                    rw [this]
                    have hs : ∀ k : Nat, (List.replicate k (1 : Int)).sum = k := by
                      intro k; induction k with
                      | zero => rfl
                      | succ k ih => rw [List.replicate_succ, List.sum_cons, ih]; omega
                    rw [hs, htn]
                  · intro j' hq'
                    have : j' = j := by
                      have : s.queue c = some j' := hq'
                      rw [hq] at this; injection this with this; exact this.symm
                    subst this
                    refine ⟨a, ⟨job, hjob, b2, ?_⟩, ?_⟩
                    · rw [b3]; unfold decrements; rw [if_neg (by omega), if_neg (by omega)]
                    · intro t ht h1 h2
                      rcases List.mem_append.1 ht with ht | ht
                      · exact d t ht h1 h2
                      · obtain ⟨-, rfl⟩ := List.mem_replicate.1 ht; rfl
                · refine ⟨r, w, ledger_began_other _ _ e _ _, ?_, ?_, ?_, h.absent, h.pend⟩
                  · simp [start, put, Ne.symm e, h.run]
                  · simp only [start, List.map_append, List.sum_append, h.alive, List.map_replicate]
                    have : one cmd { job := j, cmd := c, req := job.req } = 0 := by simp [one, e]
                    rw [this]; simp
                  · intro j' hq'
                    obtain ⟨a, b, d⟩ := h.present j' hq'
                    refine ⟨a, b, ?_⟩
                    intro t ht h1 h2
                    rcases List.mem_append.1 ht with ht | ht
                    · exact d t ht h1 h2
                    · obtain ⟨-, rfl⟩ := List.mem_replicate.1 ht; exact absurd h1 e
    · cases hst
  | finish p =>
    simp only [Local.step] at hst
    split at hst
    · cases hst
    · split at hst
      · cases hst
      · simp at hst; obtain ⟨rfl, rfl⟩ := hst; exact ⟨r, w, rfl, h.same rfl rfl rfl rfl rfl⟩
  | reserve t =>
    simp only [Local.step] at hst
    split at hst
    · rename_i th hth
      split at hst
      · rename_i hph
        simp only [Option.some.injEq, Prod.mk.injEq] at hst; obtain ⟨rfl, rfl⟩ := hst
        refine ⟨r, w, rfl, ?_⟩
        unfold setPhase take
        split <;> exact h.phase hth (by rw [hph]; simp) (ph := .using) (by simp) rfl rfl rfl rfl rfl
      · cases hst
    · cases hst
  | fail t =>
    simp only [Local.step] at hst
    split at hst
    · rename_i th hth
      split at hst
      · rename_i hph
        simp only [Option.some.injEq, Prod.mk.injEq] at hst; obtain ⟨rfl, rfl⟩ := hst
        exact ⟨r, w, rfl, h.phase hth (by rw [hph]; simp) (ph := .failed) (by simp) rfl rfl rfl rfl rfl⟩
      · cases hst
    · cases hst
  | free t =>
    simp only [Local.step] at hst
    split at hst
    · rename_i th hth
      split at hst
      · rename_i hph
        simp only [Option.some.injEq, Prod.mk.injEq] at hst; obtain ⟨rfl, rfl⟩ := hst
        refine ⟨r, w, rfl, ?_⟩
        unfold setPhase giveBack
        split <;> exact h.phase hth (by rw [hph]; simp) (ph := .freed) (by simp) rfl rfl rfl rfl rfl
      · cases hst
    · cases hst
  | done t =>
    simp only [Local.step] at hst
    split at hst
    · rename_i th hth
      split at hst
      · rename_i hph
        have hng : th.phase ≠ .gone := by rcases hph with hph | hph <;> rw [hph] <;> simp
        split at hst
        · cases hst
        · rename_i job hjob
          obtain ⟨jb, g1, g2⟩ := g.t th (List.mem_of_getElem? hth)
          rw [hjob] at g1; injection g1 with g1; subst g1
          by_cases e : th.cmd = cmd
          · obtain ⟨c1, c2⟩ := hc th hth e
            have hr1 := sum_pos cmd _ t th hth e hng
            rw [h.alive] at hr1
            have hrun' : (if s.running th.cmd - 1 ≤ 0 then 0 else s.running th.cmd - 1) = r - 1 := by
              rw [e, h.run]; split <;> omega
            have hal : ((s.threads.set t { th with phase := .gone }).map (one cmd)).sum = r - 1 := by
              rw [sum_set _ _ _ _ _ hth, h.alive]
              simp [one, e, hng]
            have hmem : ∀ x ∈ s.threads.set t { th with phase := .gone }, x.cmd = cmd → x.phase ≠ .gone → x ∈ s.threads := by
              intro x hx _ hg
              rcases List.mem_or_eq_of_mem_set hx with hx | rfl
              · exact hx
              · exact absurd rfl hg
            split at hst
            · simp only [Option.some.injEq, Prod.mk.injEq] at hst; obtain ⟨rfl, rfl⟩ := hst
              refine ⟨r - 1, if r ≤ w then w - 1 else w, by simp [ledger, e], ?_⟩
              cases hq : s.queue cmd with
              | none =>
                have hw := h.absent hq
                have hq' : ∀ x, (if (countRun job).count ≤ 0 then removeKey { setPhase s t th .gone with
                    running := put s.running th.cmd x, jobs := (setPhase s t th .gone).jobs.set th.job (countRun job) } th.cmd else
                    { setPhase s t th .gone with running := put s.running th.cmd x, jobs := (setPhase s t th .gone).jobs.set th.job (countRun job) }).queue cmd = none := by
                  intro x; split
                  · simp [removeKey, put, e]
                  · exact hq
                refine ⟨?_, ?_, ?_, ?_, ?_⟩
                · split <;> simp [removeKey, put, e, ← hrun']
                · split <;> exact hal
                · intro j hj; rw [hq'] at hj; cases hj
                · intro _; rw [hw]; rw [if_neg (by omega)]
                · intro j n hp
                  have : s.pending = some (cmd, j, n) := by
                    revert hp; split <;> exact id
                  exact absurd this (c1 j n)
              | some j =>
                obtain ⟨a, ⟨x, b1, b2, b3⟩, d⟩ := h.present j hq
                have hjj := d th (List.mem_of_getElem? hth) e hng
                rw [hjj, b1] at hjob; injection hjob with hjob; subst hjob
                -- the new count and decrements
                have hcount : (countRun x).count = if r ≤ w then w - 1 else w := by
                  unfold countRun
                  split
                  · rename_i hd; rw [b3] at hd; rw [if_neg (by have := (dec_pos hd).1; omega)]; exact b2
                  · rename_i hd; rw [b3] at hd
                    rw [if_pos (by unfold decrements at hd; split at hd <;> omega)]; simp [b2]
                have hdec : (countRun x).dec = decrements (if r ≤ w then w - 1 else w) (r - 1) := by
                  unfold countRun
                  split
                  · rename_i hd; rw [b3] at hd
                    have := dec_pos hd
                    rw [if_neg (by omega)]; simp only [b3, this.2]; unfold decrements; split <;> omega
                  · rename_i hd; rw [b3] at hd
                    have hle : r ≤ w := by unfold decrements at hd; split at hd <;> omega
                    rw [if_pos hle]; simp only [b3]; unfold decrements; rw [if_neg (by omega), if_neg (by omega)]
                have hw0 : 0 ≤ (if r ≤ w then w - 1 else w) := by split <;> omega
                rw [hjj]
                split
                · rename_i hle
                  rw [hcount] at hle
                  refine ⟨by simp [removeKey, put, e, ← hrun'], hal, by simp [removeKey, put, e], fun _ => by omega, ?_⟩
                  intro j' n' hp; exact absurd hp (c1 j' n')
                · refine ⟨by simp [put, e, ← hrun'], hal, ?_, by simp [setPhase, hq], ?_⟩
                  · intro j' hq'
                    have : j' = j := by
                      have : s.queue cmd = some j' := hq'
                      rw [hq] at this; injection this with this; exact this.symm
                    subst this
                    refine ⟨hw0, ⟨_, List.getElem?_set_self (List.getElem?_eq_some_iff.1 b1).1, hcount, hdec⟩, ?_⟩
                    intro y hy h1 h2; exact d y (hmem y hy h1 h2) h1 h2
                  · intro j' n' hp; exact absurd hp (c1 j' n')
            · rename_i hnf
              have hf : th.phase = .failed := by rcases hph with hph | hph; exact absurd hph hnf; exact hph
              simp only [Option.some.injEq, Prod.mk.injEq] at hst; obtain ⟨rfl, rfl⟩ := hst
              refine ⟨r - 1, w, by simp [ledger, e], by simp [put, e, ← hrun'], hal, ?_, h.absent, h.pend⟩
              intro j hq
              have hq : s.queue cmd = some j := hq
              obtain ⟨a, ⟨x, b1, b2, b3⟩, d⟩ := h.present j hq
              refine ⟨a, ⟨x, b1, b2, ?_⟩, fun y hy h1 h2 => d y (hmem y hy h1 h2) h1 h2⟩
              have := c2 hf (by rw [hq]; simp)
              rw [hruns] at this
              simp only [scheduled, hq, b1, b2] at this
              rw [b3]; unfold decrements; rw [if_neg (by omega), if_neg (by omega)]
          · have hone : ((s.threads.set t { th with phase := .gone }).map (one cmd)).sum = (s.threads.map (one cmd)).sum := by
              rw [sum_set _ _ _ _ _ hth]; simp [one, e]
            have hmem : ∀ x ∈ s.threads.set t { th with phase := .gone }, x.cmd = cmd → x.phase ≠ .gone → x ∈ s.threads := by
              intro x hx _ hg
              rcases List.mem_or_eq_of_mem_set hx with hx | rfl
              · exact hx
              · exact absurd rfl hg
            split at hst
            · simp only [Option.some.injEq, Prod.mk.injEq] at hst; obtain ⟨rfl, rfl⟩ := hst
              refine ⟨r, w, by simp [ledger, e], ?_⟩
              split
              · exact K.other g h e hjob g2 (by simp [removeKey, put, Ne.symm e]) hone hmem (by simp [removeKey, put, Ne.symm e, setPhase]) rfl (fun j n hp => hp)
              · exact K.other g h e hjob g2 (by simp [put, Ne.symm e]) hone hmem rfl rfl (fun j n hp => hp)
            · simp only [Option.some.injEq, Prod.mk.injEq] at hst; obtain ⟨rfl, rfl⟩ := hst
              refine ⟨r, w, by simp [ledger, e], ?_⟩
              have hself : s.jobs.set th.job job = s.jobs := by
                apply List.ext_getElem?
                intro k
                by_cases hk : th.job = k
                · subst hk; rw [List.getElem?_set_self (List.getElem?_eq_some_iff.1 hjob).1, hjob]
                · rw [List.getElem?_set_ne hk]
              exact K.other g h e hjob g2 (job' := job) (by simp [put, Ne.symm e]) hone hmem rfl (by rw [hself]; rfl) (fun j n hp => hp)
      · cases hst
    · cases hst
  | recover rq =>
    simp only [Local.step, Option.some.injEq, Prod.mk.injEq] at hst; obtain ⟨rfl, rfl⟩ := hst
    refine ⟨r, w, rfl, ?_⟩
    unfold take
    split <;> exact h.same rfl rfl rfl rfl rfl
  | exited i =>
    simp only [Local.step] at hst
    split at hst
    · simp only [Option.some.injEq, Prod.mk.injEq] at hst; obtain ⟨rfl, rfl⟩ := hst
      refine ⟨r, w, rfl, ?_⟩
      unfold giveBack
      split <;> exact h.same rfl rfl rfl rfl rfl
    · cases hst
  | timeout p =>
    simp only [Local.step] at hst
    split at hst
    · simp at hst; obtain ⟨rfl, rfl⟩ := hst; exact ⟨r, w, rfl, h.same rfl rfl rfl rfl rfl⟩
    · cases hst

private theorem run_K (cmd : String) (h : List Ev) : ∀ {s s' : S} {o : List Obs} {r w : Int}, G s → K cmd s r w → AlongCalm cmd s h →
    run s h = some (s', o) → ∃ r' w', ledger cmd (r, w) o = some (r', w') ∧ K cmd s' r' w' ∧ G s' := by
  induction h with
  | nil => intro s s' o r w g k _ hr; simp [Local.run] at hr; obtain ⟨rfl, rfl⟩ := hr; exact ⟨r, w, rfl, k, g⟩
  | cons e h ih =>
    intro s s' o r w g k hc hr
    simp only [Local.run] at hr
    cases hst : Local.step s e with
    | none => rw [hst] at hr; cases hr
    | some p =>
      obtain ⟨s1, o1⟩ := p
      rw [hst] at hr
      simp only [Option.bind_some, Option.map_eq_some_iff] at hr
      obtain ⟨⟨s2, o2⟩, h1, h2⟩ := hr
      simp at h2; obtain ⟨rfl, rfl⟩ := h2
      obtain ⟨r1, w1, l1, k1⟩ := K.step g k hc.1 hst
      obtain ⟨r2, w2, l2, k2⟩ := ih (g.step hst) k1 (hc.2 s1 o1 hst) h1
      exact ⟨r2, w2, by rw [ledger_append, l1]; exact l2, k2⟩

private theorem init_K (R C : Int) (cmd : String) : K cmd (init R C) 0 0 ∧ G (init R C) :=
  ⟨⟨rfl, rfl, by simp [init], fun _ => rfl, by simp [init]⟩, ⟨by simp [init], by simp [init], by simp [init]⟩⟩

/-- C44, for histories that avoid what `Calm` excludes: runs begin only as far as they are wanted, and the scheduler's
books agree with what a user expects: the runs in progress and the number of runs still scheduled are those of the
ledger. -/
theorem C44_partial (R C : Int) (cmd : String) (h : List Ev) (s : S) (o : List Obs) (hc : AlongCalm cmd (init R C) h)
    (hr : run (init R C) h = some (s, o)) : ∃ r w, ledger cmd (0, 0) o = some (r, w) ∧ runs s cmd = r ∧ scheduled s cmd = w := by
  obtain ⟨r, w, h1, h2, -⟩ := run_K cmd h (init_K R C cmd).2 (init_K R C cmd).1 hc hr
  refine ⟨r, w, h1, by rw [runs_sum, h2.alive], ?_⟩
  unfold scheduled
  cases hq : s.queue cmd with
  | none => exact (h2.absent hq).symm
  | some j =>
    obtain ⟨-, ⟨x, b1, b2, -⟩, -⟩ := h2.present j hq
    simp only [b1, b2]

/-- C44, the runs that are wanted are begun: when `processQueue` comes to look at the command, it begins as many of the
runs still missing as there is room for; a command with none wanted and none in progress is forgotten. -/
theorem C44_begins_partial (R C : Int) (cmd : String) (h : List Ev) (s : S) (o : List Obs) (hc : AlongCalm cmd (init R C) h)
    (hr : run (init R C) h = some (s, o)) (p : Nat) (waits : List Nat) (hp : s.procs[p]? = some waits)
    (hw : waits.all (reservedSent s) = true) (r w : Int) (hl : ledger cmd (0, 0) o = some (r, w)) :
    (r < w → ∃ j job s', s.queue cmd = some j ∧ s.jobs[j]? = some job ∧ step s (.pick p cmd) =
      some (s', List.replicate (min (canCount s job.req) (w - r)).toNat (.began cmd))) ∧
    (r = 0 → w = 0 → s.queue cmd = none ∨ ∃ s', step s (.pick p cmd) = some (s', []) ∧ s'.queue cmd = none) := by
  obtain ⟨r', w', h1, h2, -⟩ := run_K cmd h (init_K R C cmd).2 (init_K R C cmd).1 hc hr
  rw [hl] at h1; injection h1 with h1; injection h1 with h1 h1'; subst h1; subst h1'
  cases hq : s.queue cmd with
  | none =>
    have := h2.absent hq
    have hnn : 0 ≤ r := by
      rw [← h2.alive, ← runs_sum]; unfold runs; omega
    exact ⟨fun hlt => by omega, fun _ _ => Or.inl rfl⟩
  | some j =>
    obtain ⟨a, ⟨x, b1, b2, -⟩, -⟩ := h2.present j hq
    constructor
    · intro hlt
      have hnn : 0 ≤ r := by
        rw [← h2.alive, ← runs_sum]; unfold runs; omega
      refine ⟨j, x, ?_⟩
      simp only [Local.step, hp, hq, b1, hw, b2, h2.run]
      rw [if_neg (by simp), if_neg (by omega), if_neg (by omega)]
      have hm : atMost (canCount s x.req) (w - r) = min (canCount s x.req) (w - r) := by
        unfold atMost; split <;> omega
      rw [hm]
      split
      · rename_i hle
        refine ⟨s, trivial, trivial, ?_⟩
        rw [show (min (canCount s x.req) (w - r)).toNat = 0 by omega]; rfl
      · exact ⟨_, trivial, trivial, rfl⟩
    · intro h0 h0'
      right
      subst h0; subst h0'
      simp only [Local.step, hp, hq, b1, hw, b2, h2.run]
      rw [if_neg (by simp), if_pos ⟨trivial, trivial⟩]
      exact ⟨_, rfl, by simp [removeKey, put]⟩

private theorem ex2 {e : Option (S × List Obs)} {p : S × List Obs → Bool} (h : e.any p = true) : ∃ a b, e = some (a, b) ∧ p (a, b) = true := by
  cases e with
  | none => cases h
  | some x => exact ⟨x.1, x.2, rfl, h⟩

/-- C44 fails when a command is cancelled and scheduled again while a run is in progress: after that run has ended, four
of the five runs asked for are still to be made, but the command is forgotten. -/
theorem C44_violated_cancel : ∃ h s o, run (init 10 4) h = some (s, o) ∧ ledger "a" (0, 0) o = some (0, 4) ∧ s.queue "a" = none := by
  have := ex2 (e := run (init 10 4) [.schedule "a" ⟨10, 1000⟩ 1, .begin, .pick 0 "a", .reserve 0, .schedule "a" ⟨10, 1000⟩ 0, .update,
    .schedule "a" ⟨10, 1000⟩ 5, .free 0, .done 0]) (p := fun x => ledger "a" (0, 0) x.2 = some (0, 4) ∧ x.1.queue "a" = none) (by decide +kernel)
  obtain ⟨s, o, h1, h2⟩ := this
  exact ⟨_, s, o, h1, of_decide_eq_true h2⟩

/-- C44 fails when the last run ends during a call of `schedule`: the five runs asked for are never made. -/
theorem C44_violated_race : ∃ h s o, run (init 10 4) h = some (s, o) ∧ ledger "a" (0, 0) o = some (0, 5) ∧ s.queue "a" = none := by
  have := ex2 (e := run (init 10 4) [.schedule "a" ⟨10, 1000⟩ 1, .begin, .pick 0 "a", .reserve 0, .free 0, .schedule "a" ⟨10, 1000⟩ 5, .done 0, .update])
    (p := fun x => ledger "a" (0, 0) x.2 = some (0, 5) ∧ x.1.queue "a" = none) (by decide +kernel)
  obtain ⟨s, o, h1, h2⟩ := this
  exact ⟨_, s, o, h1, of_decide_eq_true h2⟩

/-- C44 fails when a run breaks on starting after the count was lowered: a run is begun that nobody wants. -/
theorem C44_violated_broken : ∃ h s o, run (init 10 4) h = some (s, o) ∧ ledger "a" (0, 0) o = none := by
  have := ex2 (e := run (init 10 4) [.schedule "a" ⟨5, 1000⟩ 2, .begin, .pick 0 "a", .reserve 0, .fail 1, .schedule "a" ⟨5, 1000⟩ 1, .update, .done 1,
    .free 0, .done 0, .pick 0 "a"]) (p := fun x => ledger "a" (0, 0) x.2 = none) (by decide +kernel)
  obtain ⟨s, o, h1, h2⟩ := this
  exact ⟨_, s, o, h1, of_decide_eq_true h2⟩

/-! ### A history that meets the hypotheses -/

private def calmB (cmd : String) (s : S) : Ev → Bool
  | .schedule c _ n => c ≠ cmd || (0 ≤ n && ((s.queue cmd).isSome || runs s cmd = 0))
  | .pick _ c => c ≠ cmd || s.pending.map (·.1) ≠ some cmd
  | .done t => match s.threads[t]? with
    | none => true
    | some th => th.cmd ≠ cmd || (s.pending.map (·.1) ≠ some cmd && (th.phase ≠ .failed || s.queue cmd = none || runs s cmd ≤ scheduled s cmd))
  | _ => true

private def alongB (cmd : String) (s : S) : List Ev → Bool
  | [] => true
  | e :: h => calmB cmd s e && match step s e with
    | none => true
    | some (s', _) => alongB cmd s' h

private theorem calm_of {cmd : String} {s : S} {e : Ev} (h : calmB cmd s e = true) : Calm cmd s e := by
  cases e with
  | schedule c rq n =>
    intro hc
    simp only [calmB, hc, ne_eq, not_true_eq_false, decide_false, Bool.false_or, Bool.and_eq_true, decide_eq_true_eq, Bool.or_eq_true] at h
    refine ⟨h.1, fun hq => ?_⟩
    rw [hq] at h; simpa using h.2
  | pick p c =>
    intro hc j n hp
    simp [calmB, hc, hp] at h
  | done t =>
    intro th hth hc
    simp only [calmB, hth, hc, ne_eq, not_true_eq_false, decide_false, Bool.false_or, Bool.and_eq_true, decide_eq_true_eq, Bool.or_eq_true] at h
    refine ⟨fun j n hp => by simp [hp] at h, fun h1 h2 => ?_⟩
    rcases h.2 with (h3 | h3) | h3
    · simp [h1] at h3
    · exact absurd h3 h2
    · exact h3
  | _ => trivial

private theorem along_of {cmd : String} (h : List Ev) : ∀ {s : S}, alongB cmd s h = true → AlongCalm cmd s h := by
  induction h with
  | nil => intro s _; trivial
  | cons e h ih =>
    intro s hh
    simp only [alongB, Bool.and_eq_true] at hh
    refine ⟨calm_of hh.1, fun s' o hst => ?_⟩
    rw [hst] at hh; exact ih hh.2

/-- A non-trivial history that meets the hypotheses: the count is lowered and raised while runs are in progress, another
command competes, and a run fails to start. -/
example : ∃ h s o, AlongCalm "a" (init 10 4) h ∧ run (init 10 4) h = some (s, o) ∧ ledger "a" (0, 0) o = some (1, 3) := by
  have hx := ex2 (e := run (init 10 4) [.schedule "a" ⟨3, 1000⟩ 3, .schedule "b" ⟨1, 0⟩ 1, .begin, .pick 0 "a", .reserve 0, .reserve 1, .fail 2, .pick 0 "b",
    .done 2, .schedule "a" ⟨3, 1000⟩ 1, .update, .free 0, .done 0, .schedule "a" ⟨3, 1000⟩ 3, .update])
    (p := fun x => ledger "a" (0, 0) x.2 = some (1, 3)) (by decide +kernel)
  obtain ⟨s, o, h1, h2⟩ := hx
  exact ⟨_, s, o, along_of _ (by decide +kernel), h1, of_decide_eq_true h2⟩

end Verif.Sched.Local
