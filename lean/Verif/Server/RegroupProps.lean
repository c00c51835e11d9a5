import Verif.Server.RegroupLemmas
/-!
# Where a changed job waits: property C146

A job waits among those of the scheduler group that its requirements and limits say, and with the priority it was given, also after these
were changed: so it is handed to runners of that group and to no others.
-/
namespace Verif.Server.Regroup

/-- C146, part that holds: as long as nothing comes between the changes of a request (`Quiet`), the queue and the server agree on the
group of every job, whenever the callback is not just setting one. -/
theorem C146_agree_partial {es : List Ev} {s : St} (q : QuietRun {} es) (hr : run {} es = some s) (hp : ∀ i g t, s.rac ≠ .put i g t)
    {i : Nat} {a : Job} (hi : s.jobs[i]? = some a) (hq : a.qkey ≠ none) : a.rgroup = a.sched := by
  rcases (inv_run inv_init q hr).sync i a hi hq with h | ⟨t, h⟩
  · exact h
  · exact absurd h (hp _ _ _)

/-- Two jobs; one is changed, with its key, between two runs of the callback. -/
def calmRun : List Ev :=
  [.add 1 10 9 0 .ready, .add 2 10 9 0 .ready, .start [1, 0], .set, .put, .set, .put, .done, .modify 0 3 20 5, .rename, .update 0,
    .start [0, 1], .set, .put, .set]

theorem calmRun_ok : ∃ s, run {} calmRun = some s ∧ s.rac = .run [] ∧ s.jobs.map (·.rgroup) = [20, 10] ∧
    s.jobs.map (·.qkey) = [some 3, some 2] ∧ s.jobs.map (·.qprio) = [5, 0] := ⟨_, rfl, rfl, rfl, rfl, rfl⟩

instance (s : St) (e : Ev) : Decidable (Quiet s e) := by
  cases e <;> unfold Quiet
  case update i =>
    cases h : s.jobs[i]? with
    | none => exact decidable_of_iff (s.pend = []) ⟨fun p => ⟨p, fun j hj => by rw [h] at hj; cases hj⟩, (·.1)⟩
    | some j =>
      exact decidable_of_iff (s.pend = [] ∧ j.qkey.isSome)
        ⟨fun p => ⟨p.1, fun j' hj => by rw [h] at hj; cases hj; exact p.2⟩, fun p => ⟨p.1, p.2 j h⟩⟩
  all_goals infer_instance

instance decQuietRun : (s : St) → (es : List Ev) → Decidable (QuietRun s es)
  | _, [] => .isTrue trivial
  | s, e :: es =>
    match h : step s e with
    | none => decidable_of_iff (Quiet s e) ⟨fun q => ⟨q, fun s' h' => by rw [h] at h'; cases h'⟩, (·.1)⟩
    | some s1 =>
      have := decQuietRun s1 es
      decidable_of_iff (Quiet s e ∧ QuietRun s1 es)
        ⟨fun q => ⟨q.1, fun s' h' => by rw [h] at h'; cases h'; exact q.2⟩, fun q => ⟨q.1, q.2 s1 h⟩⟩

example : QuietRun {} calmRun := by decide +kernel

/-- the job was dealt with, or will be -/
def Seen (s : St) (i : Nat) : Prop :=
  match s.rac with
  | .idle => False
  | .run t => i ∈ t ∨ ∀ b : Job, s.jobs[i]? = some b → b.sched = b.want
  | .put _ _ t => i ∈ t ∨ ∀ b : Job, s.jobs[i]? = some b → b.sched = b.want

theorem seen_jobs {s : St} {i : Nat} {l : List Job} (h : Seen s i)
    (hl : ∀ b : Job, l[i]? = some b → ∃ a : Job, s.jobs[i]? = some a ∧ b.sched = a.sched ∧ b.want = a.want) :
    Seen { s with jobs := l } i := by
  unfold Seen at *
  cases hr : s.rac with
  | idle => rw [hr] at h; exact h
  | run t =>
    rw [hr] at h
    refine h.imp id fun h b hb => ?_
    obtain ⟨a, h1, h2, h3⟩ := hl b hb
    rw [h2, h3]; exact h a h1
  | put _ _ t =>
    rw [hr] at h
    refine h.imp id fun h b hb => ?_
    obtain ⟨a, h1, h2, h3⟩ := hl b hb
    rw [h2, h3]; exact h a h1

theorem seen_setAt {s : St} {i m : Nat} {f : Job → Job} (h : Seen s i) (hf : ∀ a, (f a).sched = a.sched ∧ (f a).want = a.want) :
    Seen { s with jobs := setAt s.jobs m f } i := by
  refine seen_jobs h fun b hb => ?_
  rw [get_setAt] at hb
  split at hb
  · cases ha : s.jobs[i]? with
    | none => rw [ha] at hb; cases hb
    | some a => rw [ha] at hb; cases hb; exact ⟨a, rfl, hf a⟩
  · exact ⟨b, hb, rfl, rfl⟩

theorem seen_setKey {s : St} {i k : Nat} {f : Job → Job} (h : Seen s i) (hf : ∀ a, (f a).sched = a.sched ∧ (f a).want = a.want) :
    Seen { s with jobs := setKey s.jobs k f } i := by
  refine seen_jobs h fun b hb => ?_
  rw [get_setKey] at hb
  cases ha : s.jobs[i]? with
  | none => rw [ha] at hb; cases hb
  | some a =>
    rw [ha] at hb
    simp only [Option.map_some, Option.some.injEq] at hb
    refine ⟨a, rfl, ?_⟩
    split at hb
    · subst hb; exact hf a
    · subst hb; exact ⟨rfl, rfl⟩

theorem seen_rac {s : St} {i : Nat} (h : Seen s i) : s.rac ≠ .idle := by
  intro hr; unfold Seen at h; rw [hr] at h; exact h

theorem seen_step {s s' : St} {e : Ev} {i : Nat} (hi : i < s.jobs.length) (h : Seen s i) (q : Quiet s e) (hd : e ≠ .done)
    (hs : step s e = some s') : Seen s' i ∧ i < s'.jobs.length := by
  have hne := seen_rac h
  cases e with
  | add =>
    simp only [step] at hs
    split at hs
    · cases hs
    · cases hs
      refine ⟨seen_jobs h fun b hb => ?_, by simp; omega⟩
      rw [get_append] at hb
      rcases hb with hb | ⟨hb, _⟩
      · exact ⟨b, hb, rfl, rfl⟩
      · omega
  | modify => exact absurd q hne
  | rename => exact absurd q hne
  | update =>
    simp only [step] at hs
    split at hs
    · cases hs
    · cases hs
      refine ⟨?_, by simpa [Regroup.update, setKey_length] using hi⟩
      exact seen_setKey h fun a => by split <;> exact ⟨rfl, rfl⟩
  | start =>
    simp only [step] at hs
    split at hs
    · rename_i hc; exact absurd hc.1 hne
    · cases hs
  | learn w =>
    simp only [step] at hs
    split at hs
    · rename_i m t hr
      cases hs
      refine ⟨?_, by simpa [setAt_length] using hi⟩
      simp only [Seen, hr] at h ⊢
      by_cases hm : i = m
      · subst hm; left; simp
      · refine h.imp id fun h b hb => ?_
        rw [get_setAt, if_neg (fun hh => hm hh.symm)] at hb
        exact h b hb
    · cases hs
  | set =>
    simp only [step] at hs
    split at hs
    · rename_i m t hr
      split at hs
      · cases hs
      · rename_i j hj
        simp only [Seen, hr] at h
        split at hs
        · cases hs
          refine ⟨?_, by simpa [setAt_length] using hi⟩
          simp only [Seen]
          by_cases hm : i = m
          · subst hm
            right
            intro b hb
            rw [get_setAt, if_pos rfl, hj] at hb
            cases hb; rfl
          · refine (h.imp (fun h => ?_) fun h b hb => ?_)
            · rcases List.mem_cons.1 h with h | h
              · exact absurd h hm
              · exact h
            · rw [get_setAt, if_neg (fun hh => hm hh.symm)] at hb
              exact h b hb
        · rename_i hw
          cases hs
          refine ⟨?_, hi⟩
          simp only [Seen]
          by_cases hm : i = m
          · subst hm
            right
            intro b hb
            rw [hj] at hb; cases hb
            exact Classical.not_not.1 hw
          · refine h.imp (fun h => ?_) id
            rcases List.mem_cons.1 h with h | h
            · exact absurd h hm
            · exact h
    · cases hs
  | put =>
    simp only [step] at hs
    split at hs
    · rename_i m g t hr
      split at hs
      · cases hs
      · rename_i j hj
        cases hs
        refine ⟨?_, by simpa [setReserveGroup, setKey_length] using hi⟩
        have := seen_setKey (k := j.key) (f := fun j => { j with rgroup := g }) h fun a => ⟨rfl, rfl⟩
        simp only [Seen, hr] at this
        exact this
    · cases hs
  | done => exact absurd rfl hd
  | reserve =>
    simp only [step] at hs
    split at hs
    · cases hs
    · split at hs
      · cases hs; exact ⟨seen_setAt h fun a => ⟨rfl, rfl⟩, by simpa [setAt_length] using hi⟩
      · cases hs
  | move =>
    simp only [step] at hs
    split at hs
    · cases hs
    · split at hs
      · cases hs; exact ⟨seen_setAt h fun a => ⟨rfl, rfl⟩, by simpa [setAt_length] using hi⟩
      · cases hs
  | leave =>
    simp only [step] at hs
    split at hs
    · cases hs
    · split at hs
      · cases hs; exact ⟨seen_setAt h fun a => ⟨rfl, rfl⟩, by simpa [setAt_length] using hi⟩
      · cases hs

theorem seen_run {s s' : St} {es : List Ev} {i : Nat} (hi : i < s.jobs.length) (h : Seen s i) (q : QuietRun s es) (hd : Ev.done ∉ es)
    (hs : run s es = some s') : Seen s' i := by
  induction es generalizing s with
  | nil => cases hs; exact h
  | cons e es ih =>
    simp only [run] at hs
    cases he : step s e with
    | none => rw [he] at hs; cases hs
    | some s1 =>
      rw [he] at hs
      have := seen_step hi h q.1 (fun hh => hd (by simp [hh])) he
      exact ih this.2 this.1 (q.2 s1 he) (fun hh => hd (List.mem_cons_of_mem _ hh)) hs

/-- C146, part that holds: after whatever history in which nothing came between the changes of a request, once the callback has run, each
job that was ready when it began and still is in the queue waits in the group that its requirements and limits say now; a runner gets it
exactly if it is of this group. -/
theorem C146_after_partial {es0 es : List Ev} {s s1 s2 s3 : St} {todo : List Nat} (q0 : QuietRun {} es0) (h0 : run {} es0 = some s)
    (q1 : Quiet s (.start todo)) (h1 : step s (.start todo) = some s1) (q2 : QuietRun s1 es) (h2 : run s1 es = some s2)
    (hd : Ev.done ∉ es) (h3 : step s2 .done = some s3)
    {i : Nat} {a b : Job} (ha : s.jobs[i]? = some a) (hq : a.qkey.isSome) (hr : a.place = .ready)
    (hb : s3.jobs[i]? = some b) (hbq : b.qkey.isSome) :
    b.rgroup = b.want ∧ ∀ g d, (step s3 (.reserve i g d)).isSome ↔ b.place = .ready ∧ g = b.want := by
  have i0 := inv_run inv_init q0 h0
  have i1 := inv_step i0 q1 h1
  have i2 := inv_run i1 q2 h2
  have i3 := inv_done i2 h3
  have hmain : b.rgroup = b.want := by
    have hseen : Seen s1 i ∧ i < s1.jobs.length := by
      simp only [step] at h1
      split at h1
      · rename_i hc
        cases h1
        refine ⟨?_, (List.getElem?_eq_some_iff.1 ha).1⟩
        simp only [Seen]
        left
        exact (List.isPerm_iff.1 hc.2).mem_iff.2 (mem_readyIdx.2 ⟨a, ha, hq, hr⟩)
      · cases h1
    have hs2 := seen_run hseen.2 hseen.1 q2 hd h2
    simp only [step] at h3
    split at h3
    · rename_i hrac
      cases h3
      simp only [Seen, hrac] at hs2
      rcases hs2 with h | h
      · simp at h
      · rw [← h b hb]
        rcases i3.sync i b hb (by intro hh; rw [hh] at hbq; cases hbq) with h4 | ⟨t, h4⟩
        · exact h4
        · cases h4
    · cases h3
  refine ⟨hmain, fun g d => ?_⟩
  simp only [step, hb]
  rw [hmain]
  split
  · rename_i hc; simp [hc.2.1, hc.2.2]
  · rename_i hc
    simp only [Option.isSome_none, Bool.false_eq_true, false_iff]
    rintro ⟨c1, c2⟩
    exact hc ⟨hbq, c1, c2.symm⟩

example : ∃ s s1 s2 s3 : St, run {} (calmRun.take 11) = some s ∧ step s (.start [0, 1]) = some s1 ∧ run s1 [.set, .put, .set] = some s2 ∧
    step s2 .done = some s3 ∧ (s.jobs[0]?.map (·.rgroup)) = some 10 ∧ (s3.jobs[0]?.map (·.rgroup)) = some 20 ∧
    (step s3 (.reserve 0 20 0)).isSome ∧ (step s3 (.reserve 0 10 0)).isNone := ⟨_, _, _, _, rfl, rfl, rfl, rfl, rfl, rfl, rfl, rfl⟩

/-- C146, part that holds: a new priority is that of the job in the queue, if it was never handed out with a delay. -/
theorem C146_priority_partial {es : List Ev} {s s' : St} {i : Nat} {a : Job} (q : QuietRun {} es) (hr : run {} es = some s)
    (hi : s.jobs[i]? = some a) (hq : a.qkey.isSome) (hp : s.pend = []) (hs : step s (.update i) = some s') (hd : a.delay = 0) :
    ∃ b : Job, s'.jobs[i]? = some b ∧ b.qprio = a.prio ∧ b.prio = a.prio ∧ b.qkey = a.qkey ∧
      ∀ j : Nat, j ≠ i → s'.jobs[j]? = s.jobs[j]? := by
  have inv := inv_run inv_init q hr
  obtain ⟨k, hk⟩ := Option.isSome_iff_exists.1 hq
  have := inv.keyed hp hi hk
  subst this
  simp only [step, hi] at hs
  cases hs
  refine ⟨{ a with qprio := a.prio, rgroup := a.sched }, ?_, rfl, rfl, rfl, ?_⟩
  · simp only [Regroup.update]
    rw [get_setKey, hi]
    simp [hk, hd]
  · intro j hj
    simp only [Regroup.update]
    rw [get_setKey]
    cases hm : s.jobs[j]? with
    | none => rfl
    | some c =>
      simp only [Option.map_some, Option.some.injEq]
      rw [if_neg]
      intro hc
      exact hj (inv.uniq j i c a a.key hm hi hc hk)

/-- the callback looks at the only job -/
def round : List Ev := [.start [0], .set, .done]

/-- C146 fails if the callback looks at a job between the change of the job and that of its key in the queue: the queue has no item with
the new key, and the server forgets that its group was not changed there. However often the callback runs after that, the job waits
among those of its old group: the runners that are started for the new one (20) never get it. -/
theorem C146_violated_stuck :
    ∃ s, run {} [.add 1 10 10 0 .ready, .start [0], .modify 0 2 20 0, .set, .put, .done, .rename] = some s ∧
      ∀ n : Nat, run s (List.replicate n round).flatten = some s ∧
        (step s (.reserve 0 20 0)).isNone ∧ (step s (.reserve 0 10 0)).isSome ∧ s.jobs.map (·.want) = [20] ∧ s.pend = [] := by
  refine ⟨_, rfl, fun n => ⟨?_, rfl, rfl, rfl, rfl⟩⟩
  induction n with
  | zero => rfl
  | succ n ih => exact ih

/-- C146 fails before the callback has run: after the request that gives a job other limits or requirements is over, a runner of its old
group still gets it. -/
theorem C146_violated_before :
    ∃ s, run {} [.add 1 10 10 0 .ready, .modify 0 1 20 0, .rename] = some s ∧ s.pend = [] ∧ s.jobs.map (·.want) = [20] ∧
      (step s (.reserve 0 10 0)).isSome ∧ QuietRun {} [.add 1 10 10 0 .ready, .modify 0 1 20 0, .rename] :=
  ⟨_, rfl, rfl, rfl, rfl, by decide +kernel⟩

/-- C146 fails for the priority of a job that was run before: only its delay is set back. -/
theorem C146_violated_priority :
    ∃ s, run {} [.add 1 10 10 0 .ready, .reserve 0 10 30, .move 0 .other, .move 0 .ready, .modify 0 1 10 200, .rename, .update 0] = some s ∧
      s.jobs.map (·.prio) = [200] ∧ s.jobs.map (·.qprio) = [0] ∧
      QuietRun {} [.add 1 10 10 0 .ready, .reserve 0 10 30, .move 0 .other, .move 0 .ready, .modify 0 1 10 200, .rename, .update 0] :=
  ⟨_, rfl, rfl, rfl, by decide +kernel⟩

/-- C146 fails if a job is deleted and added again, with other requirements, while the callback deals with it: the new job gets the group
of the old one. -/
theorem C146_violated_again :
    ∃ s, run {} [.add 1 20 10 0 .ready, .start [0], .set, .leave 0, .add 1 30 30 0 .ready, .put, .done] = some s ∧
      s.jobs.map (·.qkey) = [none, some 1] ∧ s.jobs.map (·.want) = [20, 30] ∧
      ∀ n : Nat, run s (List.replicate n [.start [1], .set, .done]).flatten = some s ∧
        (step s (.reserve 1 20 0)).isSome ∧ (step s (.reserve 1 30 0)).isNone := by
  refine ⟨_, rfl, rfl, rfl, fun n => ⟨?_, rfl, rfl⟩⟩
  induction n with
  | zero => rfl
  | succ n ih => exact ih

theorem kept_setAt {l : List Job} {i m : Nat} {f : Job → Job} {a : Job} (hi : l[i]? = some a) (hf : ∀ a, (f a).qkey = a.qkey) :
    ∃ b : Job, (setAt l m f)[i]? = some b ∧ b.qkey = a.qkey := by
  rw [get_setAt, hi]
  split
  · exact ⟨f a, rfl, hf a⟩
  · exact ⟨a, rfl, rfl⟩

theorem kept_setKey {l : List Job} {i k : Nat} {f : Job → Job} {a : Job} (hi : l[i]? = some a) (ha : a.qkey.isSome)
    (hf : ∀ a : Job, a.qkey.isSome → (f a).qkey.isSome) : ∃ b : Job, (setKey l k f)[i]? = some b ∧ b.qkey.isSome := by
  rw [get_setKey, hi]
  refine ⟨_, rfl, ?_⟩
  dsimp only
  split
  · exact hf a ha
  · exact ha

/-- C146: whatever comes between, a job in the queue stays there until it is complete or deleted -/
theorem C146_kept {s s' : St} {e : Ev} (hs : step s e = some s') {i : Nat} (hl : e ≠ .leave i) {a : Job} (hi : s.jobs[i]? = some a)
    (ha : a.qkey.isSome) : ∃ b : Job, s'.jobs[i]? = some b ∧ b.qkey.isSome := by
  have at_ : ∀ {m f}, (∀ a : Job, (f a).qkey = a.qkey) → ∃ b : Job, (setAt s.jobs m f)[i]? = some b ∧ b.qkey.isSome := by
    intro m f hf
    obtain ⟨b, h1, h2⟩ := kept_setAt (m := m) hi hf
    exact ⟨b, h1, h2 ▸ ha⟩
  cases e with
  | add =>
    simp only [step] at hs
    split at hs
    · cases hs
    · cases hs; exact ⟨a, (get_append _ _ _ _).2 (.inl hi), ha⟩
  | rename =>
    simp only [step] at hs
    split at hs
    · cases hs
    · cases hs
      dsimp only
      split
      · exact ⟨a, hi, ha⟩
      · unfold changeKey
        split
        · exact ⟨a, hi, ha⟩
        · exact kept_setKey hi ha fun a _ => rfl
  | update =>
    simp only [step] at hs
    split at hs
    · cases hs
    · cases hs; exact kept_setKey hi ha fun a h => by split <;> exact h
  | put =>
    simp only [step] at hs
    split at hs
    · split at hs
      · cases hs
      · cases hs; exact kept_setKey hi ha fun a h => h
    · cases hs
  | leave m =>
    simp only [step] at hs
    split at hs
    · cases hs
    · split at hs
      · cases hs
        have : m ≠ i := fun hh => hl (by rw [hh])
        refine ⟨a, ?_, ha⟩
        show (setAt _ _ _)[i]? = _
        rw [get_setAt, if_neg this]; exact hi
      · cases hs
  | start =>
    simp only [step] at hs
    split at hs
    · cases hs; exact ⟨a, hi, ha⟩
    · cases hs
  | done =>
    simp only [step] at hs
    split at hs
    · cases hs; exact ⟨a, hi, ha⟩
    · cases hs
  | set =>
    simp only [step] at hs
    split at hs
    · split at hs
      · cases hs
      · split at hs
        · cases hs; exact at_ fun _ => rfl
        · cases hs; exact ⟨a, hi, ha⟩
    · cases hs
  | learn =>
    simp only [step] at hs
    split at hs
    · cases hs; exact at_ fun _ => rfl
    · cases hs
  | modify =>
    simp only [step] at hs
    split at hs
    · cases hs
    · split at hs
      · cases hs; exact at_ fun _ => rfl
      · cases hs
  | reserve =>
    simp only [step] at hs
    split at hs
    · cases hs
    · split at hs
      · cases hs; exact at_ fun _ => rfl
      · cases hs
  | move =>
    simp only [step] at hs
    split at hs
    · cases hs
    · split at hs
      · cases hs; exact at_ fun _ => rfl
      · cases hs

/-- a job is added with the key that another is being given: both stay -/
example : ∃ s s', run {} [.add 1 10 10 0 .ready, .modify 0 2 10 0, .add 2 10 10 0 .ready] = some s ∧ step s .rename = some s' ∧
    s'.jobs.map (·.qkey) = [some 1, some 2] := ⟨_, _, rfl, rfl, rfl⟩

/-- **C146**: in every history, when a job is put in its place in the queue again because its priority or dependencies were changed, it is
handed to runners of the group the server takes it to be in and to no others, if its item has its key and no delay. This frees a job that
is stuck (`C146_violated_stuck`). -/
theorem C146_freed {s s' : St} {i : Nat} {a : Job} (hi : s.jobs[i]? = some a) (hk : a.qkey = some a.key) (hd : a.delay = 0)
    (hr : a.place = .ready) (hs : step s (.update i) = some s') :
    ∀ g d, (step s' (.reserve i g d)).isSome ↔ g = a.sched := by
  simp only [step, hi] at hs
  cases hs
  intro g d
  have hb : (Regroup.update s.jobs a.key a.sched a.prio)[i]? = some { a with qprio := a.prio, rgroup := a.sched } := by
    simp only [Regroup.update]
    rw [get_setKey, hi]
    simp [hk, hd]
  simp only [step, hb, hk, hr]
  constructor
  · intro h
    split at h
    · rename_i hc; exact hc.2.2.symm
    · cases h
  · intro h
    rw [if_pos ⟨rfl, trivial, h.symm⟩]; rfl

/-- the stuck job: runners of the new group get it after a change of its priority, and not before -/
example : ∃ s s' : St, run {} [.add 1 10 10 0 .ready, .start [0], .modify 0 2 20 0, .set, .put, .done, .rename] = some s ∧
    (step s (.reserve 0 20 0)).isNone ∧ s.jobs.map (·.qkey) = s.jobs.map (some ·.key) ∧ step s (.update 0) = some s' ∧
    (step s' (.reserve 0 20 0)).isSome := ⟨_, _, rfl, rfl, rfl, rfl, rfl⟩

end Verif.Server.Regroup
