/-
C111: `wr add --sync`. The specification reads the history of events: how the last run of the job ended, and whether the job was completed
after it was added.
-/
import Verif.Cmd.Sync
namespace Verif.Cmd.Sync

/-- how the last run of the job ended badly: the exit code that was reported, none if the command was not run (or a run goes on) -/
def lastEnd (es : List Ev) : Option Int :=
  es.foldl (fun l e =>
    match e with
    | .end1 code _ => code
    | .reserve => none
    | _ => l) none

/-- the job was completed after our add -/
def CompletedSince (es : List Ev) : Prop := ∃ before rerun after, es = before ++ .add rerun :: after ∧ Ev.archive ∈ after

/-- a run was reported as having ended badly although its exit code was 0 (as happens when files can't be uploaded) -/
def BadZero (es : List Ev) : Prop := ∃ force, Ev.end1 (some 0) force ∈ es

private structure Inv (es : List Ev) (s : S) : Prop where
  fin : s.srv.finishing ≠ none → ∃ sub, s.srv.place = .queued sub ∧ sub ≠ .run
  finCode : ∀ c f, s.srv.finishing = some (c, f) → c = lastEnd es ∧ s.srv.exited = false ∧ s.srv.exit = -1
  codes : ∀ c, lastEnd es = some c → -1 ≤ c ∧ c ≤ 255
  running : s.srv.place = .queued .run → s.srv.exited = false ∧ s.srv.exit = -1 ∧ s.srv.finishing = none
  buried : s.srv.place = .queued .bury → s.srv.finishing = none → s.srv.exit = (lastEnd es).getD (-1)
  done : s.srv.place = .done → s.srv.exit = 0
  zero : ¬ BadZero es → lastEnd es ≠ some 0
  added : s.cli = .idle ∨ ∃ before rerun after, es = before ++ .add rerun :: after
  since : (s.cli = .waiting ∧ s.srv.place = .done) ∨ s.cli = .over 0 → ¬ BadZero es → CompletedSince es
  kept : s.cli ≠ .idle → Ev.delete ∉ es → s.srv.place ≠ .gone

private theorem last_snoc (es : List Ev) (e : Ev) : lastEnd (es ++ [e]) =
    match e with
    | .end1 code _ => code
    | .reserve => none
    | _ => lastEnd es := by
  simp only [lastEnd, List.foldl_append, List.foldl_cons, List.foldl_nil]

private theorem bad_snoc (es : List Ev) (e : Ev) : BadZero (es ++ [e]) ↔ BadZero es ∨ ∃ f, e = .end1 (some 0) f := by
  simp only [BadZero, List.mem_append, List.mem_singleton]
  constructor
  · rintro ⟨f, h | h⟩
    · exact Or.inl ⟨f, h⟩
    · exact Or.inr ⟨f, h.symm⟩
  · rintro (⟨f, h⟩ | ⟨f, h⟩)
    · exact ⟨f, Or.inl h⟩
    · exact ⟨f, Or.inr h.symm⟩

private theorem since_snoc (es : List Ev) (e : Ev) (h : CompletedSince es) : CompletedSince (es ++ [e]) := by
  obtain ⟨b, r, a, rfl, h⟩ := h
  exact ⟨b, r, a ++ [e], by simp, List.mem_append_left _ h⟩

private theorem added_snoc (es : List Ev) (e : Ev) (h : ∃ before rerun after, es = before ++ Ev.add rerun :: after) :
    ∃ before rerun after, es ++ [e] = before ++ Ev.add rerun :: after := by
  obtain ⟨b, r, a, rfl⟩ := h
  exact ⟨b, r, a ++ [e], by simp⟩

private theorem added_archive (es : List Ev) (h : ∃ before rerun after, es = before ++ Ev.add rerun :: after) :
    CompletedSince (es ++ [.archive]) := by
  obtain ⟨b, r, a, rfl⟩ := h
  exact ⟨b, r, a ++ [.archive], by simp, by simp⟩

private theorem status_zero (c : Int) (h : -1 ≤ c ∧ c ≤ 255) : status c = 0 → c = 0 := by
  unfold status; intro h0; omega

private theorem inv_step (tries : Tries) (es : List Ev) (s s' : S) (e : Ev) (hi : Inv es s) (h : step tries s e = some s') :
    Inv (es ++ [e]) s' := by
  obtain ⟨⟨place, exited, exit, started, ub, fin⟩, cli⟩ := s
  obtain ⟨i1, i2, i2', i3, i4, i5, i6, i7, i8, i9⟩ := hi
  simp only at i1 i2 i3 i4 i5 i7 i8 i9
  cases e with
  | add rerun =>
    simp only [step] at h
    split at h
    · rename_i hc
      cases h
      have hnd : ∀ p : Place, (Cli.added = .waiting ∧ p = .done) ∨ Cli.added = .over 0 → False := by
        rintro p (⟨h, _⟩ | h) <;> cases h
      have hfin : place = .gone ∨ place = .done → fin = none := by
        intro hp
        cases hf : fin with
        | none => rfl
        | some x =>
          obtain ⟨sub, h1, _⟩ := i1 (by simp [hf])
          rcases hp with hp | hp <;> rw [hp] at h1 <;> cases h1
      have hadd : Cli.added = .idle ∨ ∃ before r after, es ++ [Ev.add rerun] = before ++ Ev.add r :: after :=
        Or.inr ⟨es, rerun, [], rfl⟩
      simp only [createJob]
      cases hp : place with
      | queued sub =>
        subst hp
        constructor <;> simp only [last_snoc, bad_snoc] <;> first | assumption | (intro h; exact absurd (hnd _ h) (by simp)) | skip
        · intro hb; exact i6 (fun h => hb (Or.inl h))
        · intro _ _ h; cases h
      | done =>
        subst hp
        have := hfin (Or.inr rfl)
        subst this
        by_cases hr : rerun = true
        · simp only [hr, if_true] at hadd ⊢
          constructor <;> simp only [last_snoc, bad_snoc] <;> first | assumption | (intro h; exact absurd (hnd _ h) (by simp)) | simp | skip
          · intro hb; exact i6 (fun h => hb h)
        · simp only [Bool.not_eq_true] at hr
          subst hr
          constructor <;> simp only [last_snoc, bad_snoc] <;> first | assumption | (intro h; exact absurd (hnd _ h) (by simp)) | skip
          · intro hb; exact i6 (fun h => hb (Or.inl h))
          · intro _ _ h; cases h
      | gone =>
        subst hp
        constructor <;> simp only [last_snoc, bad_snoc] <;> first | assumption | (intro h; exact absurd (hnd _ h) (by simp)) | simp | skip
        · intro hb; exact i6 (fun h => hb h)
    · cases h
  | lookup =>
    simp only [step] at h
    split at h
    · rename_i hc
      cases h
      subst hc
      refine ⟨i1, ?_, ?_, i3, ?_, i5, ?_, ?_, ?_, ?_⟩
      · simpa only [last_snoc] using i2
      · simpa only [last_snoc] using i2'
      · simpa only [last_snoc] using i4
      · simp only [last_snoc, bad_snoc]; intro hb; exact i6 (fun h => hb (Or.inl h))
      · exact Or.inr (added_snoc _ _ (i7.resolve_left (by simp)))
      · simp only [lookupIDs]
        cases place <;> simp
      · intro _ hd
        exact i9 (by simp) (fun h => hd (List.mem_append_left _ h))
    · cases h
  | poll =>
    simp only [step] at h
    split at h
    · rename_i hc
      cases h
      subst hc
      refine ⟨i1, ?_, ?_, i3, ?_, i5, ?_, ?_, ?_, ?_⟩
      · simpa only [last_snoc] using i2
      · simpa only [last_snoc] using i2'
      · simpa only [last_snoc] using i4
      · simp only [last_snoc, bad_snoc]; intro hb; exact i6 (fun h => hb (Or.inl h))
      · exact Or.inr (added_snoc _ _ (i7.resolve_left (by simp)))
      · intro h hb
        have hb' : ¬ BadZero es := fun h => hb ((bad_snoc _ _).mpr (Or.inl h))
        apply since_snoc
        simp only [pollJob] at h
        cases place with
        | gone => simp [panicked] at h
        | done => exact i8 (Or.inl ⟨rfl, rfl⟩) hb'
        | queued sub =>
          cases sub with
          | waiting => simp at h
          | run => simp at h
          | bury =>
            simp only [reduceCtorEq, and_false, false_or, Cli.over.injEq] at h
            exfalso
            cases fin with
            | none =>
              have hx := i4 rfl rfl
              cases hl : lastEnd es with
              | none => rw [hl] at hx; simp only [Option.getD_none] at hx; subst hx; simp [status] at h
              | some c =>
                rw [hl] at hx; simp only [Option.getD_some] at hx; subst hx
                have := status_zero exit (i2' _ hl) h
                subst this
                exact i6 hb' hl
            | some x =>
              have := (i2 x.1 x.2 rfl).2.2
              subst this
              simp [status] at h
      · intro _ hd
        exact i9 (by simp) (fun h => hd (List.mem_append_left _ h))
    · cases h
  | otherAdd rerun =>
    simp only [step, Option.some.injEq] at h
    subst h
    have hfin : place = .gone ∨ place = .done → fin = none := by
      intro hp
      cases hf : fin with
      | none => rfl
      | some x =>
        obtain ⟨sub, h1, _⟩ := i1 (by simp [hf])
        rcases hp with hp | hp <;> rw [hp] at h1 <;> cases h1
    have h6 : ¬ BadZero (es ++ [Ev.otherAdd rerun]) → lastEnd (es ++ [Ev.otherAdd rerun]) ≠ some 0 := by
      simp only [last_snoc, bad_snoc]; intro hb; exact i6 (fun h => hb (Or.inl h))
    have h7 : cli = .idle ∨ ∃ before r after, es ++ [Ev.otherAdd rerun] = before ++ Ev.add r :: after := i7.imp id (added_snoc _ _)
    have h8 : (cli = .waiting ∧ place = .done) ∨ cli = .over 0 → ¬ BadZero (es ++ [Ev.otherAdd rerun]) → CompletedSince (es ++ [Ev.otherAdd rerun]) :=
      fun h hb => since_snoc _ _ (i8 h (fun h => hb ((bad_snoc _ _).mpr (Or.inl h))))
    have h2' : ∀ c, lastEnd (es ++ [Ev.otherAdd rerun]) = some c → -1 ≤ c ∧ c ≤ 255 := by simpa only [last_snoc] using i2'
    have hsame : Inv (es ++ [Ev.otherAdd rerun]) ⟨⟨place, exited, exit, started, ub, fin⟩, cli⟩ := by
      refine ⟨i1, ?_, h2', i3, ?_, i5, h6, h7, h8, ?_⟩
      · simpa only [last_snoc] using i2
      · simpa only [last_snoc] using i4
      · intro hc hd; exact i9 hc (fun h => hd (List.mem_append_left _ h))
    have hnew : Inv (es ++ [Ev.otherAdd rerun]) ⟨{ place := .queued .waiting, untilBuried := tries }, cli⟩ := by
      refine ⟨by simp, by simp, h2', by simp, by simp, by simp, h6, h7, ?_, by simp⟩
      rintro (⟨_, h⟩ | h) hb
      · cases h
      · exact h8 (Or.inr h) hb
    simp only [createJob]
    cases place with
    | queued sub => exact hsame
    | gone => exact hnew
    | done =>
      cases rerun with
      | true => exact hnew
      | false => exact hsame
  | reserve =>
    simp only [step] at h
    split at h
    · rename_i hc
      obtain ⟨hp, hf⟩ := hc
      subst hp; subst hf
      cases h
      refine ⟨by simp, by simp, ?_, by simp, by simp, by simp, ?_, ?_, ?_, by simp⟩
      · simp [last_snoc]
      · simp [last_snoc]
      · exact i7.imp id (added_snoc _ _)
      · rintro (⟨_, h⟩ | h) hb
        · cases h
        · exact since_snoc _ _ (i8 (Or.inr h) (fun h => hb ((bad_snoc _ _).mpr (Or.inl h))))
    · cases h
  | start =>
    simp only [step] at h
    split at h
    · rename_i hp
      subst hp
      cases h
      refine ⟨i1, ?_, ?_, i3, ?_, i5, ?_, ?_, ?_, by simp⟩
      · simpa only [last_snoc] using i2
      · simpa only [last_snoc] using i2'
      · simpa only [last_snoc] using i4
      · simp only [last_snoc, bad_snoc]; intro hb; exact i6 (fun h => hb (Or.inl h))
      · exact i7.imp id (added_snoc _ _)
      · exact fun h hb => since_snoc _ _ (i8 h (fun h => hb ((bad_snoc _ _).mpr (Or.inl h))))
    · cases h
  | end1 code force =>
    simp only [step] at h
    split at h
    · rename_i hc
      obtain ⟨hp, hf, hcode⟩ := hc
      subst hp; subst hf
      cases h
      obtain ⟨h1, h2, _⟩ := i3 rfl
      have hpl : ∃ sub, endMove force ⟨.queued .run, exited, exit, started, ub, none⟩ = .queued sub ∧ sub ≠ .run := by
        simp only [endMove]; split
        · exact ⟨_, rfl, by simp⟩
        · exact ⟨_, rfl, by simp⟩
      obtain ⟨sub, hs, hne⟩ := hpl
      refine ⟨fun _ => ⟨sub, hs, hne⟩, ?_, ?_, ?_, ?_, ?_, ?_, ?_, ?_, ?_⟩
      · intro c f hcf; simp only [Option.some.injEq, Prod.mk.injEq] at hcf
        simp only [last_snoc]; exact ⟨hcf.1.symm, h1, h2⟩
      · simp only [last_snoc]; intro c hc; exact hcode c hc
      · intro hr; simp only [hs] at hr; cases hr; exact absurd rfl hne
      · intro _ h; cases h
      · intro hd; simp only [hs] at hd; cases hd
      · simp only [last_snoc, bad_snoc]
        intro hb hz; exact hb (Or.inr ⟨force, by rw [hz]⟩)
      · exact i7.imp id (added_snoc _ _)
      · rintro (⟨_, h⟩ | h) hb
        · simp only [hs] at h; cases h
        · exact since_snoc _ _ (i8 (Or.inr h) (fun h => hb ((bad_snoc _ _).mpr (Or.inl h))))
      · intro _ _ h; simp only [hs] at h; cases h
    · cases h
  | end2 =>
    simp only [step] at h
    split at h
    · rename_i code force
      cases h
      obtain ⟨sub, hs, hne⟩ := i1 (by simp)
      subst hs
      obtain ⟨h1, h2, h3⟩ := i2 code force rfl
      subst h2; subst h3
      have hex : (endUpdate code force ⟨.queued sub, false, -1, started, ub, some (code, force)⟩).exit = (lastEnd es).getD (-1) ∧
          (endUpdate code force ⟨.queued sub, false, -1, started, ub, some (code, force)⟩).place = .queued sub ∧
          (endUpdate code force ⟨.queued sub, false, -1, started, ub, some (code, force)⟩).finishing = none := by
        rw [← h1]
        cases code <;> simp [endUpdate]
      obtain ⟨e1, e2, e3⟩ := hex
      refine ⟨?_, ?_, ?_, ?_, ?_, ?_, ?_, ?_, ?_, ?_⟩
      · intro h; exact absurd e3 h
      · intro c f h; simp only [e3] at h; cases h
      · simpa only [last_snoc] using i2'
      · intro hr; simp only [e2] at hr; cases hr; exact absurd rfl hne
      · intro _ _; simp only [last_snoc]; exact e1
      · intro hd; simp only [e2] at hd; cases hd
      · simp only [last_snoc, bad_snoc]; intro hb; exact i6 (fun h => hb (Or.inl h))
      · exact i7.imp id (added_snoc _ _)
      · rintro (⟨_, h⟩ | h) hb
        · simp only [e2] at h; cases h
        · exact since_snoc _ _ (i8 (Or.inr h) (fun h => hb ((bad_snoc _ _).mpr (Or.inl h))))
      · intro _ _ h; simp only [e2] at h; cases h
    · cases h
  | archive =>
    simp only [step] at h
    split at h
    · rename_i hc
      obtain ⟨hp, hst, hf⟩ := hc
      subst hp; subst hf
      cases h
      refine ⟨by simp, by simp, ?_, by simp, by simp, by simp, ?_, ?_, ?_, by simp⟩
      · simpa only [last_snoc] using i2'
      · simp only [last_snoc, bad_snoc]; intro hb; exact i6 (fun h => hb (Or.inl h))
      · exact i7.imp id (added_snoc _ _)
      · rintro (⟨hw, _⟩ | h) hb
        · exact added_archive _ (i7.resolve_left (by simp only at hw; simp [hw]))
        · exact since_snoc _ _ (i8 (Or.inr h) (fun h => hb ((bad_snoc _ _).mpr (Or.inl h))))
    · cases h
  | kick =>
    simp only [step] at h
    split at h
    · rename_i hc
      obtain ⟨hp, hf⟩ := hc
      subst hp; subst hf
      cases h
      refine ⟨by simp, by simp, ?_, by simp, by simp, by simp, ?_, ?_, ?_, by simp⟩
      · simpa only [last_snoc] using i2'
      · simp only [last_snoc, bad_snoc]; intro hb; exact i6 (fun h => hb (Or.inl h))
      · exact i7.imp id (added_snoc _ _)
      · rintro (⟨_, h⟩ | h) hb
        · cases h
        · exact since_snoc _ _ (i8 (Or.inr h) (fun h => hb ((bad_snoc _ _).mpr (Or.inl h))))
    · cases h
  | delete =>
    simp only [step] at h
    split at h
    · rename_i hc
      obtain ⟨hp, hf⟩ := hc
      subst hf
      cases h
      refine ⟨by simp, by simp, ?_, by simp, by simp, by simp, ?_, ?_, ?_, ?_⟩
      · simpa only [last_snoc] using i2'
      · simp only [last_snoc, bad_snoc]; intro hb; exact i6 (fun h => hb (Or.inl h))
      · exact i7.imp id (added_snoc _ _)
      · rintro (⟨_, h⟩ | h) hb
        · cases h
        · exact since_snoc _ _ (i8 (Or.inr h) (fun h => hb ((bad_snoc _ _).mpr (Or.inl h))))
      · intro _ hd; exact absurd (by simp) hd
    · cases h

private theorem inv_run (tries : Tries) (es : List Ev) : ∀ (pre : List Ev) (s s' : S), Inv pre s → run tries s es = some s' → Inv (pre ++ es) s' := by
  induction es with
  | nil => intro pre s s' hi h; simp only [run, Option.some.injEq] at h; subst h; simpa using hi
  | cons e es ih =>
    intro pre s s' hi h
    simp only [run] at h
    split at h
    · rename_i s1 h1
      have := ih (pre ++ [e]) s1 s' (inv_step tries pre s s1 e hi h1) h
      simpa using this
    · cases h

private theorem inv_init : Inv [] {} :=
  ⟨by simp, by simp, by simp [lastEnd], by simp, by simp, by simp, by simp [lastEnd], Or.inl rfl, by simp, by simp⟩

private theorem inv (tries : Tries) (es : List Ev) (s : S) (h : run tries {} es = some s) : Inv es s := by
  simpa using inv_run tries es [] {} s inv_init h

/-- C111: if `wr add --sync` exits with 0, the job was completed after it was added. (Partial: it needs that no run of the job was
reported as failed with exit code 0; see `C111_violated_upload`.) -/
theorem C111_zero_partial (tries : Tries) (es : List Ev) (s : S) (h : run tries {} es = some s) (h0 : s.cli = .over 0)
    (hb : ¬ BadZero es) : CompletedSince es := (inv tries es s h).since (Or.inr h0) hb

/-- C111: what a look at the job does: it exits with 0 if the job is complete, waits on if it's in the queue and not buried, and if
it's buried and the server is through with that exits with the exit code that the last run ended with, 255 if the command was not
run or was killed by a signal. (Partial: while the server is still at it, the exit code is 255 whatever it should be; and if the job is
not there any more the command panics; see the `violated` theorems.) -/
theorem C111_poll_partial (tries : Tries) (es : List Ev) (s s' : S) (h : run tries {} es = some s) (hp : step tries s .poll = some s') :
    (s.srv.place = .done → s'.cli = .over 0) ∧
    (s.srv.place = .queued .waiting ∨ s.srv.place = .queued .run → s'.cli = .waiting) ∧
    (s.srv.place = .queued .bury → s.srv.finishing = none → s'.cli = .over (match lastEnd es with
      | some c => if c = -1 then 255 else c.toNat
      | none => 255)) := by
  have hi := inv tries es s h
  simp only [step] at hp
  split at hp
  · cases hp
    refine ⟨?_, ?_, ?_⟩
    · intro hd
      simp [pollJob, hd, hi.done hd, status]
    · rintro (hd | hd) <;> simp [pollJob, hd]
    · intro hd hf
      simp only [pollJob, hd, hi.buried hd hf]
      cases hl : lastEnd es with
      | none => simp [status]
      | some c =>
        have := hi.codes c hl
        simp only [Option.getD_some, status]
        split
        · rename_i hc; subst hc; rfl
        · congr 2; omega
  · cases hp

/-- C111: the job that is waited for is there, as long as nobody deletes it. -/
theorem C111_there (tries : Tries) (es : List Ev) (s : S) (h : run tries {} es = some s) (hc : s.cli ≠ .idle) (hd : Ev.delete ∉ es) :
    s.srv.place ≠ .gone := (inv tries es s h).kept hc hd

/-- a job that fails once with 3 and then completes -/
private def exRun : List Ev := [.add false, .lookup, .poll, .reserve, .start, .end1 (some 3) false, .end2, .poll, .reserve, .start, .archive, .poll]

example : ∃ s, run 2 {} exRun = some s ∧ s.cli = .over 0 ∧ ¬ BadZero exRun := by
  refine ⟨_, rfl, rfl, ?_⟩
  rintro ⟨f, h⟩
  revert h; cases f <;> decide
example : ∃ s s', run 1 {} [.add false, .lookup, .reserve, .start, .end1 (some 3) false, .end2] = some s ∧ step 1 s .poll = some s' ∧
    s'.cli = .over 3 := ⟨_, _, rfl, rfl, rfl⟩

/-- what the events say of the tries of the job since it was last put into the queue or kicked -/
inductive Whereabouts where
  | gone
  | live
  | done
deriving DecidableEq

structure Story where
  at_ : Whereabouts := .gone
  /-- the current run was started -/
  started : Bool := false
  /-- the last run that ended asked for burying -/
  forced : Bool := false
  /-- started runs that ended badly without asking for burying -/
  spent : Nat := 0
deriving DecidableEq

def Story.next (h : Story) : Ev → Story
  | .add rerun | .otherAdd rerun => if h.at_ = .gone ∨ (h.at_ = .done ∧ rerun = true) then { at_ := .live } else h
  | .reserve => { h with started := false }
  | .start => { h with started := true }
  | .end1 _ force => { h with forced := force, spent := if h.started && !force then h.spent + 1 else h.spent }
  | .archive => { h with at_ := .done }
  | .kick => { h with forced := false, spent := 0 }
  | .delete => {}
  | _ => h

def story (es : List Ev) : Story := es.foldl Story.next {}

private structure TriesInv (tries : Tries) (h : Story) (j : Srv) : Prop where
  gone : j.place = .gone → h.at_ = .gone ∧ j.finishing = none
  done : j.place = .done → h.at_ = .done ∧ j.finishing = none
  live : ∀ q, j.place = .queued q → h.at_ = .live
  running : j.place = .queued .run → j.started = h.started ∧ j.finishing = none
  ending : ∀ e, j.finishing = some e → j.started = h.started
  left : j.place = .queued .waiting ∨ j.place = .queued .run → h.forced = false ∧ h.spent < tries ∧
    (j.finishing = none → j.untilBuried + h.spent = tries) ∧
    (∀ e, j.finishing = some e → e.2 = false ∧ j.untilBuried + h.spent = tries + if h.started then 1 else 0)
  buried : j.place = .queued .bury → h.forced = true ∨ h.spent = tries

private theorem tries_create (tries : Tries) (ht : 0 < tries) (h : Story) (j : Srv) (rerun : Bool) (i : TriesInv tries h j) :
    TriesInv tries (if h.at_ = .gone ∨ (h.at_ = .done ∧ rerun = true) then { at_ := .live } else h) (createJob tries rerun j) := by
  have fresh : TriesInv tries { at_ := .live } { place := .queued .waiting, untilBuried := tries } :=
    { gone := by simp, done := by simp, live := by simp, running := by simp, ending := by simp,
      left := by simp [ht], buried := by simp }
  unfold createJob
  cases hp : j.place with
  | gone => simp [(i.gone hp).1, fresh]
  | queued q =>
    have := i.live q hp
    simp [this, i]
  | done =>
    have := (i.done hp).1
    cases rerun
    · simp [this, i]
    · simp [this, fresh]

private theorem tries_step (tries : Tries) (ht : 0 < tries) (h : Story) (s s' : S) (e : Ev) (i : TriesInv tries h s.srv)
    (hs : step tries s e = some s') : TriesInv tries (h.next e) s'.srv := by
  cases e with
  | add rerun =>
    simp only [step] at hs
    split at hs
    · cases hs; exact tries_create tries ht h s.srv rerun i
    · cases hs
  | otherAdd rerun => simp only [step] at hs; cases hs; exact tries_create tries ht h s.srv rerun i
  | lookup => simp only [step] at hs; split at hs <;> cases hs; exact i
  | poll => simp only [step] at hs; split at hs <;> cases hs; exact i
  | reserve =>
    simp only [step] at hs
    split at hs
    · rename_i hc
      cases hs
      have l := i.left (Or.inl hc.1)
      exact { gone := by simp, done := by simp, live := fun _ _ => i.live _ hc.1, running := by simp [Story.next, hc.2],
              ending := by simp [Story.next], left := by simp [Story.next, hc.2, l.1, l.2.1, l.2.2.1 hc.2], buried := by simp }
    · cases hs
  | start =>
    simp only [step] at hs
    split at hs
    · rename_i hc
      cases hs
      have l := i.left (Or.inr hc)
      have f := (i.running hc).2
      exact { gone := by simp [hc], done := by simp [hc], live := fun _ _ => i.live _ hc, running := by simp [Story.next, f],
              ending := by simp [f], left := by simp [Story.next, f, l.1, l.2.1, l.2.2.1 f], buried := by simp [hc] }
    · cases hs
  | end1 code force =>
    simp only [step] at hs
    split at hs
    · rename_i hc
      cases hs
      have l := i.left (Or.inr hc.1)
      have lv := i.live _ hc.1
      have st := (i.running hc.1).1
      have un := l.2.2.1 hc.2.1
      have hlt := l.2.1
      cases force with
      | true =>
        exact { gone := by simp [endMove], done := by simp [endMove], live := by simp [Story.next, lv], running := by simp [endMove],
                ending := by simp [Story.next, st], left := by simp [endMove], buried := by simp [Story.next] }
      | false =>
        cases hst : h.started with
        | false =>
          rw [hst] at st
          exact { gone := by simp [endMove, st], done := by simp [endMove, st], live := by simp [Story.next, lv], running := by simp [endMove, st],
                  ending := by simp [Story.next, st, hst], left := by simp [Story.next, hst, hlt, un], buried := by simp [endMove, st] }
        | true =>
          rw [hst] at st
          by_cases h1 : s.srv.untilBuried = 1
          · exact { gone := by simp [endMove, st, h1], done := by simp [endMove, st, h1], live := by simp [Story.next, lv],
                    running := by simp [endMove, st, h1], ending := by simp [Story.next, st, hst], left := by simp [endMove, st, h1],
                    buried := by simp [Story.next, hst]; omega }
          · exact { gone := by simp [endMove, st, h1], done := by simp [endMove, st, h1], live := by simp [Story.next, lv],
                    running := by simp [endMove, st, h1], ending := by simp [Story.next, st, hst],
                    left := by simp [Story.next, hst]; omega
                    buried := by simp [endMove, st, h1] }
    · cases hs
  | end2 =>
    simp only [step] at hs
    split at hs
    · rename_i code force hf
      cases hs
      have st := i.ending _ hf
      have hpl : (endUpdate code force s.srv).place = s.srv.place := by unfold endUpdate; split <;> (try split) <;> rfl
      have hfn : (endUpdate code force s.srv).finishing = none := rfl
      have hub : (endUpdate code force s.srv).untilBuried = if force then 0 else if s.srv.started then s.srv.untilBuried - 1 else s.srv.untilBuried := by
        unfold endUpdate; split <;> (try split) <;> rfl
      exact {
        gone := by rw [hpl]; intro hp; have := (i.gone hp).2; rw [hf] at this; cases this
        done := by rw [hpl]; intro hp; have := (i.done hp).2; rw [hf] at this; cases this
        live := by rw [hpl]; exact i.live
        running := by rw [hpl]; intro hp; have := (i.running hp).2; rw [hf] at this; cases this
        ending := by rw [hfn]; intro e he; cases he
        left := by
          rw [hpl, hfn, hub]
          intro hp
          obtain ⟨l1, l2, -, l4⟩ := i.left hp
          obtain ⟨l5, l6⟩ := l4 _ hf
          simp only at l5
          refine ⟨l1, l2, ?_, by simp⟩
          intro _
          rw [l5, st]
          show (if false = true then 0 else if h.started then s.srv.untilBuried - 1 else s.srv.untilBuried) + h.spent = tries
          cases hst : h.started <;> simp [hst] at l6 ⊢ <;> omega
        buried := by rw [hpl]; exact i.buried }
    · cases hs
  | archive =>
    simp only [step] at hs
    split at hs
    · rename_i hc
      cases hs
      exact { gone := by simp, done := by simp [Story.next, hc.2.2], live := by simp, running := by simp,
              ending := by simp [hc.2.2], left := by simp, buried := by simp }
    · cases hs
  | kick =>
    simp only [step] at hs
    split at hs
    · rename_i hc
      cases hs
      exact { gone := by simp, done := by simp, live := fun _ _ => i.live _ hc.1, running := by simp,
              ending := by simp [hc.2], left := by simp [Story.next, hc.2, ht], buried := by simp }
    · cases hs
  | delete =>
    simp only [step] at hs
    split at hs
    · rename_i hc
      cases hs
      exact { gone := by simp [Story.next, hc.2], done := by simp, live := by simp, running := by simp,
              ending := by simp [hc.2], left := by simp, buried := by simp }
    · cases hs

private theorem tries_run (tries : Tries) (ht : 0 < tries) : ∀ (es : List Ev) (h : Story) (s s' : S), TriesInv tries h s.srv →
    run tries s es = some s' → TriesInv tries (es.foldl Story.next h) s'.srv
  | [], h, s, s', i, hr => by cases hr; exact i
  | e :: es, h, s, s', i, hr => by
    simp only [run] at hr
    split at hr
    · rename_i s1 h1
      exact tries_run tries ht es _ s1 s' (tries_step tries ht h s s1 e i h1) hr
    · cases hr

/-- C111: the job that is waited for is buried exactly when its last run asked for that or it has used up all its tries since it was
put into the queue or kicked, a run that was not started costing none. -/
theorem C111_tries (tries : Tries) (ht : 0 < tries) (es : List Ev) (s : S) (h : run tries {} es = some s) (q : Sub)
    (hq : s.srv.place = .queued q) : q = .bury ↔ ((story es).forced = true ∨ (story es).spent = tries) := by
  have i := tries_run tries ht es {} {} s
    { gone := by simp, done := by simp, live := by simp, running := by simp, ending := by simp, left := by simp, buried := by simp } h
  cases q with
  | bury => exact ⟨fun _ => i.buried hq, fun _ => rfl⟩
  | waiting =>
    obtain ⟨l1, l2, -, -⟩ := i.left (Or.inl hq)
    refine ⟨fun h => (by cases h), fun h => ?_⟩
    rcases h with h | h
    · rw [show (story es).forced = false from l1] at h; cases h
    · have : (story es).spent < tries := l2
      omega
  | run =>
    obtain ⟨l1, l2, -, -⟩ := i.left (Or.inr hq)
    refine ⟨fun h => (by cases h), fun h => ?_⟩
    rcases h with h | h
    · rw [show (story es).forced = false from l1] at h; cases h
    · have : (story es).spent < tries := l2
      omega

example : ∃ s, run 2 {} [.add false, .reserve, .end1 none false, .end2, .reserve, .start, .end1 (some 3) false, .end2, .reserve, .start,
    .end1 (some 4) false] = some s ∧ s.srv.place = .queued .bury := ⟨_, rfl, rfl⟩

/-- C111 is violated: a job whose last try exits with 0 but can't upload its files is buried, and the command exits with 0. -/
theorem C111_violated_upload : ∃ es s, run 1 {} es = some s ∧ s.cli = .over 0 ∧ s.srv.place = .queued .bury ∧ Ev.archive ∉ es :=
  ⟨[.add false, .lookup, .reserve, .start, .end1 (some 0) false, .end2, .poll], _, rfl, rfl, rfl, by decide⟩

/-- C111 is violated: whatever a command that is to be buried exits with, a look at the wrong moment makes it 255. -/
theorem C111_violated_early (c : Nat) (hc : c ≤ 255) : ∃ es s, run 1 {} es = some s ∧ lastEnd es = some (c : Int) ∧ s.cli = .over 255 := by
  have hr : (∀ x ∈ (some (c : Int)), -1 ≤ x ∧ x ≤ 255) := by
    intro x hx; simp only [Option.mem_def, Option.some.injEq] at hx; omega
  refine ⟨[.add false, .lookup, .reserve, .start, .end1 (some (c : Int)) false, .poll],
    ⟨{ place := .queued .bury, exit := -1, started := true, untilBuried := 1, finishing := some (some (c : Int), false) }, .over 255⟩, ?_, ?_, rfl⟩
  · have h1 : (-1 : Int) ≤ (c : Int) := by omega
    have h2 : (c : Int) ≤ 255 := by omega
    simp [run, step, createJob, lookupIDs, endMove, pollJob, status, h1, h2]
  · rfl

/-- C111 is violated: if the job is completed before the server has looked for its id, the command exits with 1. -/
theorem C111_violated_quick : ∃ es s, run 1 {} es = some s ∧ CompletedSince es ∧ s.cli = .over 1 :=
  ⟨[.add false, .reserve, .start, .archive, .lookup], _, rfl, ⟨[], false, [.reserve, .start, .archive, .lookup], rfl, by decide⟩, rfl⟩

/-- C111 is violated: for a job that has already been completed the command exits with 1. -/
theorem C111_violated_complete : ∃ es s, run 1 {} es = some s ∧ s.srv.place = .done ∧ s.srv.exit = 0 ∧ s.cli = .over 1 :=
  ⟨[.otherAdd false, .reserve, .start, .archive, .add false, .lookup], _, rfl, rfl, rfl, rfl⟩

/-- C111 is violated: if someone deletes the job, the command panics. -/
theorem C111_violated_deleted : ∃ es s, run 1 {} es = some s ∧ s.cli = .over panicked :=
  ⟨[.add false, .lookup, .delete, .poll], _, rfl, rfl⟩

/-- C111 is violated: for a job that is buried already, the command exits with the exit code of an earlier run: the job is not run. -/
theorem C111_violated_buried : ∃ before after s, run 1 {} (before ++ .add false :: after) = some s ∧ s.cli = .over 3 ∧ Ev.start ∉ after :=
  ⟨[.otherAdd false, .reserve, .start, .end1 (some 3) false, .end2], [.lookup, .poll], _, rfl, rfl, by decide⟩

end Verif.Cmd.Sync
