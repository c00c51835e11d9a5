import Verif.Server.Modes

/-!
# C22, C59, C60: pause, resume and drain

The specification keeps only two things about the past: whether a `Drain` succeeded, and how
many pauses have not been undone.
-/

namespace Verif.Server

/-- The specification's state. -/
structure Spec where
  drained : Bool := false
  depth : Nat := 0

/-- What each call should do and return, on a server that is up. -/
def Spec.step (s : Spec) : MOp → Spec × MRes
  | .drain => ({ s with drained := true }, .done)
  | .pause =>
    if s.drained then (s, .err .beingDrained)
    else ({ s with depth := s.depth + 1 }, .flag (s.depth == 0))
  | .resume =>
    if s.drained then (s, .err .beingDrained)
    else ({ s with depth := s.depth - 1 }, .flag (s.depth == 1))
  | .stop => (s, .done)

/-- The specification over a sequence of calls. -/
def Spec.run (s : Spec) : List MOp → Spec × List MRes
  | [] => (s, [])
  | o :: os => ((Spec.run (s.step o).1 os).1, (s.step o).2 :: (Spec.run (s.step o).1 os).2)

/-- The relation between the server and the specification. -/
def Rel (m : MSt) (s : Spec) : Prop :=
  m.up = true ∧
  (if s.drained then m.drain = true ∧ m.mode = .drain
   else m.pauses = s.depth ∧ m.drain = decide (0 < s.depth) ∧
     m.mode = if 0 < s.depth then .pause else .normal)

theorem rel_step {m : MSt} {s : Spec} (h : Rel m s) {o : MOp} (ho : o ≠ .stop) :
    Rel (mstep m o).1 (s.step o).1 ∧ (mstep m o).2 = (s.step o).2 := by
  obtain ⟨up, dr, md, ps⟩ := m
  obtain ⟨d, n⟩ := s
  obtain ⟨h1, h2⟩ := h
  simp only at h1 h2
  subst h1
  cases d with
  | true =>
    simp only [if_true] at h2
    obtain ⟨rfl, rfl⟩ := h2
    cases o <;> simp [mstep, drain, pause, resume, Spec.step, Rel, ofUnit, ofBool] at ho ⊢
  | false =>
    simp only [Bool.false_eq_true, if_false] at h2
    obtain ⟨rfl, rfl, rfl⟩ := h2
    cases n with
    | zero =>
      cases o <;> simp [mstep, drain, pause, resume, Spec.step, Rel, ofUnit, ofBool] at ho ⊢
    | succ k =>
      cases k with
      | zero =>
        cases o <;> simp [mstep, drain, pause, resume, Spec.step, Rel, ofUnit, ofBool] at ho ⊢
      | succ j =>
        cases o <;> simp [mstep, drain, pause, resume, Spec.step, Rel, ofUnit, ofBool] at ho ⊢
        · omega

theorem rel_run {m : MSt} {s : Spec} (h : Rel m s) :
    ∀ {os : List MOp}, (∀ o ∈ os, o ≠ .stop) →
      Rel (mrun m os).1 (s.run os).1 ∧ (mrun m os).2 = (s.run os).2 := by
  intro os
  induction os generalizing m s with
  | nil => intro _; exact ⟨h, rfl⟩
  | cons o os ih =>
    intro ho
    have h1 := rel_step h (ho o (List.mem_cons_self ..))
    have h2 := ih h1.1 (fun o' h' => ho o' (List.mem_cons_of_mem _ h'))
    simp only [mrun, Spec.run]
    exact ⟨h2.1, by rw [h1.2, h2.2]⟩

/-- **C22.** After any sequence of Pause, Resume and Drain calls on a server that was just
started, every call returned what the specification says, and jobs can be reserved iff there was
no Drain and no pause is outstanding. -/
theorem C22_modes (os : List MOp) (ho : ∀ o ∈ os, o ≠ .stop) :
    (mrun {} os).2 = (Spec.run {} os).2 ∧
    (open' (mrun {} os).1 = true ↔
      (Spec.run {} os).1.drained = false ∧ (Spec.run {} os).1.depth = 0) := by
  have h : Rel {} {} := by simp [Rel]
  have h1 := rel_run h ho
  refine ⟨h1.2, ?_⟩
  obtain ⟨hu, h2⟩ := h1.1
  generalize (Spec.run {} os).1 = sp at h2
  generalize (mrun {} os).1 = m at h2 hu
  obtain ⟨d, n⟩ := sp
  cases d
  · simp only [Bool.false_eq_true, if_false] at h2
    simp [open', hu, h2.2.1]
  · simp only [if_true] at h2
    simp [open', h2.1]

example : (mrun {} [.pause, .pause, .resume, .resume, .resume, .pause, .drain, .resume]).2 =
    [.flag true, .flag false, .flag false, .flag true, .flag false, .flag true, .done,
     .err .beingDrained] := by decide +kernel

/-- The specification in words of the calls alone: once drained, always drained. -/
theorem spec_drained (s : Spec) (hs : s.drained = true) (os : List MOp) :
    (s.run os).1.drained = true := by
  induction os generalizing s with
  | nil => exact hs
  | cons o os ih =>
    simp only [Spec.run]
    apply ih
    cases o <;> simp [Spec.step, hs]

/-- **C22, drain is final.** After a Drain, whatever calls come before or after it (Stop
included), nothing can be reserved. -/
theorem C22_drain_final (os os' : List MOp) :
    open' (mrun {} (os ++ .drain :: os')).1 = false := by
  have key : ∀ (os : List MOp) (m : MSt), (m.up = true → m.drain = true ∧ m.mode = .drain) →
      open' (mrun m os).1 = false := by
    intro os
    induction os with
    | nil =>
      intro m h
      cases hu : m.up
      · simp [mrun, open', hu]
      · simp [mrun, open', (h hu).1]
    | cons o os ih =>
      intro m h
      simp only [mrun]
      apply ih
      cases hu : m.up
      · cases o <;> simp [mstep, drain, pause, resume, stop, hu]
      · obtain ⟨h1, h2⟩ := h hu
        cases o <;> simp [mstep, drain, pause, resume, stop, hu, h1, h2]
  have app : ∀ (os : List MOp) (m : MSt), (mrun m (os ++ .drain :: os')).1 =
      (mrun (mstep (mrun m os).1 .drain).1 os').1 := by
    intro os
    induction os with
    | nil => intro m; rfl
    | cons o os ih => intro m; simp only [List.cons_append, mrun]; exact ih _
  rw [app]
  apply key
  intro hu
  generalize (mrun {} os).1 = m at hu ⊢
  obtain ⟨up, dr, md, ps⟩ := m
  cases up <;> cases dr <;> cases md <;> simp [mstep, drain] at hu ⊢

example : (mrun {} [.pause, .drain, .resume, .pause, .stop]).2 =
    [.flag true, .done, .err .beingDrained, .err .beingDrained, .done] := by decide +kernel

/-! ## C59: what a user pauses stays paused -/

/-- Client requests that are not interrupted by others. -/
inductive Whole where
  | pause | resume | drain | jmod
  deriving DecidableEq, Repr

/-- serverCLI.go:88-112, 470-600: the steps of an uninterrupted request. -/
def whole (m : MSt) : Whole → MSt
  | .pause =>
    match pause m with
    | (m', .ok false) => (resume m').1
    | (m', _) => m'
  | .resume => (resume m).1
  | .drain => (drain m).1
  | .jmod =>
    match pause m with
    | (m', .ok _) => (resume m').1
    | (m', _) => m'

/-- Was the last pause or resume request a pause? -/
def userPaused : List Whole → Bool → Bool
  | [], b => b
  | .pause :: os, _ => userPaused os true
  | .resume :: os, _ => userPaused os false
  | _ :: os, b => userPaused os b

/-- **C59 (partial: requests that do not overlap).** Jobs can be reserved iff there was no drain
request and the last pause or resume request (if any) was a resume. Missing: overlapping
requests, see `C59_violated`. -/
theorem C59_partial (os : List Whole) :
    open' (os.foldl whole {}) = (!(os.contains .drain) && !userPaused os false) := by
  have key : ∀ (os : List Whole) (b : Bool),
      open' (os.foldl whole (if b then { drain := true, mode := .pause, pauses := 1 } else {})) =
        (!(os.contains .drain) && !userPaused os b) := by
    intro os
    induction os with
    | nil => intro b; cases b <;> rfl
    | cons o os ih =>
      intro b
      have dr : ∀ (os : List Whole) (n : Int),
          open' (os.foldl whole { drain := true, mode := .drain, pauses := n }) = false := by
        intro os n
        induction os with
        | nil => rfl
        | cons o os ih' => cases o <;> exact ih'
      cases o with
      | pause =>
        have e := ih true
        have h : whole (if b then { drain := true, mode := .pause, pauses := 1 } else {}) .pause
            = { drain := true, mode := .pause, pauses := 1 } := by cases b <;> rfl
        simp only [List.foldl_cons, h, userPaused]
        simpa using e
      | resume =>
        have e := ih false
        have h : whole (if b then { drain := true, mode := .pause, pauses := 1 } else {}) .resume
            = {} := by cases b <;> rfl
        simp only [List.foldl_cons, h, userPaused]
        simpa using e
      | jmod =>
        have e := ih b
        have h : whole (if b then { drain := true, mode := .pause, pauses := 1 } else {}) .jmod
            = (if b then { drain := true, mode := .pause, pauses := 1 } else {}) := by
          cases b <;> rfl
        simp only [List.foldl_cons, h, userPaused]
        simpa using e
      | drain =>
        have h : ∃ n, whole (if b then { drain := true, mode := .pause, pauses := 1 } else {})
            .drain = { drain := true, mode := .drain, pauses := n } := by
          cases b
          · exact ⟨0, rfl⟩
          · exact ⟨1, rfl⟩
        obtain ⟨n, h⟩ := h
        simp only [List.foldl_cons, h, dr]
        simp
  exact key os false

example : open' ([Whole.pause, .jmod, .pause].foldl whole {}) = false := by decide +kernel
example : open' ([Whole.pause, .jmod, .pause, .resume].foldl whole {}) = true := by
  decide +kernel

/-- **C59 is violated** by the code: a user pauses the server while a modification is in
progress. The pause request sees that the server is paused already, and therefore undoes its own
count; when the modification ends, the server resumes although the user never asked for it. -/
theorem C59_violated :
    ∃ s, rrun {} [.modBegin, .pause, .pauseUndo, .modEnd] = some s ∧
      s.undo = 0 ∧ s.mods = 0 ∧ open' s.m = true := by
  have h : (rrun {} [.modBegin, .pause, .pauseUndo, .modEnd]).map
      (fun s => (s.undo, s.mods, open' s.m)) = some (0, 0, true) := by decide +kernel
  obtain ⟨s, h1, h2⟩ := Option.map_eq_some_iff.1 h
  simp only [Prod.mk.injEq] at h2
  exact ⟨s, h1, h2⟩

/-- ... and the other way round: a user's resume request in the middle of a modification opens
the server while the modification is still going on. -/
theorem C59_violated_resume :
    ∃ s, rrun {} [.modBegin, .resume] = some s ∧ s.mods = 1 ∧ open' s.m = true := by
  have h : (rrun {} [.modBegin, .resume]).map
      (fun s => (s.mods, open' s.m)) = some (1, true) := by decide +kernel
  obtain ⟨s, h1, h2⟩ := Option.map_eq_some_iff.1 h
  simp only [Prod.mk.injEq] at h2
  exact ⟨s, h1, h2⟩

/-! ## C60: no job is handed out while the server is paused -/

theorem rstep_out {s s' : RSt} {r : Req} (h : rstep s r = some s') (hr : r ≠ .reserveEnd) :
    s'.out = s.out := by
  cases r <;> simp only [rstep] at h
  · split at h <;> (injection h with h; subst h; rfl)
  · split at h
    · cases h
    · injection h with h; subst h; rfl
  · injection h with h; subst h; rfl
  · injection h with h; subst h; rfl
  · split at h <;> (injection h with h; subst h; rfl)
  · split at h
    · cases h
    · injection h with h; subst h; rfl
  · split at h <;> (injection h with h; subst h; rfl)
  · exact absurd rfl hr

/-- Reserve requests in flight grow only while the server is open. -/
theorem rstep_resv {s s' : RSt} {r : Req} (h : rstep s r = some s') :
    s'.out + s'.resv = s.out + s.resv ∨ (open' s.m = true ∧ r = .reserveBegin) := by
  cases r <;> simp only [rstep] at h
  · split at h <;> (injection h with h; subst h; exact .inl rfl)
  · split at h
    · cases h
    · injection h with h; subst h; exact .inl rfl
  · injection h with h; subst h; exact .inl rfl
  · injection h with h; subst h; exact .inl rfl
  · split at h <;> (injection h with h; subst h; exact .inl rfl)
  · split at h
    · cases h
    · injection h with h; subst h; exact .inl rfl
  · split at h
    · rename_i ho; exact .inr ⟨ho, rfl⟩
    · injection h with h; subst h; exact .inl rfl
  · split at h
    · cases h
    · injection h with h; subst h; left; simp only; omega

/-- The states passed through by a history. -/
def states (s : RSt) : List Req → List RSt
  | [] => [s]
  | r :: rs => s :: (match rstep s r with | some s' => states s' rs | none => [])

theorem mem_states (s : RSt) (rs : List Req) : s ∈ states s rs := by
  cases rs <;> simp [states]

/-- **C60 (partial).** While the server is closed (paused or draining) throughout a history, the
jobs handed out number at most the reserve requests that were already in progress when it was
closed. Missing: that it is none at all, see `C60_violated`. -/
theorem C60_partial (rs : List Req) (s s' : RSt) (h : rrun s rs = some s')
    (hc : ∀ t ∈ states s rs, open' t.m = false) : s'.out ≤ s.out + s.resv := by
  have key : s'.out + s'.resv = s.out + s.resv := by
    induction rs generalizing s with
    | nil => simp only [rrun, Option.some.injEq] at h; subst h; rfl
    | cons r rs ih =>
      simp only [rrun, Option.bind_eq_some_iff] at h
      obtain ⟨t, h1, h2⟩ := h
      have e := ih t h2 (fun u hu => hc u (by simp only [states, h1]; exact List.mem_cons_of_mem _ hu))
      rcases rstep_resv h1 with h3 | ⟨h3, _⟩
      · omega
      · rw [hc s (mem_states s _)] at h3; cases h3
  omega

/-- A modification during which no request waits to reserve: nothing is handed out in it. -/
example : ∃ s s', rrun {} [.reserveBegin, .reserveEnd, .modBegin] = some s ∧
    rrun s [.reserveBegin, .pause, .pauseUndo] = some s' ∧
    (∀ t ∈ states s [.reserveBegin, .pause, .pauseUndo], open' t.m = false) ∧
    s.resv = 0 ∧ s'.out = s.out := by
  refine ⟨_, _, rfl, rfl, ?_, rfl, rfl⟩
  decide +kernel

/-- **C60 is violated** by the code: a reserve request that began before the pause (it may wait
for seconds for a job or a limit) hands out a job after the pause, in the middle of a
modification. -/
theorem C60_violated :
    ∃ s s', rrun {} [.reserveBegin, .modBegin] = some s ∧ open' s.m = false ∧
      rrun s [.reserveEnd] = some s' ∧ s'.mods = 1 ∧ open' s'.m = false ∧ s'.out = s.out + 1 :=
  ⟨_, _, rfl, rfl, rfl, rfl, rfl, rfl⟩

end Verif.Server
