import Verif.Cmd.Runner

/-! # C98: what a runner does with jobs and time -/

namespace Verif.Cmd.Runner

/-! ## Specification -/

/-- Time goes on during a turn. -/
def Sound (ts : List Turn) : Prop := ∀ t ∈ ts, t.top ≤ t.after

/-- The jobs that an action is about. -/
def Act.job : Act → Option Job
  | .release j => some j
  | .execute j => some j
  | _ => none

/-- The job that the server gave out during a turn. -/
def Turn.job (t : Turn) : Option Job :=
  match t.res with
  | .job j => some j
  | _ => none

/-- How many turns the runner began. -/
def turns (as : List Act) : Nat := (as.filter fun a => a = .reserve).length

/-! ## Properties -/

/-- C98: every job that the runner got, and no other, it either ran or gave back, once, in the order it got them. -/
theorem C98_handled (start maxtime year : Int) (ts : List Turn) :
    (runner start maxtime year ts).filterMap Act.job =
      (ts.take (turns (runner start maxtime year ts))).filterMap Turn.job := by
  unfold runner
  generalize endTimeOf start maxtime year = e
  generalize (0 : Int) = p
  induction ts generalizing p with
  | nil => rfl
  | cons t ts ih =>
    rw [loop]
    split
    · rfl
    · cases hr : t.res with
      | error => simp [List.filterMap_cons, turns, Act.job, Turn.job, hr]
      | nothing => simp [List.filterMap_cons, turns, Act.job, Turn.job, hr]
      | job j =>
        simp only
        split
        · simp [List.filterMap_cons, turns, Act.job, Turn.job, hr]
        · split
          · simp [List.filterMap_cons, turns, Act.job, Turn.job, hr]
          · cases hx : t.result with
            | signal => simp [List.filterMap_cons, turns, Act.job, Turn.job, hr]
            | reconnected => simp [List.filterMap_cons, turns, Act.job, Turn.job, hr]
            | ok =>
              have := ih j.time
              simp [List.filterMap_cons, turns, Act.job, Turn.job, hr] at this ⊢
              exact this
            | failed =>
              have := ih j.time
              simp [List.filterMap_cons, turns, Act.job, Turn.job, hr] at this ⊢
              exact this

/-- C98: a job is only run if it was expected to end in time when the runner began to wait for it. -/
theorem C98_time_partial (start maxtime year : Int) (ts : List Turn) (hs : Sound ts) (j : Job)
    (hj : Act.execute j ∈ runner start maxtime year ts) :
    ∃ t ∈ ts, t.job = some j ∧
      t.top + j.time ≤ (if maxtime > 0 then start + maxtime * 60 else start + year) := by
  have he : (if maxtime > 0 then start + maxtime * 60 else start + year) = endTimeOf start maxtime year := rfl
  rw [he]
  unfold runner at hj
  generalize endTimeOf start maxtime year = e at hj ⊢
  generalize (0 : Int) = p at hj
  induction ts generalizing p with
  | nil => simp [loop] at hj
  | cons t ts ih =>
    rw [loop] at hj
    split at hj
    · simp at hj
    · rename_i htop
      have htop' : t.top + p ≤ e := by omega
      cases hr : t.res with
      | error => simp [hr] at hj
      | nothing => simp [hr] at hj
      | job k =>
        rw [hr] at hj
        simp only at hj
        have hrec : Act.execute j ∈ loop e k.time ts →
            ∃ t' ∈ t :: ts, t'.job = some j ∧ t'.top + j.time ≤ e := by
          intro h
          obtain ⟨t', h1, h2, h3⟩ := ih (fun x hx => hs x (by simp [hx])) k.time h
          exact ⟨t', by simp [h1], h2, h3⟩
        split at hj
        · simp at hj
        · rename_i hcond
          split at hj
          · simp at hj
          · have hthis : j = k → ∃ t' ∈ t :: ts, t'.job = some j ∧ t'.top + j.time ≤ e := by
              rintro rfl
              refine ⟨t, by simp, by simp [Turn.job, hr], ?_⟩
              by_cases hp : j.time = p
              · rw [hp]; exact htop'
              · have := hs t (by simp)
                have h' : ¬ t.after + j.time > e := fun h => hcond ⟨hp, h⟩
                omega
            cases hx : t.result with
            | signal => rw [hx] at hj; simp at hj; exact hthis hj
            | reconnected => rw [hx] at hj; simp at hj; exact hthis hj
            | ok =>
              rw [hx] at hj; simp at hj
              exact hj.elim hthis hrec
            | failed =>
              rw [hx] at hj; simp at hj
              exact hj.elim hthis hrec

/-- The job that is about to be got is only run if it was expected to end in time when it was got, if it is expected to take
another time than the one before. -/
private theorem first (e p : Int) (t : Turn) (j : Job) (ht : t.job = some j) (hp : j.time ≠ p)
    (hturns : turns (loop e p [t]) = 1) (hrel : ∀ x, Act.release x ∉ loop e p [t]) : t.after + j.time ≤ e := by
  have hr : t.res = .job j := by
    unfold Turn.job at ht
    split at ht
    · rename_i h; cases ht; exact h
    · cases ht
  rw [loop, hr] at hturns hrel
  simp only at hturns hrel
  by_cases h : t.after + j.time > e
  · by_cases hx : t.top + p > e
    · rw [if_pos hx] at hturns
      simp [turns] at hturns
    · rw [if_neg hx, if_pos ⟨hp, h⟩] at hrel
      exact absurd (by simp) (hrel j)
  · omega

/-- C98: a job that is expected to take another time than the one before, or than none, is only run if it was expected to end
in time when it was got: otherwise it is given back. -/
theorem C98_time_other (start maxtime year : Int) (pre : List Turn) (t : Turn) (j : Job) (ht : t.job = some j)
    (hp : ((pre.filterMap Turn.job).map Job.time).getLast?.getD 0 ≠ j.time)
    (hturns : turns (runner start maxtime year (pre ++ [t])) = pre.length + 1)
    (hrel : ∀ x, Act.release x ∉ runner start maxtime year (pre ++ [t])) :
    t.after + j.time ≤ (if maxtime > 0 then start + maxtime * 60 else start + year) := by
  have he : (if maxtime > 0 then start + maxtime * 60 else start + year) = endTimeOf start maxtime year := rfl
  rw [he]
  unfold runner at hturns hrel
  generalize endTimeOf start maxtime year = e at hturns hrel ⊢
  have key : ∀ (pre : List Turn) (p : Int), ((pre.filterMap Turn.job).map Job.time).getLast?.getD p ≠ j.time →
      turns (loop e p (pre ++ [t])) = pre.length + 1 → (∀ x, Act.release x ∉ loop e p (pre ++ [t])) →
      t.after + j.time ≤ e := by
    intro pre
    induction pre with
    | nil =>
      intro p hp h1 h2
      exact first e p t j ht (fun h => hp (by simpa using h.symm)) h1 h2
    | cons u pre ih =>
      intro p hp h1 h2
      rw [List.cons_append, loop] at h1 h2
      split at h1
      · simp [turns] at h1
      · rename_i hx
        rw [if_neg hx] at h2
        cases hr : u.res with
        | error => rw [hr] at h1; simp [turns] at h1
        | nothing => rw [hr] at h1; simp [turns] at h1
        | job k =>
          rw [hr] at h1 h2
          simp only at h1 h2
          split at h1
          · simp [turns] at h1
          · rename_i hc
            rw [if_neg hc] at h2
            split at h1
            · simp [turns] at h1
            · rename_i hv
              rw [if_neg hv] at h2
              have go : turns (loop e k.time (pre ++ [t])) = pre.length + 1 →
                  (∀ x, Act.release x ∉ loop e k.time (pre ++ [t])) → t.after + j.time ≤ e := by
                refine ih k.time ?_
                have hu : (u :: pre).filterMap Turn.job = k :: pre.filterMap Turn.job := by
                  simp [List.filterMap_cons, Turn.job, hr]
                rw [hu, List.map_cons, List.getLast?_cons] at hp
                simpa using hp
              cases hz : u.result with
              | signal => rw [hz] at h1; simp [turns] at h1
              | reconnected => rw [hz] at h1; simp [turns] at h1
              | ok =>
                rw [hz] at h1 h2
                exact go (by simpa [turns] using h1) (fun x hx => h2 x (by simp [hx]))
              | failed =>
                rw [hz] at h1 h2
                exact go (by simpa [turns] using h1) (fun x hx => h2 x (by simp [hx]))
  exact key pre 0 hp hturns hrel

/-- C98: the runner does nothing after it stopped, and it stops after giving a job back. -/
theorem C98_stop (start maxtime year : Int) (ts : List Turn) (as bs : List Act) :
    (∀ w, runner start maxtime year ts = as ++ .stop w :: bs → bs = []) ∧
    (∀ j, runner start maxtime year ts = as ++ .release j :: bs → bs = [.stop .time] ∨ bs = [.stop .env]) := by
  unfold runner
  generalize endTimeOf start maxtime year = e
  generalize (0 : Int) = p
  have key : ∀ (ts : List Turn) (p : Int) (as bs : List Act) (a : Act), loop e p ts = as ++ a :: bs →
      (∀ w, a = .stop w → bs = []) ∧ (∀ j, a = .release j → bs = [.stop .time] ∨ bs = [.stop .env]) := by
    intro ts
    induction ts with
    | nil => intro p as bs a h; simp [loop] at h
    | cons t ts ih =>
      intro p as bs a h
      rw [loop] at h
      split at h
      · match as with
        | [] => simp only [List.nil_append, List.cons.injEq] at h; obtain ⟨rfl, rfl⟩ := h; simp
        | [x] => simp at h
        | x :: y :: as => simp at h
      · match as with
        | [] =>
          simp only [List.nil_append, List.cons.injEq] at h
          obtain ⟨rfl, _⟩ := h
          simp
        | x :: as =>
          simp only [List.cons_append, List.cons.injEq] at h
          obtain ⟨_, h⟩ := h
          have one : ∀ b, [b] = as ++ a :: bs → a = b ∧ bs = [] := by
            intro b h
            match as with
            | [] => simp only [List.nil_append, List.cons.injEq] at h; exact ⟨h.1.symm, h.2.symm⟩
            | [x] => simp at h
            | x :: y :: as => simp at h
          cases hr : t.res with
          | error =>
            rw [hr] at h
            obtain ⟨rfl, rfl⟩ := one _ h
            simp
          | nothing =>
            rw [hr] at h
            obtain ⟨rfl, rfl⟩ := one _ h
            simp
          | job k =>
            rw [hr] at h
            simp only at h
            have two : ∀ b c, [b, c] = as ++ a :: bs → (a = b ∧ bs = [c]) ∨ (a = c ∧ bs = []) := by
              intro b c h
              match as with
              | [] => simp only [List.nil_append, List.cons.injEq] at h; exact .inl ⟨h.1.symm, h.2.symm⟩
              | [x] =>
                simp only [List.cons_append, List.nil_append, List.cons.injEq] at h
                exact .inr ⟨h.2.1.symm, h.2.2.symm⟩
              | x :: y :: [] => simp at h
              | x :: y :: z :: as => simp at h
            split at h
            · rcases two _ _ h with ⟨rfl, rfl⟩ | ⟨rfl, rfl⟩ <;> simp
            · split at h
              · rcases two _ _ h with ⟨rfl, rfl⟩ | ⟨rfl, rfl⟩ <;> simp
              · have rest : ∀ l, Act.execute k :: l = as ++ a :: bs → (a = .execute k) ∨ ∃ as', l = as' ++ a :: bs := by
                  intro l h
                  match as with
                  | [] => simp only [List.nil_append, List.cons.injEq] at h; exact .inl h.1.symm
                  | x :: as => simp only [List.cons_append, List.cons.injEq] at h; exact .inr ⟨as, h.2⟩
                rcases rest _ h with rfl | ⟨as', h⟩
                · simp
                · have onel : ∀ b, [b] = as' ++ a :: bs → a = b ∧ bs = [] := by
                    intro b h
                    match as' with
                    | [] => simp only [List.nil_append, List.cons.injEq] at h; exact ⟨h.1.symm, h.2.symm⟩
                    | [x] => simp at h
                    | x :: y :: as => simp at h
                  cases hx : t.result with
                  | signal => rw [hx] at h; obtain ⟨rfl, rfl⟩ := onel _ h; simp
                  | reconnected => rw [hx] at h; obtain ⟨rfl, rfl⟩ := onel _ h; simp
                  | ok => rw [hx] at h; exact ih k.time as' bs a h
                  | failed => rw [hx] at h; exact ih k.time as' bs a h
  exact ⟨fun w h => (key ts p as bs _ h).1 w rfl, fun j h => (key ts p as bs _ h).2 j rfl⟩

/-- What stops a runner: it got no job, lost the server, or the job ended because of a signal or a new server. -/
def Turn.ends (t : Turn) : Prop := t.res = .error ∨ t.res = .nothing ∨ t.result = .signal ∨ t.result = .reconnected

/-- C98: the runner asks for no other job after it got none, the server failed, or it was told to stop. -/
theorem C98_told (start maxtime year : Int) (pre post : List Turn) (t : Turn) (ht : t.ends) :
    turns (runner start maxtime year (pre ++ t :: post)) ≤ pre.length + 1 := by
  unfold runner
  generalize endTimeOf start maxtime year = e
  generalize (0 : Int) = p
  induction pre generalizing p with
  | nil =>
    rw [List.nil_append, loop]
    split
    · simp [turns]
    · cases hr : t.res with
      | error => simp [turns]
      | nothing => simp [turns]
      | job k =>
        simp only
        split
        · simp [turns]
        · split
          · simp [turns]
          · rcases ht with h | h | h | h
            · rw [hr] at h; cases h
            · rw [hr] at h; cases h
            · rw [h]; simp [turns]
            · rw [h]; simp [turns]
  | cons u pre ih =>
    rw [List.cons_append, loop]
    split
    · simp [turns]
    · cases hr : u.res with
      | error => simp [turns]
      | nothing => simp [turns]
      | job k =>
        simp only
        have := ih k.time
        split
        · simp [turns]
        · split
          · simp [turns]
          · cases hx : u.result <;> simp [turns] at this ⊢ <;> omega

/-- C98: the runner only stops if there is no job, no time, no connection, no environment, or if it was told to; otherwise it
goes on to wait for the next job, also if the command failed. -/
theorem C98_goes_on (start maxtime year : Int) (ts : List Turn)
    (h : ∀ t ∈ ts, ∃ j, t.res = .job j ∧ t.env = true ∧ (t.result = .ok ∨ t.result = .failed) ∧ 0 ≤ j.time ∧
      (∀ t' ∈ ts, t'.top + j.time ≤ endTimeOf start maxtime year ∧ t'.after + j.time ≤ endTimeOf start maxtime year ∧
        t'.top ≤ endTimeOf start maxtime year)) :
    runner start maxtime year ts = ts.flatMap fun t => .reserve :: (t.job.map Act.execute).toList := by
  unfold runner
  generalize he : endTimeOf start maxtime year = e at h
  have key : ∀ (l : List Turn) (p : Int), (∀ t ∈ l, t ∈ ts) → (∀ t' ∈ ts, t'.top + p ≤ e) →
      loop e p l = l.flatMap fun t => .reserve :: (t.job.map Act.execute).toList := by
    intro l
    induction l with
    | nil => intro p _ _; rfl
    | cons t l ih =>
      intro p hl hp
      obtain ⟨j, h1, h2, h3, h4, h5⟩ := h t (hl t (by simp))
      have a := hp t (hl t (by simp))
      have b := (h5 t (hl t (by simp))).2.1
      have ih' := ih j.time (fun x hx => hl x (by simp [hx])) fun t' ht' => (h5 t' ht').1
      rw [loop, if_neg (by omega), h1]
      simp only
      rw [if_neg (by omega), if_neg (by simp [h2])]
      rcases h3 with h3 | h3 <;> rw [h3] <;> simp [ih', Turn.job, h1]
  cases ts with
  | nil => rfl
  | cons t ts =>
    refine key (t :: ts) 0 (fun _ h => h) ?_
    intro t' ht'
    obtain ⟨j, _, _, _, _, h5⟩ := h t (by simp)
    have := (h5 t' ht').2.2
    omega

/-- C98: the runner waits longer for an answer of the server than the server waits for a job. -/
theorem C98_timeout (timeout reserve : Int) :
    timeoutOf timeout reserve ≥ reserve + 5 ∧ timeoutOf timeout reserve ≥ timeout ∧
      (timeout ≥ reserve + 5 → timeoutOf timeout reserve = timeout) := by
  unfold timeoutOf
  split <;> omega

/-- C98 is violated: a job is run although it was not expected to end in time any more when the runner got it, if the one
before was expected to take as long: the time waiting for it is not counted. -/
theorem C98_violated_late : ∃ (ts : List Turn) (t : Turn) (j : Job), Sound ts ∧ t ∈ ts ∧ t.job = some j ∧
    Act.execute j ∈ runner 0 10 0 ts ∧ t.after + j.time > 0 + 10 * 60 := by
  refine ⟨[{ top := 0, res := .job ⟨1, 290⟩, after := 1 }, { top := 300, res := .job ⟨2, 290⟩, after := 320 }],
    { top := 300, res := .job ⟨2, 290⟩, after := 320 }, ⟨2, 290⟩, ?_, ?_, ?_, ?_, ?_⟩
  · unfold Sound; decide
  · decide
  · decide
  · decide
  · decide

/-! ## The hypotheses are met -/

/-- two jobs run and a third given back -/
example : runner 0 10 0 [{ top := 0, res := .job ⟨1, 100⟩, after := 1 }, { top := 100, res := .job ⟨2, 200⟩, after := 102, result := .failed },
    { top := 300, res := .job ⟨3, 300⟩, after := 301 }, { top := 400, res := .nothing, after := 402 }] =
    [.reserve, .execute ⟨1, 100⟩, .reserve, .execute ⟨2, 200⟩, .reserve, .release ⟨3, 300⟩, .stop .time] := by decide

example : ({ top := 0, res := .job ⟨1, 100⟩, after := 1, result := .signal } : Turn).ends := by unfold Turn.ends; decide

example : Sound [{ top := 0, res := .job ⟨1, 100⟩, after := 1 }] := by unfold Sound; decide

end Verif.Cmd.Runner
