import Verif.Sched.LocalRun
/-! # C144: what a command run on the manager's host printed -/
namespace Verif.Sched.LocalRun

/-! ### Specification -/

/-- what the writes of the list put on one of the outputs -/
def bytes (fd : Fd) (ws : List (Fd × UInt8)) : List UInt8 := (ws.filter fun w => w.1 = fd).map (·.2)

/-- nothing can happen any more, but `RunCmd` has not returned -/
def Stuck (cap : Nat) (s : St) : Prop := (∀ e, step cap s e = none) ∧ s.phase ≠ .waited

/-! ### Proof -/

structure Inv (c : Cmd) (s : St) : Prop where
  out : s.gotOut ++ s.pipeOut ++ bytes .out s.todo = bytes .out c.writes
  err : s.gotErr ++ s.pipeErr ++ bytes .err s.todo = bytes .err c.writes
  one : s.phase = .readOut → s.gotErr = []
  two : s.phase ≠ .readOut → s.todo = [] ∧ s.pipeOut = []
  three : s.phase = .waited → s.pipeErr = []

theorem bytes_out (b ws) : bytes .out ((.out, b) :: ws) = b :: bytes .out ws := by simp [bytes]
theorem bytes_out' (b ws) : bytes .out ((.err, b) :: ws) = bytes .out ws := by simp [bytes]
theorem bytes_err (b ws) : bytes .err ((.err, b) :: ws) = b :: bytes .err ws := by simp [bytes]
theorem bytes_err' (b ws) : bytes .err ((.out, b) :: ws) = bytes .err ws := by simp [bytes]

theorem step_inv {cap c s e s'} (i : Inv c s) (h : step cap s e = some s') : Inv c s' := by
  obtain ⟨i1, i2, i3, i4, i5⟩ := i
  cases e with
  | write =>
    simp only [step] at h
    cases ht : s.todo with
    | nil => rw [ht] at h; simp at h
    | cons w r =>
      obtain ⟨fd, b⟩ := w
      have hp : s.phase = .readOut := by
        by_cases hp : s.phase = .readOut
        · exact hp
        · rw [(i4 hp).1] at ht; simp at ht
      rw [ht] at h i1 i2
      cases fd
      · simp only at h
        split at h
        · injection h with h; subst h
          rw [bytes_out] at i1; rw [bytes_err'] at i2
          exact ⟨by simpa using i1, i2, i3, fun h => absurd hp h, fun h => absurd h (by simp [hp])⟩
        · simp at h
      · simp only at h
        split at h
        · injection h with h; subst h
          rw [bytes_out'] at i1; rw [bytes_err] at i2
          exact ⟨i1, by simpa using i2, i3, fun h => absurd hp h, fun h => absurd h (by simp [hp])⟩
        · simp at h
  | read =>
    obtain ⟨todo, po, pe, go, ge, ph⟩ := s
    simp only at i1 i2 i3 i4 i5
    cases ph
    · cases po with
      | cons b r =>
        simp only [step, Option.some.injEq] at h; subst h
        exact ⟨by simpa using i1, i2, i3, fun h => absurd rfl h, fun h => absurd h (by simp)⟩
      | nil =>
        simp only [step] at h
        split at h
        · rename_i ht
          injection h with h; subst h
          exact ⟨i1, i2, fun h => absurd h (by simp), fun _ => ⟨ht, rfl⟩, fun h => absurd h (by simp)⟩
        · simp at h
    · have i4' := i4 (by simp)
      cases pe with
      | cons b r =>
        simp only [step, Option.some.injEq] at h; subst h
        exact ⟨i1, by simpa using i2, fun h => absurd h (by simp), fun _ => i4', fun h => absurd h (by simp)⟩
      | nil =>
        simp only [step] at h
        split at h
        · injection h with h; subst h
          exact ⟨i1, i2, fun h => absurd h (by simp), fun _ => i4', fun _ => rfl⟩
        · simp at h
    · simp [step] at h

theorem run_inv {cap c} (es : List Ev) : ∀ {s s'}, Inv c s → run cap s es = some s' → Inv c s' := by
  induction es with
  | nil => intro s s' i h; simp only [run, Option.some.injEq] at h; subst h; exact i
  | cons e es ih =>
    intro s s' i h
    simp only [run] at h
    cases hs : step cap s e with
    | none => rw [hs] at h; simp at h
    | some s1 => rw [hs] at h; exact ih (step_inv i hs) h

theorem start_inv (c : Cmd) : Inv c (start c) := ⟨by simp [start], by simp [start], by simp [start], by simp [start], by simp [start]⟩

/-- how much is still to be done -/
def left (s : St) : Nat :=
  2 * s.todo.length + s.pipeOut.length + s.pipeErr.length + (match s.phase with | .readOut => 2 | .readErr => 1 | .waited => 0)

theorem step_left {cap s e s'} (h : step cap s e = some s') : left s' < left s := by
  unfold left
  cases e with
  | write =>
    simp only [step] at h
    cases ht : s.todo with
    | nil => rw [ht] at h; simp at h
    | cons w r =>
      obtain ⟨fd, b⟩ := w
      rw [ht] at h
      cases fd <;> simp only at h <;> split at h <;> simp only [Option.some.injEq, reduceCtorEq] at h <;> subst h <;>
        simp only [List.length_append, List.length_cons, List.length_nil] <;> omega
  | read =>
    simp only [step] at h
    cases hp : s.phase <;> rw [hp] at h <;> simp only at h
    · cases ho : s.pipeOut <;> rw [ho] at h <;> simp only at h
      · split at h <;> simp only [Option.some.injEq, reduceCtorEq] at h
        subst h; simp only [ho]; omega
      · simp only [Option.some.injEq] at h; subst h; simp only [hp, List.length_cons]; omega
    · cases ho : s.pipeErr <;> rw [ho] at h <;> simp only at h
      · split at h <;> simp only [Option.some.injEq, reduceCtorEq] at h
        subst h; simp only [ho]; omega
      · simp only [Option.some.injEq] at h; subst h; simp only [hp, List.length_cons]; omega
    · simp at h

/-! ### Properties -/

/-- C144: however the command and the reader take turns, when `RunCmd` returns after a command that succeeded it returns exactly what the
command wrote to each output. -/
theorem C144_output (cap : Nat) (c : Cmd) (es : List Ev) (s : St) (h : run cap (start c) es = some s) (hd : s.phase = .waited)
    (h0 : c.code = 0) : result c s = (bytes .out c.writes, bytes .err c.writes, false) := by
  have i := run_inv es (start_inv c) h
  have h2 := i.two (by simp [hd])
  have h1 := i.out
  have h3 := i.err
  rw [h2.1, h2.2] at h1
  rw [h2.1, i.three hd] at h3
  simp only [bytes, List.filter_nil, List.map_nil, List.append_nil] at h1 h3
  simp only [result, h0, ne_eq, not_true, if_false, h1, h3]
  rfl

/-- C144: and it reports an error exactly if the command failed. -/
theorem C144_error (c : Cmd) (s : St) : (result c s).2.2 = true ↔ c.code ≠ 0 := by
  unfold result; split <;> simp_all

/-- C144: it returns, after at most so many steps, for every command that writes no more to its standard error than a pipe holds. Missing:
commands that write more. -/
theorem C144_returns_partial (cap : Nat) (hc : 0 < cap) (c : Cmd) (he : (bytes .err c.writes).length ≤ cap) (es : List Ev) (s : St)
    (h : run cap (start c) es = some s) : ¬ Stuck cap s ∧ es.length ≤ 2 * c.writes.length + 2 := by
  have i := run_inv es (start_inv c) h
  constructor
  · rintro ⟨h1, h2⟩
    have hr := h1 .read
    have hw := h1 .write
    simp only [step] at hr hw
    cases ht : s.todo with
    | nil =>
      cases hp : s.phase <;> rw [hp] at hr <;> simp only at hr
      · cases ho : s.pipeOut <;> rw [ho] at hr <;> simp [ht] at hr
      · cases ho : s.pipeErr <;> rw [ho] at hr <;> simp [ht] at hr
      · exact h2 hp
    | cons w r =>
      have hp : s.phase = .readOut := by
        by_cases hp : s.phase = .readOut
        · exact hp
        · rw [(i.two hp).1] at ht; simp at ht
      obtain ⟨fd, b⟩ := w
      rw [ht] at hw
      cases fd <;> simp only at hw
      · rw [hp] at hr; simp only at hr
        cases ho : s.pipeOut with
        | cons _ _ => rw [ho] at hr; simp at hr
        | nil => rw [ho] at hw; simp [hc] at hw
      · have h3 := congrArg List.length i.err
        rw [ht, bytes_err] at h3
        simp only [List.length_append, List.length_cons] at h3
        split at hw
        · simp at hw
        · omega
  · have key : ∀ (es : List Ev) (s s' : St), run cap s es = some s' → es.length + left s' ≤ left s := by
      intro es
      induction es with
      | nil => intro s s' h; simp only [run, Option.some.injEq] at h; subst h; simp
      | cons e es ih =>
        intro s s' h
        simp only [run] at h
        cases hs : step cap s e with
        | none => rw [hs] at h; simp at h
        | some s1 =>
          rw [hs] at h
          have := ih s1 s' h
          have := step_left hs
          simp only [List.length_cons]; omega
    have := key es _ s h
    simp only [left, start, List.length_nil] at this
    omega

/-- a command that prints to both outputs -/
def demo : Cmd := { writes := [(.err, 7), (.out, 1), (.out, 2)], code := 0 }

example : (bytes .err demo.writes).length ≤ 1 ∧
    (run 1 (start demo) [.write, .write, .read, .write, .read, .read, .read, .read]).map (fun s => (s.phase, result demo s)) =
      some (.waited, [1, 2], [7], false) := by decide +kernel

/-- C144 is false of commands that write more to their standard error than a pipe holds: for every size of pipe, such a command waits for
ever to write, and `RunCmd` waits for the end of its standard output. -/
theorem C144_violated_stuck (cap : Nat) : ∃ (c : Cmd) (es : List Ev) (s : St), bytes .out c.writes = [] ∧ c.code = 0 ∧
    (bytes .err c.writes).length = cap + 1 ∧ run cap (start c) es = some s ∧ Stuck cap s := by
  have key : ∀ (n : Nat) (pre : List UInt8), pre.length + n = cap →
      run cap { todo := List.replicate (n + 1) (Fd.err, 0), pipeErr := pre } (List.replicate n .write) =
        some { todo := [(Fd.err, 0)], pipeErr := pre ++ List.replicate n 0 } := by
    intro n
    induction n with
    | zero => intro pre _; simp [run]
    | succ n ih =>
      intro pre h
      rw [List.replicate_succ (n := n), List.replicate_succ (n := n + 1)]
      simp only [run, step]
      rw [if_pos (by omega)]
      simp only [Option.bind_some]
      rw [ih (pre ++ [0]) (by simp; omega)]
      simp [List.replicate_succ]
  refine ⟨{ writes := List.replicate (cap + 1) (Fd.err, 0), code := 0 }, List.replicate cap .write, _, ?_, rfl, ?_, key cap [] (by simp), ?_⟩
  · simp [bytes]
  · simp [bytes]
  · refine ⟨?_, by simp⟩
    intro e
    cases e
    · simp [step]
    · simp [step]

/-- C144 is false of commands that fail: what they printed, such as why they failed, is not returned. -/
theorem C144_violated_failed : ∃ (c : Cmd) (es : List Ev) (s : St), c.code = 1 ∧ bytes .err c.writes = [101] ∧
    run 65536 (start c) es = some s ∧ s.phase = .waited ∧ s.gotErr = [101] ∧ result c s = ([], [], true) :=
  ⟨{ writes := [(.err, 101)], code := 1 }, [.write, .read, .read, .read], _, rfl, by decide +kernel, rfl, by decide +kernel, by decide +kernel, by decide +kernel⟩

end Verif.Sched.LocalRun
