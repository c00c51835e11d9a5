import Verif.Cmd.Mount
/-!
# C136: `wr mount` mounts where it is told to, and everything written is uploaded when it ends
-/
namespace Verif.Cmd.Mount

/-- What the user wrote in a run. -/
def written : List Ev → List Nat
  | [] => []
  | .write _ n :: es => n :: written es
  | _ :: es => written es

/-- What is neither lost nor uploaded. -/
def held (s : State) : List Nat := (s.live ++ s.stuck).flatMap (·.pending)

/-- Where the help says that file systems are mounted. -/
def documented (cwd : Dir) (c : Cfg) : Dir :=
  match c.mount with
  | none => cwd ++ ["mnt"]
  | some (.abs d) => d
  | some (.rel d) => cwd ++ d

/-- Nothing goes wrong: every mount and unmount succeeds. -/
def Smooth (es : List Ev) : Prop := .bad ∉ es ∧ .noUnmount ∉ es

/-- No signal comes before all is mounted and the handler is set up. -/
def Patient (es : List Ev) : Prop := ∀ l r, es = l ++ .signal :: r → .listen ∈ l

theorem run_inv {P : List Ev → State → Prop} (hstep : ∀ pre s s' e, P pre s → step s e = some s' → P (pre ++ [e]) s') :
    ∀ (es pre : List Ev) (s s' : State), P pre s → run s es = some s' → P (pre ++ es) s' := by
  intro es
  induction es with
  | nil => intro pre s s' h hr; cases hr; simpa using h
  | cons e es ih =>
    intro pre s s' h hr
    simp only [run, Option.bind_eq_some_iff] at hr
    obtain ⟨s1, h1, h2⟩ := hr
    have := ih (pre ++ [e]) s1 s' (hstep pre s s1 e h h1) h2
    simpa using this

theorem written_append (xs ys : List Ev) : written (xs ++ ys) = written xs ++ written ys := by
  induction xs with
  | nil => rfl
  | cons x xs ih => cases x <;> simp [written, ih]

theorem held_write (d : Dir) (n : Nat) : ∀ (fs : List Fs), d ∈ fs.map (·.dir) → ∀ x,
    x ∈ (fs.map (writeTo d n)).flatMap (·.pending) ↔ x ∈ fs.flatMap (·.pending) ∨ x = n := by
  intro fs
  induction fs with
  | nil => intro h; cases h
  | cons f fs ih =>
    intro h x
    simp only [List.map_cons, List.flatMap_cons, List.mem_append]
    by_cases hm : d ∈ fs.map (·.dir)
    · rw [ih hm x]
      unfold writeTo
      split <;> simp <;> grind
    · have hf : f.dir = d := by
        rcases List.mem_cons.mp h with h | h
        · exact h.symm
        · exact absurd h hm
      have hr : fs.map (writeTo d n) = fs := by
        rw [List.map_eq_iff]
        intro i
        cases hi : fs[i]? with
        | none => rfl
        | some g =>
          have : g.dir ≠ d := by
            intro hg
            exact hm (hg ▸ List.mem_map_of_mem (List.mem_of_getElem? hi))
          simp [writeTo, this]
      rw [hr]
      have e : (writeTo d n f).pending = f.pending ++ [n] := by simp [writeTo, hf]
      rw [e, List.mem_append, List.mem_singleton]
      constructor
      · rintro ((h | h) | h)
        · exact Or.inl (Or.inl h)
        · exact Or.inr h
        · exact Or.inl (Or.inr h)
      · rintro ((h | h) | h)
        · exact Or.inl (Or.inl h)
        · exact Or.inr h
        · exact Or.inl (Or.inr h)

/-- C136: whatever was written is uploaded, or the file system it was written to was not unmounted; nothing else is uploaded. -/
theorem C136_kept (foreground : Bool) (cwd : Dir) (cfgs : List Cfg) (es : List Ev) (s : State)
    (h : run (start foreground cwd cfgs) es = some s) (x : Nat) : x ∈ written es ↔ x ∈ s.remote ∨ x ∈ held s := by
  have hstep : ∀ (pre : List Ev) (s s' : State) (e : Ev), (x ∈ written pre ↔ x ∈ s.remote ∨ x ∈ held s) → step s e = some s' →
      (x ∈ written (pre ++ [e]) ↔ x ∈ s'.remote ∨ x ∈ held s') := by
    intro pre s s' e ih hs
    rw [written_append, List.mem_append, ih]
    obtain ⟨wd, td, lv, sk, rm, ls, sg, ex⟩ := s
    cases ex with
    | some c => simp [step] at hs
    | none =>
      cases e with
      | mount =>
        cases td with
        | nil => simp [step] at hs
        | cons c cs => simp [step] at hs; subst hs; simp [written, held]
      | bad => simp only [step] at hs; simp at hs; obtain ⟨_, rfl⟩ := hs; simp [written, held]
      | listen =>
        simp [step] at hs
        obtain ⟨_, hs⟩ := hs
        split at hs <;> cases hs <;> simp [written, held]
      | signal =>
        simp [step] at hs
        split at hs <;> cases hs <;> simp [written, held]
      | write d n =>
        simp only [step] at hs
        simp only [Option.isSome_none, Bool.false_eq_true, if_false] at hs
        split at hs
        · rename_i hd
          cases hs
          have := held_write d n lv hd x
          simp only [held, List.flatMap_append, List.mem_append, written, List.mem_singleton] at this ⊢
          rw [this]
          grind
        · cases hs
      | unmount =>
        cases lv with
        | nil => simp [step] at hs
        | cons f fs => simp [step] at hs; obtain ⟨_, rfl⟩ := hs; simp [written, held]; grind
      | noUnmount =>
        cases lv with
        | nil => simp [step] at hs
        | cons f fs => simp [step] at hs; obtain ⟨_, rfl⟩ := hs; simp [written, held]; grind
      | finish =>
        simp [step] at hs
        obtain ⟨_, rfl⟩ := hs
        simp [written, held]
  have := run_inv (P := fun pre s => (x ∈ written pre ↔ x ∈ s.remote ∨ x ∈ held s)) hstep es [] _ s (by simp [written, start, held]) h
  simpa using this

/-- What holds in smooth and patient runs. -/
structure Fine (pre : List Ev) (s : State) : Prop where
  listens : .listen ∈ pre → s.listening = true ∨ s.exit = some 0
  stuck : .noUnmount ∉ pre → s.stuck = []
  sig : s.signalled = true → s.listening = true
  list : s.listening = true → s.todo = []
  ends : .bad ∉ pre → Patient pre → s.exit ≠ none → s.exit = some 0 ∧ s.live = [] ∧ s.todo = []

theorem patient_prefix {pre : List Ev} {e : Ev} (h : Patient (pre ++ [e])) : Patient pre := by
  intro l r hl
  exact h l (r ++ [e]) (by simp [hl])

theorem fine_step (pre : List Ev) (s s' : State) (e : Ev) (h : Fine pre s) (hs : step s e = some s') : Fine (pre ++ [e]) s' := by
  obtain ⟨wd, td, lv, sk, rm, ls, sg, ex⟩ := s
  obtain ⟨h1, h2, h3, h4, h5⟩ := h
  cases ex with
  | some c => simp [step] at hs
  | none =>
    have hx : .listen ∈ pre → ls = true := by
      intro hl
      rcases h1 hl with h | h
      · exact h
      · cases h
    cases e with
    | mount =>
      cases td with
      | nil => simp [step] at hs
      | cons c cs =>
        simp [step] at hs
        subst hs
        refine ⟨?_, ?_, h3, ?_, ?_⟩ <;> simp at h2 h4 ⊢
        · exact fun hl => hx hl
        · exact h2
        · simp [h4]
    | bad =>
      simp [step] at hs
      obtain ⟨_, rfl⟩ := hs
      refine ⟨?_, ?_, h3, h4, ?_⟩ <;> simp at h2 ⊢
      · exact fun hl => hx hl
      · exact h2
    | listen =>
      simp [step] at hs
      obtain ⟨⟨ht, hl⟩, hs⟩ := hs
      subst ht
      split at hs
      · rename_i hlv
        cases hs
        refine ⟨?_, ?_, h3, h4, ?_⟩ <;> simp at h2 ⊢
        · exact h2
        · intros; exact hlv
      · cases hs
        refine ⟨?_, ?_, ?_, ?_, ?_⟩ <;> simp at h2 ⊢
        exact h2
    | signal =>
      simp [step] at hs
      split at hs
      · rename_i hl
        cases hs
        refine ⟨?_, ?_, ?_, h4, ?_⟩ <;> simp at h2 ⊢
        · exact fun _ => hl
        · exact h2
        · exact hl
      · rename_i hl
        cases hs
        refine ⟨?_, ?_, h3, h4, ?_⟩
        · intro hm; simp at hm; exact absurd (hx hm) hl
        · intro hm; simp at hm; exact h2 hm
        · intro _ hp _
          exact absurd (hx (hp pre [] rfl)) hl
    | write d n =>
      simp only [step, Option.isSome_none, Bool.false_eq_true, if_false] at hs
      split at hs <;> cases hs
      refine ⟨?_, ?_, h3, h4, ?_⟩ <;> simp at h2 ⊢
      · exact fun hl => hx hl
      · exact h2
    | unmount =>
      cases lv with
      | nil => simp [step] at hs
      | cons f fs =>
        simp [step] at hs
        obtain ⟨hsg, rfl⟩ := hs
        refine ⟨?_, ?_, h3, h4, ?_⟩ <;> simp at h2 ⊢
        · exact fun hl => hx hl
        · exact h2
    | noUnmount =>
      cases lv with
      | nil => simp [step] at hs
      | cons f fs =>
        simp [step] at hs
        obtain ⟨hsg, rfl⟩ := hs
        refine ⟨?_, ?_, h3, h4, ?_⟩ <;> simp at h2 ⊢
        exact fun hl => hx hl
    | finish =>
      simp [step] at hs
      obtain ⟨⟨hsg, hl⟩, rfl⟩ := hs
      refine ⟨?_, ?_, h3, h4, ?_⟩ <;> simp at h2 ⊢
      · exact h2
      · intro _ _
        exact ⟨hl, h4 (h3 hsg)⟩

/-- C136: if every mount and unmount succeeds, and no signal comes too early, then when the command has ended nothing is mounted, everything
    that was written is uploaded, and the command exits with 0. Partial: see below. -/
theorem C136_uploaded_partial (foreground : Bool) (cwd : Dir) (cfgs : List Cfg) (es : List Ev) (s : State)
    (h : run (start foreground cwd cfgs) es = some s) (hs : Smooth es) (hp : Patient es) (he : s.exit ≠ none) :
    s.exit = some 0 ∧ s.live = [] ∧ s.stuck = [] ∧ ∀ x ∈ written es, x ∈ s.remote := by
  have f : Fine ([] ++ es) s := run_inv fine_step es [] _ s (by
    refine ⟨?_, ?_, ?_, ?_, ?_⟩ <;> simp [start]) h
  rw [List.nil_append] at f
  obtain ⟨e1, e2, _⟩ := f.ends hs.1 hp he
  have e3 := f.stuck hs.2
  refine ⟨e1, e2, e3, ?_⟩
  intro x hx
  rcases (C136_kept foreground cwd cfgs es s h x).mp hx with hx | hx
  · exact hx
  · simp [held, e2, e3] at hx

theorem run_append (s : State) (xs ys : List Ev) : run s (xs ++ ys) = (run s xs).bind fun t => run t ys := by
  induction xs generalizing s with
  | nil => rfl
  | cons x xs ih =>
    show (step s x).bind _ = _
    rw [run, Option.bind_assoc]
    congr 1
    funext t
    exact ih t

/-- C136: a command that waits ends after a signal, however many file systems there are. -/
theorem C136_ends (s : State) (h1 : s.listening = true) (h2 : s.exit = none) :
    ∃ k s', run s (.signal :: List.replicate k .unmount ++ [.finish]) = some s' ∧ s'.exit = some 0 := by
  have key : ∀ (fs : List Fs) (s : State), s.live = fs → s.signalled = true → s.exit = none →
      ∃ s', run s (List.replicate fs.length .unmount ++ [.finish]) = some s' ∧ s'.exit = some 0 := by
    intro fs
    induction fs with
    | nil =>
      intro s hl hs he
      exact ⟨{ s with exit := some 0 }, by simp [run, step, hl, hs, he], rfl⟩
    | cons f fs ih =>
      intro s hl hs he
      obtain ⟨s', h1, h2⟩ := ih { s with live := fs, remote := s.remote ++ f.pending } rfl hs he
      refine ⟨s', ?_, h2⟩
      show (step s .unmount).bind _ = _
      have : step s .unmount = some { s with live := fs, remote := s.remote ++ f.pending } := by
        simp [step, hl, hs, he]
      rw [this]
      exact h1
  obtain ⟨s', h3, h4⟩ := key s.live { s with signalled := true } rfl rfl h2
  refine ⟨s.live.length, s', ?_, h4⟩
  show (step s .signal).bind _ = _
  have : step s .signal = some { s with signalled := true } := by simp [step, h1, h2]
  rw [this]
  exact h3

/-- Events before any signal. -/
theorem mounts_all (foreground : Bool) (cwd : Dir) (cfgs : List Cfg) :
    run (start foreground cwd cfgs) (List.replicate cfgs.length .mount) =
      some { start foreground cwd cfgs with
        todo := [], live := cfgs.map fun c => { dir := mountPoint (start foreground cwd cfgs).wd c, pending := [] } } := by
  have key : ∀ (cs : List Cfg) (s : State), s.todo = cs → s.exit = none →
      run s (List.replicate cs.length .mount) =
        some { s with todo := [], live := s.live ++ cs.map fun c => { dir := mountPoint s.wd c, pending := [] } } := by
    intro cs
    induction cs with
    | nil => intro s h _; obtain ⟨wd, td, lv, sk, rm, ls, sg, ex⟩ := s; cases h; simp [run]
    | cons c cs ih =>
      intro s h he
      show (step s .mount).bind _ = _
      have : step s .mount = some { s with todo := cs, live := s.live ++ [{ dir := mountPoint s.wd c, pending := [] }] } := by
        simp [step, h, he]
      have k := ih { s with todo := cs, live := s.live ++ [{ dir := mountPoint s.wd c, pending := [] }] } (by rfl) he
      rw [this, Option.bind_some, k]
      simp
  have := key cfgs (start foreground cwd cfgs) rfl rfl
  simpa [start] using this

/-- C136: in the foreground each file system is mounted where the help says. Partial: see below. -/
theorem C136_where_partial (cwd : Dir) (cfgs : List Cfg) : ∃ s, run (start true cwd cfgs) (List.replicate cfgs.length .mount) = some s ∧
    s.todo = [] ∧ s.live.map (·.dir) = cfgs.map (documented cwd) := by
  refine ⟨_, mounts_all true cwd cfgs, rfl, ?_⟩
  simp only [List.map_map]
  apply List.map_congr_left
  intro c _
  show mountPoint cwd c = documented cwd c
  rfl

/-- C136: also in the background, if all paths are absolute. -/
theorem C136_absolute (cwd : Dir) (cfgs : List Cfg) (h : ∀ c ∈ cfgs, ∃ d, c.mount = some (.abs d)) :
    ∃ s, run (start false cwd cfgs) (List.replicate cfgs.length .mount) = some s ∧ s.live.map (·.dir) = cfgs.map (documented cwd) := by
  refine ⟨_, mounts_all false cwd cfgs, ?_⟩
  simp only [List.map_map]
  apply List.map_congr_left
  intro c hc
  obtain ⟨d, hd⟩ := h c hc
  simp [mountPoint, documented, hd]

/-- C136: never less than one retry, ten if not given, and as many as given. -/
theorem C136_retries (c : Cfg) : (c.retries = 0 → retries c = 10) ∧ (0 < c.retries → retries c = c.retries) ∧ 0 < retries c := by
  unfold retries
  split <;> refine ⟨?_, ?_, ?_⟩ <;> omega

/-- What holds as long as there was no signal and no failing mount. -/
structure Up (wd : Dir) (cfgs : List Cfg) (s : State) : Prop where
  dir : s.wd = wd
  all : s.live.map (·.dir) ++ s.todo.map (mountPoint wd) = cfgs.map (mountPoint wd)
  quiet : s.signalled = false
  exit : s.exit = none ∨ (cfgs = [] ∧ s.exit = some 0)

theorem dirs_write (d : Dir) (n : Nat) (l : List Fs) : (l.map (writeTo d n)).map (·.dir) = l.map (·.dir) := by
  rw [List.map_map]
  apply List.map_congr_left
  intro f _
  simp only [Function.comp, writeTo]
  split <;> rfl

theorem up_step (wd : Dir) (cfgs : List Cfg) (s s' : State) (e : Ev) (h1 : e ≠ .signal) (h2 : e ≠ .bad) (u : Up wd cfgs s)
    (h : step s e = some s') : Up wd cfgs s' := by
  obtain ⟨uw, ua, uq, ux⟩ := u
  obtain ⟨wd', td, lv, sk, rm, ls, sg, ex⟩ := s
  simp only at uw ua uq ux
  subst uw uq
  cases ex with
  | some c => simp [step] at h
  | none =>
    cases e with
    | signal => exact absurd rfl h1
    | bad => exact absurd rfl h2
    | mount =>
      cases td with
      | nil => simp [step] at h
      | cons c cs =>
        simp [step] at h
        subst h
        exact ⟨rfl, by simpa using ua, rfl, Or.inl rfl⟩
    | listen =>
      simp only [step, Option.isSome_none, Bool.false_eq_true, if_false] at h
      split at h
      · cases h
      · rename_i hn
        have ht : td = [] := by
          cases td with
          | nil => rfl
          | cons c cs => exact absurd (Or.inl (by simp)) hn
        subst ht
        split at h
        · rename_i hl
          cases h
          subst hl
          refine ⟨rfl, ua, rfl, Or.inr ⟨?_, rfl⟩⟩
          cases cfgs with
          | nil => rfl
          | cons c cs => simp at ua
        · cases h
          exact ⟨rfl, ua, rfl, Or.inl rfl⟩
    | write d n =>
      simp only [step, Option.isSome_none, Bool.false_eq_true, if_false] at h
      split at h
      · cases h
        exact ⟨rfl, by simpa only [dirs_write] using ua, rfl, Or.inl rfl⟩
      · cases h
    | unmount => simp [step] at h
    | noUnmount => simp [step] at h
    | finish => simp [step] at h

/-- C136: what is mounted stays mounted, and the process goes on, until a signal comes, unless a mount fails or there is nothing to mount. -/
theorem C136_stays (foreground : Bool) (cwd : Dir) (cfgs : List Cfg) (es : List Ev) (s : State)
    (h : run (start foreground cwd cfgs) es = some s) (h1 : .signal ∉ es) (h2 : .bad ∉ es) :
    s.live.map (·.dir) = (cfgs.take s.live.length).map (mountPoint (if foreground then cwd else [])) ∧ (cfgs ≠ [] → s.exit = none) := by
  have key : ∀ (es : List Ev) (s0 : State), .signal ∉ es → .bad ∉ es → Up (if foreground then cwd else []) cfgs s0 → run s0 es = some s →
      Up (if foreground then cwd else []) cfgs s := by
    intro es
    induction es with
    | nil =>
      intro s0 _ _ u h
      cases h
      exact u
    | cons e es ih =>
      intro s0 h1 h2 u h
      rw [run, Option.bind_eq_some_iff] at h
      obtain ⟨s1, hs, hr⟩ := h
      exact ih s1 (fun hm => h1 (by simp [hm])) (fun hm => h2 (by simp [hm]))
        (up_step _ _ _ _ _ (fun he => h1 (by simp [he])) (fun he => h2 (by simp [he])) u hs) hr
  have u := key es _ h1 h2 ⟨rfl, rfl, rfl, Or.inl rfl⟩ h
  refine ⟨?_, fun hne => ?_⟩
  · have := congrArg (List.take s.live.length) u.all
    rw [List.take_append_of_le_length (by simp), List.take_of_length_le (by simp)] at this
    rw [List.map_take]; exact this
  · rcases u.exit with h | h
    · exact h
    · exact absurd h.1 hne

/-- A mount of two file systems that are written to and then unmounted. -/
def ordinary : List Ev := [.mount, .mount, .listen, .write ["home", "ann", "mnt"] 1, .write ["data"] 2, .signal, .signal, .unmount, .unmount, .finish]

def two : List Cfg := [⟨none, 0⟩, ⟨some (.abs ["data"]), 3⟩]

example : ∃ s, run (start true ["home", "ann"] two) [.mount, .mount, .listen, .write ["data"] 2] = some s ∧
    s.live.map (·.dir) = [["home", "ann", "mnt"], ["data"]] := ⟨_, rfl, rfl⟩

example : (run (start true ["home", "ann"] two) ordinary).map (fun s => (s.exit, s.live, s.remote)) = some (some 0, [], [1, 2]) := by
  decide

example : Smooth ordinary := by unfold Smooth; decide

example : Patient ordinary := by
  intro l r h
  unfold ordinary at h
  match l, h with
  | [], h => simp at h
  | [_], h => simp at h
  | [_, _], h => simp at h
  | [_, _, _], h => simp at h
  | [_, _, _, _], h => simp at h
  | _ :: _ :: _ :: _ :: _ :: l, h => simp at h; simp [← h.2.2.1]

/-- C136 is violated: in the background, which is the default, file systems are mounted below `/` and not below the working directory. -/
theorem C136_violated_where : ∃ cwd c s, run (start false cwd [c]) [.mount] = some s ∧ s.live.map (·.dir) = [["mnt"]] ∧
    documented cwd c = ["home", "ann", "mnt"] := ⟨["home", "ann"], ⟨none, 0⟩, _, rfl, rfl, rfl⟩

/-- C136 is violated: when a later file system cannot be mounted, or a signal comes before all are, the ones already mounted are left, and what
    was written to them is not uploaded. -/
theorem C136_violated_left (e : Ev) (he : e = .bad ∨ e = .signal) : ∃ s,
    run (start true ["home", "ann"] two) [.mount, .write ["home", "ann", "mnt"] 1, e] = some s ∧ s.exit.isSome = true ∧
      s.live.map (·.dir) = [["home", "ann", "mnt"]] ∧ s.remote = [] ∧ ∀ e', step s e' = none := by
  rcases he with rfl | rfl
  · exact ⟨_, rfl, rfl, rfl, rfl, fun e' => rfl⟩
  · exact ⟨_, rfl, rfl, rfl, rfl, fun e' => rfl⟩

/-- C136 is violated: also when an unmount fails, so that files are not uploaded, the command exits with 0. -/
theorem C136_violated_status : ∃ es s, run (start true ["home", "ann"] two) es = some s ∧ s.exit = some 0 ∧ written es = [1] ∧ s.remote = [] :=
  ⟨[.mount, .mount, .listen, .write ["data"] 1, .signal, .unmount, .noUnmount, .finish], _, rfl, rfl, rfl, rfl⟩

/-- C136 is violated: in the background it looks as if all was mounted even if it was not. -/
theorem C136_violated_background : ∃ s, run (start false [] [⟨none, 0⟩]) [.bad] = some s ∧ s.exit = some 1 ∧ status false s = some 0 ∧
    s.live = [] := ⟨_, rfl, rfl, rfl, rfl⟩

end Verif.Cmd.Mount
