import Verif.Client.MonitorLemmas
/-!
# C105: a command that runs is watched
-/
namespace Verif.Client.Monitor

/-! ## Specification -/
namespace Spec

/-- a kill request was learned after the checker had installed what it does -/
def AskedToKill (es : List Ev) : Prop := ∃ a b, es = a ++ .touchKill :: b ∧ .install ∈ a

/-- a kill request was learned before that -/
def Early (es : List Ev) : Prop := ∃ a b, es = a ++ .touchKill :: b ∧ .install ∉ a

/-- a measurement of the memory of the command -/
def Measured (es : List Ev) (m : Nat) : Prop := ∃ d r, Ev.usage (some m) d r ∈ es

/-- the memory of the machine was found -/
def Machine (es : List Ev) (r : Nat) : Prop := ∃ m d, Ev.usage m d r ∈ es

/-- a step of the client itself, not of the command, the server, the user or the clock -/
def Internal : Ev → Prop
  | .install | .killLock | .killCmd | .killSend | .checkStop | .waited | .sendStop | .join | .lock | .finish => True
  | _ => False

end Spec

/-! ## Lemmas -/

theorem askedToKill_snoc (es : List Ev) (e : Ev) :
    Spec.AskedToKill (es ++ [e]) ↔ Spec.AskedToKill es ∨ (e = .touchKill ∧ .install ∈ es) := by
  constructor
  · rintro ⟨a, b, h, hi⟩
    rcases List.eq_nil_or_concat b with rfl | ⟨b', x, rfl⟩
    · have := List.append_inj' h (by simp)
      obtain ⟨h1, h2⟩ := this
      simp at h2
      exact .inr ⟨h2, h1 ▸ hi⟩
    · rw [List.concat_eq_append, ← List.cons_append, ← List.append_assoc] at h
      have := List.append_inj' h (by simp)
      exact .inl ⟨a, b', this.1, hi⟩
  · rintro (⟨a, b, rfl, hi⟩ | ⟨rfl, hi⟩)
    · exact ⟨a, b ++ [e], by simp, hi⟩
    · exact ⟨es, [], rfl, hi⟩

theorem early_snoc (es : List Ev) (e : Ev) : Spec.Early (es ++ [e]) ↔ Spec.Early es ∨ (e = .touchKill ∧ .install ∉ es) := by
  constructor
  · rintro ⟨a, b, h, hi⟩
    rcases List.eq_nil_or_concat b with rfl | ⟨b', x, rfl⟩
    · have := List.append_inj' h (by simp)
      obtain ⟨h1, h2⟩ := this
      simp at h2
      exact .inr ⟨h2, h1 ▸ hi⟩
    · rw [List.concat_eq_append, ← List.cons_append, ← List.append_assoc] at h
      have := List.append_inj' h (by simp)
      exact .inl ⟨a, b', this.1, hi⟩
  · rintro (⟨a, b, rfl, hi⟩ | ⟨rfl, hi⟩)
    · exact ⟨a, b ++ [e], by simp, hi⟩
    · exact ⟨es, [], rfl, hi⟩

/-- the state and the history -/
structure Hist (c : Cfg) (es : List Ev) (s : S) : Prop where
  inst : s.installed = true ↔ .install ∈ es
  early : (s.toucher = .gone ∧ s.killCalled = false) ↔ Spec.Early es
  asked : s.killCalled = true ∨ s.toucher = .wantLock ↔ Spec.AskedToKill es
  signalled : s.signalled = true ↔ ∃ o, Ev.signal o ∈ es
  time : s.ranoutTime = true ↔ Ev.signal true ∈ es
  disk : s.ranoutDisk = true ↔ Ev.noSpace ∈ es
  peak : ∀ m, Spec.Measured es m → m ≤ s.peakmem
  peak' : 0 < s.peakmem → Spec.Measured es s.peakmem
  mem : s.ranoutMem = true ↔ c.ram < s.peakmem
  machine : 0 < s.machineRAM → Spec.Machine es s.machineRAM
  exit : ∀ w, s.exited = some w ↔ ∃ h, Ev.exit w h ∈ es
  killed : s.killed = true → s.killCalled = true ∨ s.signalled = true ∨ s.ranoutDisk = true ∨
    (c.ram < s.peakmem ∧ 0 < s.machineRAM ∧ s.machineRAM / 100 * c.percent ≤ s.peakmem)


theorem measured_snoc (es : List Ev) (e : Ev) (m : Nat) :
    Spec.Measured (es ++ [e]) m ↔ Spec.Measured es m ∨ ∃ d r, e = .usage (some m) d r := by
  simp only [Spec.Measured, List.mem_append, List.mem_singleton]
  constructor
  · rintro ⟨d, r, h | h⟩
    · exact .inl ⟨d, r, h⟩
    · exact .inr ⟨d, r, h.symm⟩
  · rintro (⟨d, r, h⟩ | ⟨d, r, h⟩)
    · exact ⟨d, r, .inl h⟩
    · exact ⟨d, r, .inr h.symm⟩

theorem machine_snoc (es : List Ev) (e : Ev) (r : Nat) :
    Spec.Machine (es ++ [e]) r ↔ Spec.Machine es r ∨ ∃ m d, e = .usage m d r := by
  simp only [Spec.Machine, List.mem_append, List.mem_singleton]
  constructor
  · rintro ⟨d, r, h | h⟩
    · exact .inl ⟨d, r, h⟩
    · exact .inr ⟨d, r, h.symm⟩
  · rintro (⟨d, r, h⟩ | ⟨d, r, h⟩)
    · exact ⟨d, r, .inl h⟩
    · exact ⟨d, r, .inr h.symm⟩

theorem hist_usage (c : Cfg) (es : List Ev) (m d : Option Nat) (r : Nat) (s : S) (i : Hist c es s) :
    Hist c (es ++ [.usage m d r]) (usage c m d r s) := by
  have e1 := early_snoc es (.usage m d r)
  have e2 := askedToKill_snoc es (.usage m d r)
  simp only [reduceCtorEq, false_and, or_false] at e1 e2
  have e3 := measured_snoc es (.usage m d r)
  have e4 := machine_snoc es (.usage m d r)
  have mono : ∀ x, Spec.Measured es x → Spec.Measured (es ++ [.usage m d r]) x := fun x h => (e3 x).2 (.inl h)
  have mono' : ∀ x, Spec.Machine es x → Spec.Machine (es ++ [.usage m d r]) x := fun x h => (e4 x).2 (.inl h)
  have mr : Spec.Machine (es ++ [.usage m d r]) r := (e4 r).2 (.inr ⟨m, d, rfl⟩)
  obtain ⟨i1, i2, i3, i4, i5, i6, i7, i8, i9, i10, i11, i12⟩ := i
  have keep : ∀ pd, (∀ x, m = some x → x ≤ s.peakmem) → Hist c (es ++ [.usage m d r]) { s with peakdisk := pd } := by
    intro pd hm
    refine ⟨by simpa using i1, i2.trans e1.symm, i3.trans e2.symm, by simpa using i4, by simpa using i5, by simpa using i6, ?_, fun h => mono _ (i8 h),
      i9, fun h => mono' _ (i10 h), by simpa using i11, i12⟩
    intro x hx
    rcases (e3 x).1 hx with h | ⟨d', r', h⟩
    · exact i7 x h
    · injection h with h; exact hm x h
  unfold usage
  split
  · rename_i x
    have mx : Spec.Measured (es ++ [.usage (some x) d r]) x := (e3 x).2 (.inr ⟨d, r, rfl⟩)
    split
    · rename_i hlt
      have hp : ∀ y, Spec.Measured (es ++ [.usage (some x) d r]) y → y ≤ x := by
        intro y hy
        rcases (e3 y).1 hy with h | ⟨d', r', h⟩
        · have := i7 y h; omega
        · injection h with h; injection h with h; omega
      dsimp only
      split
      · rename_i hr
        have hmach : 0 < (if s.machineRAM = 0 then r else s.machineRAM) →
            Spec.Machine (es ++ [.usage (some x) d r]) (if s.machineRAM = 0 then r else s.machineRAM) := by
          by_cases h0 : s.machineRAM = 0
          · intro _; rw [if_pos h0]; exact mr
          · intro _; rw [if_neg h0]; exact mono' _ (i10 (by omega))
        by_cases hk : 0 < (if s.machineRAM = 0 then r else s.machineRAM) ∧ (if s.machineRAM = 0 then r else s.machineRAM) / 100 * c.percent ≤ x
        · rw [if_pos hk]
          exact ⟨by simpa using i1, i2.trans e1.symm, i3.trans e2.symm, by simpa using i4, by simpa using i5, by simpa using i6, hp, fun _ => mx,
            by simpa using hr, hmach, by simpa using i11, fun _ => .inr (.inr (.inr ⟨hr, hk⟩))⟩
        · rw [if_neg hk]
          refine ⟨by simpa using i1, i2.trans e1.symm, i3.trans e2.symm, by simpa using i4, by simpa using i5, by simpa using i6, hp, fun _ => mx,
            by simpa using hr, hmach, by simpa using i11, fun h => ?_⟩
          rcases i12 h with h | h | h | ⟨h1, h2, h3⟩
          · exact .inl h
          · exact .inr (.inl h)
          · exact .inr (.inr (.inl h))
          · refine .inr (.inr (.inr ⟨hr, ?_⟩))
            have h0 : ¬ s.machineRAM = 0 := by omega
            simp only [if_neg h0]
            exact ⟨h2, by omega⟩
      · rename_i hr
        refine ⟨by simpa using i1, i2.trans e1.symm, i3.trans e2.symm, by simpa using i4, by simpa using i5, by simpa using i6, hp, fun _ => mx,
            ?_, fun h => mono' _ (i10 h), by simpa using i11, fun h => ?_⟩
        · dsimp only; rw [i9]; omega
        · rcases i12 h with h | h | h | ⟨h1, h2, h3⟩
          · exact .inl h
          · exact .inr (.inl h)
          · exact .inr (.inr (.inl h))
          · exact absurd h1 (by omega)
    · rename_i hlt
      exact keep _ fun y hy => by injection hy with hy; omega
  · exact keep _ fun y hy => by cases hy

theorem hist (c : Cfg) : ∀ es s, run c {} es = some s → Inv s ∧ Hist c es s := by
  apply run_ind
  · refine ⟨by constructor <;> simp, ?_⟩
    constructor <;> simp [Spec.Early, Spec.AskedToKill, Spec.Measured]
  · intro es s e s' ⟨v, i⟩ h
    refine ⟨inv_step c s s' e v h, ?_⟩
    cases e
    case usage m d r =>
      simp only [step] at h
      split at h
      · cases h; exact hist_usage c es m d r s i
      · cases h
    all_goals
      have v1 := v.setup
      have v2 := v.starting
      have v3 := v.calling
      have v4 := v.uncalled
      obtain ⟨i1, i2, i3, i4, i5, i6, i7, i8, i9, i10, i11, i12⟩ := i
      simp only [step] at h
      split at h
      all_goals first | cases h | skip
    case hs.touchKill.isTrue =>
      split at h <;> cases h
      · constructor <;> simp_all [early_snoc, askedToKill_snoc, measured_snoc, machine_snoc]
      · constructor <;> simp_all [early_snoc, askedToKill_snoc, measured_snoc, machine_snoc]
    all_goals (constructor <;> simp_all [early_snoc, askedToKill_snoc, measured_snoc, machine_snoc])
    intro w
    cases ‹Bool› <;> simp [eq_comm]

/-! ## Theorems -/

/-- C105, what the decision at the end is made on, after any run: the command is said to have been signalled, to have been out
of time, out of disk or out of memory exactly if a signal came, it came after the time of the job, the disk was found full, or
more memory than expected was measured; its exit is that of the command; and it is said to have been killed only if that was
asked for. -/
theorem C105_reasons (c : Cfg) (es : List Ev) (s : S) (base e : Ended) (h : run c {} es = some s) (he : s.ended base = some e) :
    (e.signalled = true ↔ ∃ o, .signal o ∈ es) ∧ (e.ranoutTime = true ↔ .signal true ∈ es) ∧
    (e.ranoutDisk = true ↔ .noSpace ∈ es) ∧ (e.ranoutMem = true ↔ ∃ m, Spec.Measured es m ∧ c.ram < m) ∧
    (∃ held, .exit e.wait held ∈ es) ∧ (e.killCalled = true → Spec.AskedToKill es) := by
  obtain ⟨_, i⟩ := hist c es s h
  simp only [S.ended, Option.map_eq_some_iff] at he
  obtain ⟨w, hw, rfl⟩ := he
  refine ⟨i.signalled, i.time, i.disk, ?_, (i.exit w).1 hw, fun hk => i.asked.1 (.inl hk)⟩
  show s.ranoutMem = true ↔ _
  rw [i.mem]
  constructor
  · intro hr; exact ⟨s.peakmem, i.peak' (by omega), hr⟩
  · rintro ⟨m, hm, hr⟩
    have := i.peak m hm
    omega

/-- a run: memory is measured, a signal comes after the time of the job, the command ends -/
def signalRun : List Ev := [.start, .install, .usage (some 7) (some 1) 1000, .usage (some 3) none 1000, .signal true,
  .exit (.exit (-1)) true, .waited, .sendStop, .join, .lock, .finish]

example : ((run ⟨10, 90⟩ {} signalRun).bind (S.ended · { wait := .ok })).map (fun e => (e.signalled, e.ranoutTime, e.ranoutMem, (finish e).failreason)) =
    some (true, true, false, .time) := by decide

/-- C105, the peak of the memory is the largest that was measured -/
theorem C105_peak (c : Cfg) (es : List Ev) (s : S) (h : run c {} es = some s) :
    (∀ m, Spec.Measured es m → m ≤ s.peakmem) ∧ (0 < s.peakmem → Spec.Measured es s.peakmem) :=
  ⟨(hist c es s h).2.peak, (hist c es s h).2.peak'⟩

example : (run ⟨10, 90⟩ {} signalRun).map (·.peakmem) = some 7 := by decide

/-- C105: the command is not killed without need: SIGKILL is sent only if a kill was asked for, a signal came, no space was
left, or it was measured to use both more memory than expected and more than the given part of that of the machine. -/
theorem C105_needless (c : Cfg) (es : List Ev) (s : S) (h : run c {} es = some s) (hk : s.killed = true) :
    Spec.AskedToKill es ∨ (∃ o, .signal o ∈ es) ∨ .noSpace ∈ es ∨
    ∃ m r, Spec.Measured es m ∧ Spec.Machine es r ∧ c.ram < m ∧ r / 100 * c.percent ≤ m := by
  obtain ⟨_, i⟩ := hist c es s h
  rcases i.killed hk with h | h | h | ⟨h1, h2, h3⟩
  · exact .inl (i.asked.1 (.inl h))
  · exact .inr (.inl (i.signalled.1 h))
  · exact .inr (.inr (.inl (i.disk.1 h)))
  · exact .inr (.inr (.inr ⟨_, _, i.peak' (by omega), i.machine h2, h1, h3⟩))

example : (run ⟨10, 90⟩ {} [.start, .install, .usage (some 11) none 1000]).map (·.killed) = some false ∧
    (run ⟨10, 90⟩ {} [.start, .install, .usage (some 899) none 1000]).map (·.killed) = some false ∧
    (run ⟨10, 90⟩ {} [.start, .install, .usage (some 900) none 1000]).map (·.killed) = some true := by decide

/-- C105, a kill request that comes while the command is watched: unless the command has exited, nothing stops the client from
killing it, in two steps of its own. -/
theorem C105_kill (c : Cfg) (es : List Ev) (s : S) (h : run c {} es = some s) (ha : Spec.AskedToKill es) (hx : s.exited = none) :
    s.killed = true ∨ (∃ s', run c s [.killLock, .killCmd] = some s' ∧ s'.killed = true ∧ s'.killCalled = true) ∨
    (∃ s', run c s [.killCmd] = some s' ∧ s'.killed = true ∧ s'.killCalled = true) := by
  obtain ⟨v, i⟩ := hist c es s h
  have hm : s.main = .setup ∨ s.main = .waiting := by
    have := v.exitedMain
    by_cases h1 : s.main = .setup
    · exact .inl h1
    · by_cases h2 : s.main = .waiting
      · exact .inr h2
      · exact absurd hx (this h1 h2)
  have hl : s.main ≠ .locked ∧ s.main ≠ .done := by rcases hm with h | h <;> simp [h]
  rcases i.asked.2 ha with hc | hw
  · by_cases hk : s.toucher = .killing
    · exact .inr (.inr ⟨{ s with toucher := .sending, killed := true, killDone := s.killDone + 1 },
        by simp [run, step, hk, v.doneNot hc hk], rfl, hc⟩)
    · exact .inl (v.calledKilled hc hk)
  · have hd : s.killDone = 0 := v.alive (.inr hw)
    exact .inr (.inl ⟨{ s with toucher := .sending, killed := true, killCalled := true, killDone := s.killDone + 1 },
      by simp [run, step, hw, hl.1, hl.2, hd], rfl, rfl⟩)

example : ∃ s, run ⟨10, 90⟩ {} [.start, .install, .touchKill] = some s ∧ s.exited = none ∧ s.killed = false ∧
    Spec.AskedToKill [.start, .install, .touchKill] :=
  ⟨_, rfl, rfl, rfl, [.start, .install], [], rfl, by simp⟩

/-- C105: a command that is said to have been killed when `Execute` decides what to do was sent SIGKILL; if then it exited
with a code that has no meaning of its own, without another reason, the job is buried as killed. -/
theorem C105_killed (c : Cfg) (es : List Ev) (s : S) (base e : Ended) (h : run c {} es = some s) (hd : s.main = .done)
    (he : s.ended base = some e) (hk : e.killCalled = true) :
    s.killed = true ∧ (∀ code, e.wait = .exit code → code ≠ 126 → code ≠ 127 → code ≠ 128 →
      (∀ o, .signal o ∉ es) → .noSpace ∉ es → (∀ m, Spec.Measured es m → m ≤ c.ram) →
      (finish e).action = some .bury ∧ (finish e).failreason = .killed) := by
  obtain ⟨v, i⟩ := hist c es s h
  have hr := C105_reasons c es s base e h he
  have hkc : s.killCalled = true := by
    simp only [S.ended, Option.map_eq_some_iff] at he
    obtain ⟨w, _, rfl⟩ := he
    exact hk
  refine ⟨?_, ?_⟩
  · apply v.calledKilled hkc
    exact v.notKilling hd
  · intro code hw h1 h2 h3 hs hn hm
    have e1 : e.signalled = false := by
      rw [← Bool.not_eq_true, hr.1]; rintro ⟨o, ho⟩; exact hs o ho
    have e2 : e.ranoutDisk = false := by rw [← Bool.not_eq_true, hr.2.2.1]; exact hn
    have e3 : e.ranoutMem = false := by
      rw [← Bool.not_eq_true, hr.2.2.2.1]; rintro ⟨m, h1, h2⟩; have := hm m h1; omega
    simp [finish, decision, hw, h1, h2, h3, e1, e2, e3, hk, Local.action]

/-- a run with a kill request -/
def killRun : List Ev := [.start, .install, .touchKill, .killLock, .killCmd, .exit (.exit (-1)) true, .killSend, .checkStop, .waited,
  .sendStop, .join, .lock, .finish]

example : ((run ⟨10, 90⟩ {} killRun).bind (S.ended · { wait := .ok })).map (fun e => ((finish e).action, (finish e).failreason)) =
    some (some .bury, .killed) := by decide

/-- C105, if no kill request was learned before the command was started: as long as `Execute` waits for the command, it is
being watched, or about to be, or has been killed. Missing: a kill request that is learned before. -/
theorem C105_watched_partial (c : Cfg) (es : List Ev) (s : S) (h : run c {} es = some s) (hn : ¬ Spec.Early es) (hm : s.main = .waiting) :
    s.killed = true ∨ (∃ s', run c s [.install] = some s' ∧ s'.checker = .checking) ∨
    (∀ o, ∃ s', step c s (.signal o) = some s' ∧ s'.killed = true) := by
  obtain ⟨v, i⟩ := hist c es s h
  rcases hc : s.checker
  · exact absurd (v.no hc) (by simp [hm])
  · exact .inr (.inl ⟨{ s with checker := .checking, installed := true }, by simp [run, step, hc], rfl⟩)
  · exact .inr (.inr fun o => ⟨_, by simp only [step, hc]; rfl, rfl⟩)
  · left
    apply v.watch _ (.inl hm) hc
    intro hg
    cases hk : s.killCalled
    · exact absurd (i.early.1 ⟨hg, hk⟩) hn
    · rfl
  · have := v.gone.1 hc
    simp [hm] at this

example : ∃ s, run ⟨10, 90⟩ {} [.start, .install, .usage (some 3) none 5] = some s ∧ s.main = .waiting ∧ s.killed = false :=
  ⟨_, rfl, rfl, rfl⟩

/-- the steps that lead a client whose command has exited to its decision -/
theorem toDone (c : Cfg) (s : S) (v : Inv s) (hx : s.exited ≠ none) (hh : s.held = false ∨ s.closed = true) (hnd : s.main ≠ .done) :
    ∃ es' s', (∀ e ∈ es', Spec.Internal e) ∧ run c s es' = some s' ∧ s'.main = .done := by
  have pre : ∀ (s s1 : S) (e : Ev), step c s e = some s1 → Spec.Internal e →
      (∃ es' s', (∀ e ∈ es', Spec.Internal e) ∧ run c s1 es' = some s' ∧ s'.main = .done) →
      ∃ es' s', (∀ e ∈ es', Spec.Internal e) ∧ run c s es' = some s' ∧ s'.main = .done := by
    rintro s s1 e h hi ⟨es', s', h1, h2, h3⟩
    refine ⟨e :: es', s', ?_, by simp [run, h, h2], h3⟩
    intro x hx
    rcases List.mem_cons.1 hx with rfl | hx
    · exact hi
    · exact h1 x hx
  have l0 : ∀ s : S, s.main = .locked → (s.killCalled = true → 0 < s.killDone) →
      ∃ es' s', (∀ e ∈ es', Spec.Internal e) ∧ run c s es' = some s' ∧ s'.main = .done := by
    intro s hm hk
    exact pre s _ .finish (if_pos ⟨hm, hk⟩) trivial ⟨[], _, by simp, rfl, rfl⟩
  have l1 : ∀ s : S, Inv s → s.main = .locked →
      ∃ es' s', (∀ e ∈ es', Spec.Internal e) ∧ run c s es' = some s' ∧ s'.main = .done := by
    intro s v hm
    by_cases hk : s.killCalled = true
    · by_cases ht : s.toucher = .killing
      · have h0 := v.doneNot hk ht
        exact pre s _ .killCmd (if_pos ⟨ht, by omega⟩) trivial (l0 _ hm (fun _ => by simp))
      · have := v.doneCalled hk ht (by simp [hm])
        exact l0 s hm (fun _ => by omega)
    · exact l0 s hm (fun h => absurd h hk)
  have l2 : ∀ s : S, Inv s → s.main = .locking →
      ∃ es' s', (∀ e ∈ es', Spec.Internal e) ∧ run c s es' = some s' ∧ s'.main = .done := by
    intro s v hm
    have hs : step c s .lock = some { s with main := .locked } := if_pos hm
    exact pre s _ .lock hs trivial (l1 _ (inv_step c _ _ _ v hs) rfl)
  have l3 : ∀ s : S, Inv s → s.main = .joining → s.checker = .finished →
      ∃ es' s', (∀ e ∈ es', Spec.Internal e) ∧ run c s es' = some s' ∧ s'.main = .done := by
    intro s v hm hc
    have hs : step c s .join = some { s with main := .locking, checker := .gone } := if_pos ⟨hm, hc⟩
    exact pre s _ .join hs trivial (l2 _ (inv_step c _ _ _ v hs) rfl)
  have l4 : ∀ s : S, Inv s → s.main = .joining → s.checker = .checking →
      ∃ es' s', (∀ e ∈ es', Spec.Internal e) ∧ run c s es' = some s' ∧ s'.main = .done := by
    intro s v hm hc
    have hs : step c s .checkStop = some { s with stop := s.stop - 1, closed := true, checker := .finished } :=
      if_pos ⟨hc, v.joinStop hm (.inl hc)⟩
    exact pre s _ .checkStop hs trivial (l3 _ (inv_step c _ _ _ v hs) hm rfl)
  have l5 : ∀ s : S, Inv s → s.main = .joining →
      ∃ es' s', (∀ e ∈ es', Spec.Internal e) ∧ run c s es' = some s' ∧ s'.main = .done := by
    intro s v hm
    rcases hc : s.checker
    · exact absurd (v.no hc) (by simp [hm])
    · have hs : step c s .install = some { s with checker := .checking, installed := true } := if_pos hc
      exact pre s _ .install hs trivial (l4 _ (inv_step c _ _ _ v hs) hm rfl)
    · exact l4 s v hm hc
    · exact l3 s v hm hc
    · have := v.gone.1 hc
      simp [hm] at this
  have l6 : ∀ s : S, Inv s → s.main = .stopping →
      ∃ es' s', (∀ e ∈ es', Spec.Internal e) ∧ run c s es' = some s' ∧ s'.main = .done := by
    intro s v hm
    have hlt : s.stop < 2 := by
      have := v.stop
      simp only [hm, reduceCtorEq, or_true, or_false, if_true] at this
      split at this <;> omega
    have hs : step c s .sendStop = some { s with main := .joining, stop := s.stop + 1 } := if_pos ⟨hm, hlt⟩
    exact pre s _ .sendStop hs trivial (l5 _ (inv_step c _ _ _ v hs) rfl)
  rcases hm : s.main
  · exact absurd (v.setup hm).2.2 hx
  · have hs : step c s .waited = some { s with main := .stopping } :=
      if_pos ⟨hm, by rw [Option.isSome_iff_ne_none]; exact hx, hh⟩
    exact pre s _ .waited hs trivial (l6 _ (inv_step c _ _ _ v hs) rfl)
  · exact l6 s v hm
  · exact l5 s v hm
  · exact l2 s v hm
  · exact l1 s v hm
  · exact absurd hm hnd

/-- C105: once the command has exited, and no other process holds its output open (or the client has stopped reading it), the
client gets to its decision by steps of its own: its goroutines do not wait for each other for ever. -/
theorem C105_ends (c : Cfg) (es : List Ev) (s : S) (h : run c {} es = some s) (hx : ∃ w held, .exit w held ∈ es)
    (hh : s.held = false ∨ s.closed = true) (hnd : s.main ≠ .done) :
    ∃ es' s', (∀ e ∈ es', Spec.Internal e) ∧ run c s es' = some s' ∧ s'.main = .done := by
  obtain ⟨v, i⟩ := hist c es s h
  obtain ⟨w, held, hx⟩ := hx
  exact toDone c s v (by rw [(i.exit w).2 ⟨held, hx⟩]; simp) hh hnd

/-- a kill request comes while the command exits -/
example : ∃ s, run ⟨10, 90⟩ {} [.start, .install, .touchKill, .killLock, .exit .ok false, .waited] = some s ∧ s.main ≠ .done ∧ s.held = false :=
  ⟨_, rfl, by simp, rfl⟩

/-- The code violates C105: a kill request learned before the command was started (while file systems are mounted, say) is
forgotten, and leaves the command unwatched: it is not killed, whatever signals come and however much it uses. -/
theorem C105_violated_early :
    (∀ c es s, run c {} es = some s → Spec.Early es → s.killCalled = false ∧ s.toucher = .gone) ∧
    ∃ es s, Spec.Early es ∧ run ⟨10, 90⟩ {} es = some s ∧ s.main = .waiting ∧ s.exited = none ∧
      ∀ es' s', run ⟨10, 90⟩ s es' = some s' → s'.killed = false ∧ s'.signalled = false := by
  refine ⟨fun c es s h he => ?_, [.touchKill, .start, .install, .checkStop], _, ⟨[], _, rfl, by simp⟩, rfl, rfl, rfl, ?_⟩
  · have := (hist c es s h).2.early.2 he
    exact ⟨this.2, this.1⟩
  · suffices hk : ∀ es' (s s' : S), s.killed = false ∧ s.signalled = false ∧ s.toucher = .gone ∧ (s.checker = .finished ∨ s.checker = .gone) ∧ s.main ≠ .setup →
        run ⟨10, 90⟩ s es' = some s' → s'.killed = false ∧ s'.signalled = false by
      intro es' s' h
      refine hk es' _ s' ?_ h
      exact ⟨rfl, rfl, rfl, .inl rfl, by simp⟩
    intro es'
    induction es' with
    | nil => intro s s' h hr; simp only [run, Option.some.injEq] at hr; subst hr; exact ⟨h.1, h.2.1⟩
    | cons e es' ih =>
      intro s s' ⟨h1, h2, h3, h4, h5⟩ hr
      simp only [run] at hr
      rcases ht : step ⟨10, 90⟩ s e with _ | s1
      · rw [ht] at hr; cases hr
      · rw [ht] at hr
        refine ih s1 s' ?_ hr
        have h4' : s.checker ≠ .starting ∧ s.checker ≠ .checking := by rcases h4 with h | h <;> simp [h]
        cases e <;> simp only [step, h3, h4'.1, h4'.2, reduceCtorEq, if_false, false_and] at ht <;>
          first
          | (cases ht; done)
          | (split at ht
             · cases ht; simp_all
             · cases ht)

/-- The code violates C105: after the command was killed for its use of memory, while another process holds its output open,
`Execute` waits for that process, and no signal or kill request changes that. -/
theorem C105_violated_memory : ∃ es s, run ⟨10, 90⟩ {} es = some s ∧ s.killed = true ∧ s.exited ≠ none ∧
    ∀ es' s', Ev.release ∉ es' → run ⟨10, 90⟩ s es' = some s' → s'.main = .waiting := by
  refine ⟨[.start, .install, .usage (some 900) none 1000, .exit (.exit (-1)) true], _, rfl, rfl, by simp, ?_⟩
  suffices hk : ∀ es' (s s' : S), s.main = .waiting ∧ s.held = true ∧ s.closed = false ∧ s.checker = .finished ∧ s.exited ≠ none →
      Ev.release ∉ es' → run ⟨10, 90⟩ s es' = some s' → s'.main = .waiting by
    intro es' s' hn h
    refine hk es' _ s' ?_ hn h
    exact ⟨rfl, rfl, rfl, rfl, by simp⟩
  intro es'
  induction es' with
  | nil => intro s s' h _ hr; simp only [run, Option.some.injEq] at hr; subst hr; exact h.1
  | cons e es' ih =>
    intro s s' ⟨h1, h2, h3, h4, h5⟩ hn hr
    simp only [List.mem_cons, not_or] at hn
    simp only [run] at hr
    rcases ht : step ⟨10, 90⟩ s e with _ | s1
    · rw [ht] at hr; cases hr
    · rw [ht] at hr
      refine ih s1 s' ?_ hn.2 hr
      cases e <;> simp only [step, h1, h2, h3, h4, h5, reduceCtorEq, if_false, false_and] at ht <;>
        first
        | (cases ht; done)
        | exact absurd rfl hn.1
        | (split at ht
           · first
             | (cases ht; simp_all; done)
             | (split at ht <;> cases ht <;> simp_all)
           · cases ht)
        | simp_all

end Verif.Client.Monitor
