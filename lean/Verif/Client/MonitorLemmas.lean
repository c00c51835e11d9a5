import Verif.Client.Monitor
/-!
# Watching a command: invariant of the control state
-/
namespace Verif.Client.Monitor

theorem run_append (c : Cfg) (s : S) (a b : List Ev) : run c s (a ++ b) = (run c s a).bind fun s' => run c s' b := by
  induction a generalizing s with
  | nil => rfl
  | cons e a ih =>
    simp only [List.cons_append, run]
    cases step c s e with
    | none => rfl
    | some s' => simpa using ih s'

/-- induction over runs, from the end -/
theorem run_ind (c : Cfg) (P : List Ev → S → Prop) (h0 : P [] {}) (hs : ∀ es s e s', P es s → step c s e = some s' → P (es ++ [e]) s') :
    ∀ es s, run c {} es = some s → P es s := by
  have : ∀ (n : Nat) (es : List Ev), es.length = n → ∀ s, run c {} es = some s → P es s := by
    intro n
    induction n with
    | zero =>
      intro es hl s h
      have : es = [] := List.length_eq_zero_iff.1 hl
      subst this
      simp only [run, Option.some.injEq] at h
      subst h; exact h0
    | succ n ih =>
      intro es hl s h
      have hne : es ≠ [] := by intro hc; simp [hc] at hl
      rw [← List.dropLast_concat_getLast hne] at h ⊢
      rw [run_append] at h
      rcases hr : run c {} es.dropLast with _ | s1
      · rw [hr] at h; cases h
      · rw [hr] at h
        simp only [Option.bind_some, run] at h
        rcases ht : step c s1 (es.getLast hne) with _ | s2
        · rw [ht] at h; cases h
        · rw [ht] at h
          simp only [Option.bind_some, Option.some.injEq] at h
          subst h
          exact hs _ _ _ _ (ih es.dropLast (by simp [hl]) s1 hr) ht
  intro es s h
  exact this es.length es rfl s h

/-- what holds of the control state after any run -/
structure Inv (s : S) : Prop where
  setup : s.main = .setup → s.checker = .no ∧ s.installed = false ∧ s.exited = none
  no : s.checker = .no → s.main = .setup
  starting : s.checker = .starting → s.installed = false
  others : s.checker = .checking ∨ s.checker = .finished ∨ s.checker = .gone → s.installed = true
  exitedMain : s.main ≠ .setup → s.main ≠ .waiting → s.exited ≠ none
  gone : s.checker = .gone ↔ (s.main = .locking ∨ s.main = .locked ∨ s.main = .done)
  calling : s.toucher = .killing ∨ s.toucher = .sending → s.killCalled = true
  uncalled : s.toucher = .alive ∨ s.toucher = .wantLock → s.killCalled = false
  calledKilled : s.killCalled = true → s.toucher ≠ .killing → s.killed = true
  doneEarly : s.toucher = .gone → s.killCalled = false → s.killDone = 1
  doneNot : s.killCalled = true → s.toucher = .killing → s.killDone = 0
  doneCalled : s.killCalled = true → s.toucher ≠ .killing → s.main ≠ .done → s.killDone = 1
  wantInst : s.toucher = .wantLock ∨ s.killCalled = true → s.installed = true
  stop : s.stop ≤ (if s.toucher = .gone then 1 else 0) + (if s.main = .setup ∨ s.main = .waiting ∨ s.main = .stopping then 0 else 1)
  joinStop : s.main = .joining → s.checker = .checking ∨ s.checker = .starting → 0 < s.stop
  watch : (s.toucher = .gone → s.killCalled = true) → (s.main = .waiting ∨ s.main = .stopping) → s.checker = .finished → s.killed = true
  alive : s.toucher = .alive ∨ s.toucher = .wantLock → s.killDone = 0
  notKilling : s.main = .done → s.toucher ≠ .killing

theorem usage_ctl (c : Cfg) (m d : Option Nat) (r : Nat) (s : S) :
    ∃ pm pd rm mr, usage c m d r s = { s with peakmem := pm, peakdisk := pd, ranoutMem := rm, machineRAM := mr } ∨
      usage c m d r s = { s with peakmem := pm, peakdisk := pd, ranoutMem := rm, machineRAM := mr, killed := true, checker := .finished } := by
  unfold usage
  split
  · split
    · dsimp only
      split
      · by_cases hk : 0 < (if s.machineRAM = 0 then r else s.machineRAM) ∧ (if s.machineRAM = 0 then r else s.machineRAM) / 100 * c.percent ≤ ‹Nat›
        · rw [if_pos hk]; exact ⟨_, _, _, _, .inr rfl⟩
        · rw [if_neg hk]; exact ⟨_, _, _, _, .inl rfl⟩
      · exact ⟨_, _, _, _, .inl rfl⟩
    · exact ⟨_, _, _, _, .inl rfl⟩
  · exact ⟨_, _, _, _, .inl rfl⟩

set_option maxHeartbeats 4000000 in
theorem inv_step (c : Cfg) (s s' : S) (e : Ev) (i : Inv s) (h : step c s e = some s') : Inv s' := by
  obtain ⟨i1, i2, i3, i4, i5, i6, i7, i8, i9, i10, i11, i12, i13, i14, i15, i16, i17, i18⟩ := i
  cases e
  case usage m d r =>
    simp only [step] at h
    split at h
    · rename_i hc
      obtain ⟨pm, pd, rm, mr, hu | hu⟩ := usage_ctl c m d r s <;> rw [hu] at h <;> cases h
      · constructor <;> dsimp only <;> assumption
      · constructor <;> simp_all
    · cases h
  all_goals
    simp only [step] at h
    split at h
    all_goals first | cases h | skip
  case touchKill =>
    split at h <;> cases h
    · constructor <;> simp_all
    · constructor <;> simp_all <;> omega
  all_goals (constructor <;> simp_all <;> (try omega))
  · intro h1 h2
    by_cases hg : s.toucher = .gone
    · exact i9 (h1 hg) (by simp [hg])
    · have : (s.main = .waiting ∨ s.main = .stopping) := h2
      simp [hg, this] at i14; omega
  · rename_i hw
    intro hc; simp [hc] at hw
  · rename_i hf
    intro ht
    have h1 := i7 (.inl ht)
    have h2 := hf.2 h1
    have h3 := i11 h1 ht
    omega


theorem inv (c : Cfg) : ∀ es s, run c {} es = some s → Inv s := by
  apply run_ind
  · constructor <;> simp
  · exact fun es s e s' i h => inv_step c s s' e i h

end Verif.Client.Monitor
