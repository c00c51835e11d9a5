import Verif.Server.LockCode
import Verif.Server.LockLemmas
/-!
# C134: calls do not wait for each other for ever

However many calls run at the same time and in whatever order they go on, none is stuck: each can go on or waits for one that can, and
no call waits, through others, for itself. This is so for all functions of `safe`; for the three of `faulty` it is not.
-/
namespace Verif.Server.Locks

/-- All functions take their locks in the order of `rank`. -/
theorem safe_ordered : ∀ p ∈ safe, ordered rank [] p = true := by decide +kernel

/-- No call of a function in `safe` is ever stuck. Partial: see the theorems on violations below. -/
theorem C134_no_deadlock_partial (es : List Ev) (s : State Lk) (h : run safe [] es = some s) : NoDeadlock s :=
  noDeadlock (good_run safe_ordered es (by intro f hf; cases hf) h)

/-- No call of a function in `safe` waits for itself, not even through others. Partial: as above. -/
theorem C134_no_circle_partial (es : List Ev) (s : State Lk) (h : run safe [] es = some s) (t : Nat) : ¬ Circle s t :=
  noCircle (good_run safe_ordered es (by intro f hf; cases hf) h) t

/-- The call at `t` does, one after the other, what the letters say: `l` and `r` for the left and right branch, or going round a loop
    again or not; `k` asks for a lock, of the number 0; `g` goes on. -/
def does (t : Nat) (s : String) : List Ev :=
  s.toList.map fun c => .step t (if c = 'l' then .left else if c = 'r' then .right else if c = 'k' then .inst 0 else .go)

theorem any_some {o : Option (State Lk)} {p : State Lk → Bool} (h : o.any p = true) : ∃ s, o = some s ∧ p s = true := by
  cases o with
  | none => cases h
  | some s => exact ⟨s, rfl, h⟩

/-- A state in which `t` waits for `u`. -/
def waitsB (s : State Lk) (t u : Nat) (k : Key Lk) (w : Bool) : Bool :=
  decide (wants (s.getD t []) = some (k, w)) && decide (t < s.length) && decide (u < s.length) &&
    ((held (s.getD u [])).contains (k, true) || (w && (held (s.getD u [])).contains (k, false)))

theorem waitsB_blocks {s : State Lk} {t u : Nat} {k : Key Lk} {w : Bool} (h : waitsB s t u k w = true) :
    ∃ f g, s[t]? = some f ∧ s[u]? = some g ∧ Blocks f g := by
  simp only [waitsB, Bool.and_eq_true, Bool.or_eq_true, decide_eq_true_eq, List.contains_iff_mem] at h
  obtain ⟨⟨⟨h1, h2⟩, h3⟩, h4⟩ := h
  refine ⟨s[t], s[u], List.getElem?_eq_getElem h2, List.getElem?_eq_getElem h3, k, w, ?_⟩
  rw [List.getD_eq_getElem?_getD, List.getElem?_eq_getElem h2] at h1
  simp only [List.getD_eq_getElem?_getD, List.getElem?_eq_getElem h3, Option.getD_some] at h4
  rcases h4 with h4 | ⟨h5, h4⟩
  · exact ⟨true, h1, h4, by simp⟩
  · exact ⟨false, h1, h4, by simp [h5]⟩

theorem waitsB_waits {s : State Lk} {t u : Nat} {k : Key Lk} {w : Bool} (h : waitsB s t u k w = true) : Waits s t u := by
  obtain ⟨f, g, hf, hg, k', w', v, h1, h2, h3⟩ := waitsB_blocks h
  exact ⟨f, g, k', w', hf, hg, h1, Or.inl ⟨v, h2, h3⟩⟩

/-- One run with calls that wait: "jtouch" waits to write the queue while `GetServerStats` reads it. -/
def busyRun : List Ev := [.start 35, .start 46] ++ does 0 "gkg" ++ does 1 "gkgggglggkgggglgkggggkgggggglgkgggglkgggglggk"

example : ∃ s, run safe [] busyRun = some s ∧ Waits s 1 0 := by
  have h : (run safe [] busyRun).any (fun s => waitsB s 1 0 ⟨.queue, 0⟩ true) = true := by decide +kernel
  obtain ⟨s, hs, h⟩ := any_some h
  exact ⟨s, hs, waitsB_waits h⟩

/-! ## Where it does not hold -/

theorem stuck_both {s : State Lk} {t u : Nat} {k k' : Key Lk} {w w' : Bool} (h1 : waitsB s t u k w = true)
    (h2 : waitsB s u t k' w' = true) : StuckForEver code s t ∧ StuckForEver code s u := by
  obtain ⟨f, g, hf, hg, h1⟩ := waitsB_blocks h1
  obtain ⟨g', f', hg', hf', h2⟩ := waitsB_blocks h2
  rw [hf] at hf'; cases hf'
  rw [hg] at hg'; cases hg'
  refine ⟨⟨⟨f, hf, ?_⟩, ?_⟩, ⟨⟨g, hg, ?_⟩, ?_⟩⟩
  · rintro rfl
    obtain ⟨_, _, _, h, _⟩ := h1
    cases h
  · intro es s' h
    rw [(two_stuck es hf hg h1 h2 h).1, hf]
  · rintro rfl
    obtain ⟨_, _, _, h, _⟩ := h2
    cases h
  · intro es s' h
    rw [(two_stuck es hf hg h1 h2 h).2, hg]

/-- A job that somebody looks at on the status page is released: "jrelease" has the database and wants the job, the callback that tells
    the status page has the job and wants the database. -/
def watchedRun : List Ev :=
  [.start 71, .start 48] ++
  does 1 ("gkgggglggkgggglgkggggkgggggglgkggggkgggglgkggggllgkgrggrgglggkgggglgkglkggggglkggggggkgggggkgggglgkgggglgkggggkgggglgkgggg" ++
    "gkgggglggkgggglggkgggglgkggkgggggkgrgglggglgkggggkggkgggglgkgrgglgggggglggggglggkggrgggrggglgggggggkgrgglkgggggggglglkggkggg" ++
    "glkgggggggkgkggggglgkgrggrgrgkgggggggggkgggggglgrgkgggggggglkgggggggkglgk") ++
  does 0 "grgrgkgggglgkggggkglk"

theorem C134_violated_watched : code[71]? = some changedWatched ∧ code[48]? = some (request jrelease) ∧
    ∃ s, run code [] watchedRun = some s ∧ StuckForEver code s 0 ∧ StuckForEver code s 1 := by
  refine ⟨rfl, rfl, ?_⟩
  have h : (run code [] watchedRun).any (fun s => waitsB s 0 1 ⟨.db, 0⟩ false && waitsB s 1 0 ⟨.job, 0⟩ false) = true := by decide +kernel
  obtain ⟨s, hs, h⟩ := any_some h
  exact ⟨s, hs, stuck_both (Bool.and_eq_true_iff.mp h).1 (Bool.and_eq_true_iff.mp h).2⟩

/-- A job's command is modified, and its time is over: "jmod" has the job and wants the queue, the queue has itself and wants the
    job. -/
def modifyRun : List Ev :=
  [.start 72, .start 1] ++ does 0 "gkgggglgkgggglglgkgggglgkggggkgggggrglkglk" ++ does 1 "lgkgrggkglgrggk"

theorem C134_violated_modify : code[72]? = some (request jmodKeys) ∧ code[1]? = some (qTTRProcessing SQ ttrCallback) ∧
    ∃ s, run code [] modifyRun = some s ∧ StuckForEver code s 0 ∧ StuckForEver code s 1 := by
  refine ⟨rfl, rfl, ?_⟩
  have h : (run code [] modifyRun).any (fun s => waitsB s 0 1 ⟨.queue, 0⟩ false && waitsB s 1 0 ⟨.job, 0⟩ true) = true := by decide +kernel
  obtain ⟨s, hs, h⟩ := any_some h
  exact ⟨s, hs, stuck_both (Bool.and_eq_true_iff.mp h).1 (Bool.and_eq_true_iff.mp h).2⟩

/-- `schedule` has begun, `cleanup` is called and ends, `schedule` goes on and returns with the lock; then a command that ran ends
    and its goroutine wants the lock. -/
def cleanupRun : List Ev :=
  [.start 73, .start 19, .start 17] ++ does 0 "gkggg" ++ does 1 "kgkggkggggkgkgrggggg" ++ does 0 "gkggkgggg" ++ does 2 "gk"

theorem C134_violated_cleanup : code[73]? = some scheduleLate ∧ code[19]? = some cleanup ∧ code[17]? = some processQueue ∧
    ∃ s, run code [] cleanupRun = some s ∧ s[1]? = some [] ∧ StuckForEver code s 2 := by
  refine ⟨rfl, rfl, rfl, ?_⟩
  have h : (run code [] cleanupRun).any (fun s => decide (s[1]? = some []) && decide ((s[0]?.getD []).head? = some (.run .stop)) &&
      waitsB s 2 0 ⟨.lmutex, 0⟩ true) = true := by decide +kernel
  obtain ⟨s, hs, h⟩ := any_some h
  simp only [Bool.and_eq_true, decide_eq_true_eq] at h
  obtain ⟨⟨h1, h2⟩, h3⟩ := h
  refine ⟨s, hs, h1, ?_⟩
  obtain ⟨f, g, hf, hg, hb⟩ := waitsB_blocks h3
  rw [hg] at h2
  obtain ⟨r, rfl⟩ : ∃ r, g = .run .stop :: r := by
    cases g with
    | nil => cases h2
    | cons x r => exact ⟨r, by simp at h2; rw [h2]⟩
  refine ⟨⟨f, hf, ?_⟩, ?_⟩
  · rintro rfl
    obtain ⟨_, _, _, h, _⟩ := hb
    cases h
  · intro es s' hr
    rw [(stop_stuck es hf hg hb hr).1, hf]

end Verif.Server.Locks
