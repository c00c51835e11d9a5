import Verif.Server.Std

/-!
# C101: what a failed job printed

A user who asks for the output of a job that failed is shown what its last run printed.  `lastOut` is the specification,
as a function of what happened; `InOrder` says that the writes of one job take place in the order in which its runs ended.
-/

namespace Verif.Server.Std

/-- The effect of one event on what the user expects to be shown for the job with key `k`. -/
def note (k : Nat) (o : Out) : Ev → Out
  | .add k' => if k' = k then .nothing else o
  | .ended k' es _ => if k' = k then es.out else o
  | .dead k' _ => if k' = k then .nothing else o
  | .archive k' => if k' = k then .nothing else o
  | .rekey _ k' => if k' = k then .nothing else o
  | _ => o

/-- What the last run of the job with key `k` printed, as reported by the client that ran it: nothing if it was never run
since it was added, or if the client died. -/
def lastOut (k : Nat) (es : List Ev) : Out := es.foldl (note k) .nothing

/-- A write of job `k` is executed only when those of its earlier runs have been, and so is the transaction that archives
the job. -/
def Ordered (k : Nat) (s : S) : Ev → Prop
  | .exec i => ∀ w, s.pend[i]? = some w → w.key = k → ∀ j, j < i → ∀ w', s.pend[j]? = some w' → w'.key ≠ k
  | .archive k' => k' = k → ∀ w ∈ s.pend, w.key ≠ k
  | _ => True

/-- Every step of a sequence is so ordered. -/
def InOrder (k : Nat) : S → List Ev → Prop
  | _, [] => True
  | s, e :: es => Ordered k s e ∧ ∀ s', step s e = some s' → InOrder k s' es

/-! ## Lemmas -/

/-- What is stored. -/
def read (s : S) (k : Nat) : Out := ⟨(s.bo k).getD [], (s.be k).getD []⟩

/-- What a write leaves. -/
def val (w : Write) : Out := if w.keep then w.out else .nothing

/-- What will be stored once all writes have been executed in order. -/
def fin (k : Nat) (o : Out) (ws : List Write) : Out := ws.foldl (fun o w => if w.key = k then val w else o) o

theorem put_get (b : Nat → Option (List Nat)) (k k' : Nat) (v : List Nat) :
    (put (upd b k none) k v k').getD [] = if k' = k then v else (b k').getD [] := by
  unfold put
  split
  · unfold upd
    by_cases h : k' = k <;> simp [h]
  · rename_i h
    have : v = [] := by cases v with
      | nil => rfl
      | cons a l => simp at h
    subst this
    unfold upd
    by_cases h : k' = k <;> simp [h]

theorem read_exec (s : S) (w : Write) (k : Nat) : read (exec s w) k = if w.key = k then val w else read s k := by
  unfold exec read val
  by_cases hk : w.keep = true
  · simp only [hk, if_true]
    rw [put_get, put_get]
    by_cases h : w.key = k
    · subst h; simp
    · have : ¬ k = w.key := fun h' => h h'.symm
      simp [h, this]
  · simp only [hk]
    by_cases h : w.key = k
    · subst h; simp [upd, Out.nothing]
    · have : ¬ k = w.key := fun h' => h h'.symm
      simp [h, this, upd]

theorem fin_erase_ne (k : Nat) : ∀ (ws : List Write) (i : Nat) (o : Out) (w : Write), ws[i]? = some w → w.key ≠ k →
    fin k o (ws.eraseIdx i) = fin k o ws := by
  intro ws
  induction ws with
  | nil => intro i o w h; simp at h
  | cons a l ih =>
    intro i o w h hk
    cases i with
    | zero =>
      simp at h
      subst h
      simp [fin, hk]
    | succ i =>
      simp at h
      simp only [List.eraseIdx_cons_succ, fin, List.foldl_cons]
      exact ih i _ w h hk

theorem fin_erase_eq (k : Nat) : ∀ (ws : List Write) (i : Nat) (o : Out) (w : Write), ws[i]? = some w → w.key = k →
    (∀ j, j < i → ∀ w', ws[j]? = some w' → w'.key ≠ k) → fin k (val w) (ws.eraseIdx i) = fin k o ws := by
  intro ws
  induction ws with
  | nil => intro i o w h; simp at h
  | cons a l ih =>
    intro i o w h hk hj
    cases i with
    | zero =>
      simp at h
      subst h
      simp [fin, hk]
    | succ i =>
      simp at h
      have ha : a.key ≠ k := hj 0 (by omega) a (by simp)
      simp only [List.eraseIdx_cons_succ, fin, List.foldl_cons, ha, if_false]
      exact ih i _ w h hk (fun j hj' w' hw' => hj (j + 1) (by omega) w' (by simpa using hw'))

theorem fin_none (k : Nat) (o : Out) : ∀ (ws : List Write), (∀ w ∈ ws, w.key ≠ k) → fin k o ws = o := by
  intro ws
  induction ws with
  | nil => intro _; rfl
  | cons a l ih =>
    intro h
    simp only [fin, List.foldl_cons, h a (by simp), if_false]
    exact ih (fun w hw => h w (by simp [hw]))

theorem fin_snoc (k : Nat) (o : Out) (ws : List Write) (w : Write) :
    fin k o (ws ++ [w]) = if w.key = k then val w else fin k o ws := by
  simp [fin]

/-- What will be stored for a job once everything outstanding is written is what its last run printed; nothing is left of
keys without a job. -/
def Inv (k : Nat) (s : S) (o : Out) : Prop :=
  fin k (read s k) s.pend = o ∧ (s.job k = none → o = .nothing)

theorem release_spec {s s' : S} {k : Nat} {es : EndState} {force bury : Bool}
    (h : release s k es force bury = some s') :
    ∃ j, s.job k = some j ∧ j.place = .run ∧ s'.bo = s.bo ∧ s'.be = s.be ∧
      s'.pend = s.pend ++ [⟨k, decide ((afterExit j es).code ≠ 0) || force, es.out⟩] ∧
      s'.job = upd s.job k (some { afterExit j es with place := if bury then .buried else .waiting }) := by
  unfold release at h
  split at h
  · rename_i j hj
    split at h
    · rename_i hp
      simp only [Option.some.injEq] at h
      subst h
      exact ⟨j, hj, hp, rfl, rfl, rfl, rfl⟩
    · simp at h
  · simp at h

theorem inv_release {s s' : S} {k k' : Nat} {o : Out} {es : EndState} {force bury : Bool}
    (h : release s k' es force bury = some s') (hf : force = true ∨ es.out = .nothing) (hi : Inv k s o) :
    Inv k s' (if k' = k then es.out else o) := by
  obtain ⟨j, hj, hp, h1, h2, h3, h4⟩ := release_spec h
  have hr : read s' k = read s k := by simp [read, h1, h2]
  refine ⟨?_, ?_⟩
  · rw [hr, h3, fin_snoc, hi.1]
    by_cases hk : k' = k
    · simp only [hk, if_true, val]
      rcases hf with hf | hf
      · simp [hf]
      · rw [hf]; split <;> rfl
    · simp [hk]
  · intro hn
    rw [h4] at hn
    by_cases hk : k' = k
    · subst hk
      simp [upd] at hn
    · have hk' : ¬ k = k' := fun h => hk h.symm
      simp [upd, hk'] at hn
      simp [hk, hi.2 hn]

/-- The event does not take away the job with key `k` and leave what it printed behind. -/
def Leaves (k : Nat) : Ev → Prop
  | .delete k' => k' = k
  | .rekey k' _ => k' = k
  | _ => False

theorem inv_step {s s' : S} {k : Nat} {o : Out} {e : Ev} (h : step s e = some s') (ho : Ordered k s e)
    (hl : ¬ Leaves k e) (hi : Inv k s o) : Inv k s' (note k o e) := by
  cases e with
  | add k' =>
    simp only [step] at h
    split at h
    · rename_i hj
      simp only [Option.some.injEq] at h
      subst h
      by_cases hk : k' = k
      · subst hk
        have ho := hi.2 hj
        simp only [note, if_true]
        exact ⟨by rw [← ho]; exact hi.1, fun _ => rfl⟩
      · have hk' : ¬ k = k' := fun h => hk h.symm
        simp only [note, hk, if_false]
        exact ⟨hi.1, by simpa [upd, hk'] using hi.2⟩
    · simp at h
  | reserve k' =>
    simp only [step] at h
    split at h
    · rename_i j hj
      split at h
      · simp only [Option.some.injEq] at h
        subst h
        refine ⟨hi.1, ?_⟩
        intro hn
        by_cases hk : k = k'
        · simp [upd, hk] at hn
        · simp [upd, hk] at hn
          exact hi.2 hn
      · simp at h
    · simp at h
  | ended k' es bury => exact inv_release h (Or.inl rfl) hi
  | dead k' bury => exact inv_release (es := ⟨true, -1, .nothing⟩) h (Or.inr rfl) hi
  | archive k' =>
    simp only [step] at h
    split at h
    · rename_i j hj
      split at h
      · simp only [Option.some.injEq] at h
        subst h
        by_cases hk : k' = k
        · subst hk
          simp only [note, if_true]
          refine ⟨?_, fun _ => rfl⟩
          have := fin_none k' (read { s with job := upd s.job k' none, bo := upd s.bo k' none, be := upd s.be k' none } k')
            s.pend (ho rfl)
          rw [this]
          simp [read, upd, Out.nothing]
        · have hk' : ¬ k = k' := fun h => hk h.symm
          simp only [note, hk, if_false]
          refine ⟨?_, by simpa [upd, hk'] using hi.2⟩
          have : read { s with job := upd s.job k' none, bo := upd s.bo k' none, be := upd s.be k' none } k = read s k := by
            simp [read, upd, hk']
          rw [this]
          exact hi.1
      · simp at h
    · simp at h
  | delete k' =>
    simp only [step] at h
    split at h
    · rename_i j hj
      split at h
      · simp at h
      · simp only [Option.some.injEq] at h
        subst h
        have hk : ¬ k' = k := hl
        have hk' : ¬ k = k' := fun h => hk h.symm
        exact ⟨hi.1, by simpa [upd, hk', note] using hi.2⟩
    · simp at h
  | impossible k' =>
    simp only [step] at h
    split at h
    · rename_i j hj
      split at h
      · simp only [Option.some.injEq] at h
        subst h
        refine ⟨hi.1, ?_⟩
        intro hn
        by_cases hk : k = k'
        · simp [upd, hk] at hn
        · simp [upd, hk] at hn
          exact hi.2 hn
      · simp at h
    · simp at h
  | kick k' =>
    simp only [step] at h
    split at h
    · rename_i j hj
      split at h
      · simp only [Option.some.injEq] at h
        subst h
        refine ⟨hi.1, ?_⟩
        intro hn
        by_cases hk : k = k'
        · simp [upd, hk] at hn
        · simp [upd, hk] at hn
          exact hi.2 hn
      · simp at h
    · simp at h
  | rekey k1 k2 =>
    simp only [step] at h
    split at h
    · rename_i j hj hn2
      split at h
      · simp at h
      · simp only [Option.some.injEq] at h
        subst h
        have hk1 : ¬ k1 = k := hl
        have hk1' : ¬ k = k1 := fun h => hk1 h.symm
        by_cases hk : k2 = k
        · subst hk
          have ho := hi.2 hn2
          simp only [note, if_true]
          exact ⟨by rw [← ho]; exact hi.1, fun _ => rfl⟩
        · have hk' : ¬ k = k2 := fun h => hk h.symm
          simp only [note, hk, if_false]
          exact ⟨hi.1, by simpa [upd, hk', hk1'] using hi.2⟩
    · simp at h
  | exec i =>
    simp only [step] at h
    split at h
    · rename_i w hw
      simp only [Option.some.injEq] at h
      subst h
      have hr : read { exec s w with pend := s.pend.eraseIdx i } k = if w.key = k then val w else read s k :=
        read_exec s w k
      have hjob : (exec s w).job = s.job := by unfold exec; split <;> rfl
      refine ⟨?_, ?_⟩
      · rw [hr]
        by_cases hk : w.key = k
        · simp only [hk, if_true]
          rw [show (note k o (.exec i)) = o from rfl, ← hi.1]
          exact fin_erase_eq k s.pend i _ w hw hk (ho w hw hk)
        · simp only [hk, if_false]
          rw [show (note k o (.exec i)) = o from rfl, ← hi.1]
          exact fin_erase_ne k s.pend i _ w hw hk
      · show (exec s w).job k = none → _
        rw [hjob]
        exact hi.2
    · simp at h

theorem inv_run {k : Nat} : ∀ {es : List Ev} {s s' : S} {o : Out}, run s es = some s' → InOrder k s es →
    (∀ e ∈ es, ¬ Leaves k e) → Inv k s o → Inv k s' (es.foldl (note k) o) := by
  intro es
  induction es with
  | nil =>
    intro s s' o h _ _ hi
    simp only [run, Option.some.injEq] at h
    subst h
    exact hi
  | cons e es ih =>
    intro s s' o h ho hl hi
    simp only [run] at h
    split at h
    · rename_i s1 h1
      exact ih h (ho.2 s1 h1) (fun e' he' => hl e' (by simp [he'])) (inv_step h1 ho.1 (hl e (by simp)) hi)
    · simp at h

theorem inv_init (k : Nat) : Inv k {} .nothing := ⟨rfl, fun _ => rfl⟩

theorem retrieve_read {s : S} {k : Nat} {o : Out} (h : retrieve s k = some o) : s.pend = [] ∧ o = read s k := by
  unfold retrieve at h
  split at h
  · rename_i hp
    simp only [Option.some.injEq] at h
    exact ⟨List.length_eq_zero_iff.mp hp, h.symm⟩
  · simp at h

/-! ## Properties -/

/-- C101 (when writes of one job take place in the order in which its runs ended, and no job with its key was deleted, or
given another key, before): what is shown as the output of a job is what its last run printed if the job exited with a code
other than 0 or is buried, and nothing otherwise. -/
theorem C101_last_partial {es : List Ev} {s : S} {k : Nat} {j : J} {o : Out} (h : run {} es = some s)
    (ho : InOrder k {} es) (hd : ∀ e ∈ es, e ≠ .delete k ∧ ∀ k', e ≠ .rekey k k') (hj : s.job k = some j)
    (hs : shown s k = some o) :
    o = if (j.exited = true ∧ j.code ≠ 0) ∨ j.place = .buried then lastOut k es else .nothing := by
  have hl : ∀ e ∈ es, ¬ Leaves k e := by
    intro e he hle
    have := hd e he
    cases e <;> simp only [Leaves] at hle
    · exact this.1 (by rw [hle])
    · exact this.2 _ (by rw [hle])
  have hi := inv_run h ho hl (inv_init k)
  unfold shown at hs
  rw [hj] at hs
  simp only at hs
  have hc : couldHaveStd j = true ↔ (j.exited = true ∧ j.code ≠ 0) ∨ j.place = .buried := by
    simp [couldHaveStd]
  by_cases hcs : couldHaveStd j = true
  · rw [if_pos hcs] at hs
    rw [if_pos (hc.mp hcs)]
    obtain ⟨hp, hr⟩ := retrieve_read hs
    have := hi.1
    rw [hp] at this
    rw [hr]
    exact this
  · rw [if_neg hcs] at hs
    rw [if_neg (fun hh => hcs (hc.mpr hh))]
    simpa using hs.symm

/-- The hypotheses of `C101_last_partial` are met by a job that fails twice with different output. -/
example : ∃ s, run {} [.add 1, .reserve 1, .ended 1 ⟨true, 3, ⟨[7], [8]⟩⟩ false, .add 2, .exec 0, .reserve 2, .reserve 1,
      .ended 2 ⟨true, 1, ⟨[5], []⟩⟩ true, .ended 1 ⟨true, 4, ⟨[], [9]⟩⟩ true, .exec 1, .exec 0] = some s ∧
    shown s 1 = some ⟨[], [9]⟩ ∧ shown s 2 = some ⟨[5], []⟩ := ⟨_, rfl, by decide, by decide⟩

theorem inOrder_example : InOrder 1 {} [.add 1, .reserve 1, .ended 1 ⟨true, 3, ⟨[7], [8]⟩⟩ false, .exec 0] := by
  refine ⟨trivial, fun s1 h1 => ⟨trivial, fun s2 h2 => ⟨trivial, fun s3 h3 => ⟨?_, fun s4 h4 => trivial⟩⟩⟩⟩
  intro w _ _ j hj
  omega

/-! ### For every schedule -/

/-- Everything stored or waiting to be written was printed by one run of the job with that key. -/
def Src (k : Nat) (es : List Ev) (o : Out) : Prop := o = .nothing ∨ ∃ e b, Ev.ended k e b ∈ es ∧ o = e.out

def SInv (k : Nat) (s : S) (es : List Ev) : Prop :=
  Src k es (read s k) ∧ ∀ w ∈ s.pend, w.key = k → Src k es (val w)

theorem src_mono {k : Nat} {es : List Ev} {o : Out} (e : Ev) (h : Src k es o) : Src k (es ++ [e]) o := by
  rcases h with h | ⟨e', b, h1, h2⟩
  · exact Or.inl h
  · exact Or.inr ⟨e', b, by simp [h1], h2⟩

theorem sinv_release {s s' : S} {k k' : Nat} {es : List Ev} {x : EndState} {force bury : Bool} {ev : Ev}
    (h : release s k' x force bury = some s') (he : ev = .ended k' x bury ∨ x.out = .nothing)
    (hi : SInv k s es) : SInv k s' (es ++ [ev]) := by
  obtain ⟨j, hj, hp, h1, h2, h3, h4⟩ := release_spec h
  have hr : read s' k = read s k := by simp [read, h1, h2]
  refine ⟨by rw [hr]; exact src_mono _ hi.1, ?_⟩
  intro w hw hk
  rw [h3] at hw
  rcases List.mem_append.mp hw with hw | hw
  · exact src_mono _ (hi.2 w hw hk)
  · simp only [List.mem_singleton] at hw
    subst hw
    have hk : k' = k := hk
    subst hk
    simp only [val]
    split
    · rcases he with he | he
      · exact Or.inr ⟨x, bury, by simp [he], rfl⟩
      · exact Or.inl he
    · exact Or.inl rfl

theorem sinv_same {s s' : S} {k : Nat} {es : List Ev} {e : Ev} (h1 : s'.bo = s.bo) (h2 : s'.be = s.be)
    (h3 : s'.pend = s.pend) (hi : SInv k s es) : SInv k s' (es ++ [e]) := by
  refine ⟨?_, ?_⟩
  · have hr : read s' k = read s k := by simp [read, h1, h2]
    rw [hr]
    exact src_mono _ hi.1
  · rw [h3]
    exact fun w hw hk => src_mono _ (hi.2 w hw hk)

theorem sinv_step {s s' : S} {k : Nat} {es : List Ev} {e : Ev} (h : step s e = some s') (hi : SInv k s es) :
    SInv k s' (es ++ [e]) := by
  cases e with
  | ended k' x bury => exact sinv_release h (Or.inl rfl) hi
  | dead k' bury => exact sinv_release (x := ⟨true, -1, .nothing⟩) h (Or.inr rfl) hi
  | archive k' =>
    simp only [step] at h
    split at h
    · split at h
      · simp only [Option.some.injEq] at h
        subst h
        refine ⟨?_, fun w hw hk => src_mono _ (hi.2 w hw hk)⟩
        by_cases hk : k = k'
        · exact Or.inl (by simp [read, upd, hk, Out.nothing])
        · have : read { s with job := upd s.job k' none, bo := upd s.bo k' none, be := upd s.be k' none } k = read s k := by
            simp [read, upd, hk]
          rw [this]
          exact src_mono _ hi.1
      · simp at h
    · simp at h
  | exec i =>
    simp only [step] at h
    split at h
    · rename_i w hw
      simp only [Option.some.injEq] at h
      subst h
      have hr : read { exec s w with pend := s.pend.eraseIdx i } k = if w.key = k then val w else read s k :=
        read_exec s w k
      refine ⟨?_, fun w' hw' hk => src_mono _ (hi.2 w' (List.mem_of_mem_eraseIdx hw') hk)⟩
      rw [hr]
      split
      · rename_i hk
        exact src_mono _ (hi.2 w (List.mem_of_getElem? hw) hk)
      · exact src_mono _ hi.1
    · simp at h
  | _ =>
    simp only [step] at h
    repeat' split at h
    all_goals first
      | (simp only [Option.some.injEq] at h; subst h; exact sinv_same rfl rfl rfl hi)
      | (simp at h)

theorem sinv_run {k : Nat} : ∀ {es pre : List Ev} {s s' : S}, run s es = some s' → SInv k s pre →
    SInv k s' (pre ++ es) := by
  intro es
  induction es with
  | nil =>
    intro pre s s' h hi
    simp only [run, Option.some.injEq] at h
    subst h
    simpa using hi
  | cons e es ih =>
    intro pre s s' h hi
    simp only [run] at h
    split at h
    · rename_i s1 h1
      have := ih h (sinv_step h1 hi)
      simpa using this
    · simp at h

/-- C101, for every order of the writes: what is shown is nothing, or standard output and standard error that the same run
of a command with that key printed; never a mixture of two runs, nor what another job printed. -/
theorem C101_one_run {es : List Ev} {s : S} {k : Nat} {o : Out} (h : run {} es = some s) (hs : shown s k = some o) :
    o = .nothing ∨ ∃ e bury, Ev.ended k e bury ∈ es ∧ o = e.out := by
  have hi := sinv_run (k := k) (pre := []) h ⟨Or.inl rfl, by simp⟩
  unfold shown at hs
  split at hs
  · split at hs
    · obtain ⟨_, hr⟩ := retrieve_read hs
      rw [hr]
      exact hi.1
    · exact Or.inl (by simpa using hs.symm)
  · exact Or.inl (by simpa using hs.symm)

example : ∃ s, run {} [.add 1, .reserve 1, .ended 1 ⟨true, 3, ⟨[7], [8]⟩⟩ false, .reserve 1,
      .ended 1 ⟨true, 4, ⟨[], [9]⟩⟩ true, .exec 1, .exec 0] = some s ∧ shown s 1 = some ⟨[7], [8]⟩ :=
  ⟨_, rfl, by decide⟩

/-- C101: the output of a job that did not fail and is not buried is not shown, whatever is stored. -/
theorem C101_only_failed {s : S} {k : Nat} {j : J} (hj : s.job k = some j) (he : j.exited = false ∨ j.code = 0)
    (hb : j.place ≠ .buried) : shown s k = some .nothing := by
  unfold shown
  rw [hj]
  have : couldHaveStd j = false := by
    unfold couldHaveStd
    rcases he with he | he <;> simp [he, hb]
  simp [this]

example : ∃ s, run {} [.add 1, .reserve 1, .ended 1 ⟨true, 3, ⟨[7], [8]⟩⟩ false, .exec 0, .reserve 1] = some s ∧
    s.job 1 = some ⟨false, -1, .run⟩ := ⟨_, rfl, rfl⟩

/-- C101: of jobs that are listed together, either all those that failed or are buried are shown with their output, or none
is; all are if and only if output was asked for and there are at most 1000 of them. -/
theorem C101_listed (s : S) (jobs : List (Nat × J)) (getStd : Bool) (i : Nat) (k : Nat) (j : J)
    (hi : jobs[i]? = some (k, j)) :
    (listed s jobs getStd)[i]? = some
      (if getStd = true ∧ (jobs.filter fun x => couldHaveStd x.2).length ≤ 1000 ∧ couldHaveStd j = true
        then retrieve s k else some .nothing) := by
  have hf : ((jobs.map (·.2)).filter couldHaveStd).length = (jobs.filter fun x => couldHaveStd x.2).length := by
    rw [List.filter_map, List.length_map]
    rfl
  unfold listed
  rw [List.getElem?_map, hi]
  simp only [Option.map_some, Option.some.injEq, shouldPopulateStd, hf, maxJobsForStd]
  cases getStd <;> simp

example : (listed {} [(1, J.mk true 1 .waiting), (2, J.mk true 0 .waiting)] true).length = 2 := by decide

/-! ### Violations -/

/-- C101 is violated: the writes of two runs of a job may be executed in the other order, so that what the older run
printed is shown. -/
theorem C101_violated_order : ∃ es s o, run {} es = some s ∧ (∀ e ∈ es, e ≠ .delete 1 ∧ ∀ k', e ≠ .rekey 1 k') ∧
    (∃ j, s.job 1 = some j ∧ j.place = .buried) ∧ shown s 1 = some o ∧ o ≠ lastOut 1 es ∧ lastOut 1 es = ⟨[], [9]⟩ :=
  ⟨[.add 1, .reserve 1, .ended 1 ⟨true, 3, ⟨[7], [8]⟩⟩ false, .reserve 1,
      .ended 1 ⟨true, 4, ⟨[], [9]⟩⟩ true, .exec 1, .exec 0], _, _, rfl, by simp, ⟨_, rfl, rfl⟩, rfl, by decide, by decide⟩

/-- C101 is violated: deleting a job does not delete what it printed, so that a new job with the same key that is buried
because it can never be scheduled is shown with the output of the job that was deleted, although it was never run. -/
theorem C101_violated_deleted : ∃ es s o, run {} es = some s ∧ InOrder 1 {} es ∧
    (∃ j, s.job 1 = some j ∧ j.exited = false) ∧ shown s 1 = some o ∧ lastOut 1 es = .nothing ∧ o = ⟨[7], [8]⟩ := by
  refine ⟨[.add 1, .reserve 1, .ended 1 ⟨true, 3, ⟨[7], [8]⟩⟩ true, .exec 0, .delete 1, .add 1, .impossible 1], _, _, rfl,
    ?_, ⟨_, rfl, rfl⟩, rfl, by decide, by decide⟩
  refine ⟨trivial, fun _ _ => ⟨trivial, fun _ _ => ⟨trivial, fun _ _ => ⟨?_, fun _ _ => ⟨trivial, fun _ _ =>
    ⟨trivial, fun _ _ => ⟨trivial, fun _ _ => trivial⟩⟩⟩⟩⟩⟩⟩
  intro w _ _ j hj
  omega

/-- C101 is violated: a buried job that is modified such that its key changes, and then changed back, is shown with what
its first command printed before it was modified. -/
theorem C101_violated_modified : ∃ es s o, run {} es = some s ∧ InOrder 1 {} es ∧
    shown s 1 = some o ∧ lastOut 1 es = .nothing ∧ o = ⟨[7], [8]⟩ := by
  refine ⟨[.add 1, .reserve 1, .ended 1 ⟨true, 3, ⟨[7], [8]⟩⟩ true, .exec 0, .rekey 1 2, .rekey 2 1], _, _, rfl,
    ?_, rfl, by decide, by decide⟩
  refine ⟨trivial, fun _ _ => ⟨trivial, fun _ _ => ⟨trivial, fun _ _ => ⟨?_, fun _ _ => ⟨trivial, fun _ _ =>
    ⟨trivial, fun _ _ => trivial⟩⟩⟩⟩⟩⟩
  intro w _ _ j hj
  omega

/-! ### Waiting -/

/-- A job fails again while the output of another has not been written yet, which then is. -/
def again (k : Nat) : List Ev := [.reserve k, .ended k ⟨true, 1, .nothing⟩ false, .exec 0]

/-- Two other jobs that fail again and again, one after the other. -/
def cycles : Nat → List Ev
  | 0 => []
  | n + 1 => again 2 ++ (again 3 ++ cycles n)

/-- The states of a sequence after each of its steps. -/
def states (s : S) : List Ev → List S
  | [] => []
  | e :: es => match step s e with
    | some s' => s' :: states s' es
    | none => []

theorem exec_job (s : S) (w : Write) : (exec s w).job = s.job := by unfold exec; split <;> rfl
theorem exec_pend (s : S) (w : Write) : (exec s w).pend = s.pend := by unfold exec; split <;> rfl

theorem shown_busy {s : S} {k : Nat} {j : J} (hj : s.job k = some j) (hc : couldHaveStd j = true) (hp : s.pend ≠ []) :
    shown s k = none := by
  unfold shown retrieve
  rw [hj]
  have : ¬ s.pend.length = 0 := fun h => hp (List.length_eq_zero_iff.mp h)
  simp [hc, this]

theorem again_spec {s : S} {k : Nat} {j : J} {w : Write} (hj : s.job k = some j) (hp : j.place = .waiting)
    (hw : s.pend = [w]) : ∃ s1 s2 s3 w', step s (.reserve k) = some s1 ∧
      step s1 (.ended k ⟨true, 1, .nothing⟩ false) = some s2 ∧ step s2 (.exec 0) = some s3 ∧
      s1.pend = [w] ∧ s2.pend = [w, w'] ∧ s3.pend = [w'] ∧ s3.job k = some ⟨true, 1, .waiting⟩ ∧
      ∀ k', k' ≠ k → s1.job k' = s.job k' ∧ s2.job k' = s.job k' ∧ s3.job k' = s.job k' := by
  let s1 : S := { s with job := upd s.job k (some ⟨false, -1, .run⟩) }
  let w' : Write := ⟨k, true, .nothing⟩
  let s2 : S := { s1 with job := upd s1.job k (some ⟨true, 1, .waiting⟩), pend := s1.pend ++ [w'] }
  let s3 : S := { exec s2 w with pend := s2.pend.eraseIdx 0 }
  have hp2 : s2.pend = [w, w'] := by show s.pend ++ [w'] = _; rw [hw]; rfl
  refine ⟨s1, s2, s3, w', ?_, ?_, ?_, hw, hp2, ?_, ?_, ?_⟩
  · simp [step, hj, hp, s1]
  · simp [step, release, s1, s2, w', upd, afterExit]
  · show (match s2.pend[0]? with
      | some w => some { exec s2 w with pend := s2.pend.eraseIdx 0 }
      | none => none) = some s3
    rw [hp2]
    simp [s3, hp2]
  · show s2.pend.eraseIdx 0 = _
    rw [hp2]; rfl
  · show (exec s2 w).job k = _
    rw [exec_job]; simp [s2, upd]
  · intro k' hk'
    refine ⟨by simp [s1, upd, hk'], by simp [s1, s2, upd, hk'], ?_⟩
    show (exec s2 w).job k' = _
    rw [exec_job]; simp [s1, s2, upd, hk']

theorem again_states {s : S} {k : Nat} {es : List Ev} {j j1 : J} {w : Write} (hj : s.job k = some j)
    (hp : j.place = .waiting) (hw : s.pend = [w]) (h1 : s.job 1 = some j1) (hc : couldHaveStd j1 = true) (hk : 1 ≠ k) :
    ∃ s3 w', s3.pend = [w'] ∧ s3.job k = some ⟨true, 1, .waiting⟩ ∧ (∀ k', k' ≠ k → s3.job k' = s.job k') ∧
      run s (again k ++ es) = run s3 es ∧ ∃ x1 x2, states s (again k ++ es) = x1 :: x2 :: s3 :: states s3 es ∧
        shown x1 1 = none ∧ shown x2 1 = none ∧ shown s3 1 = none := by
  obtain ⟨s1, s2, s3, w', e1, e2, e3, p1, p2, p3, j3, ho⟩ := again_spec hj hp hw
  obtain ⟨o1, o2, o3⟩ := ho 1 hk
  refine ⟨s3, w', p3, j3, fun k' hk' => (ho k' hk').2.2, ?_, s1, s2, ?_, ?_, ?_, ?_⟩
  · simp only [again, List.cons_append, List.nil_append, run, e1, e2, e3]
  · simp only [again, List.cons_append, List.nil_append, states, e1, e2, e3]
  · exact shown_busy (o1.trans h1) hc (by simp [p1])
  · exact shown_busy (o2.trans h1) hc (by simp [p2])
  · exact shown_busy (o3.trans h1) hc (by simp [p3])

theorem starve (n : Nat) : ∀ (s : S) (j1 j2 j3 : J) (w : Write), s.job 1 = some j1 → couldHaveStd j1 = true →
    s.pend = [w] → s.job 2 = some j2 → j2.place = .waiting → s.job 3 = some j3 → j3.place = .waiting →
    (run s (cycles n)).isSome = true ∧ (states s (cycles n)).length = 6 * n ∧
      ∀ x ∈ states s (cycles n), shown x 1 = none := by
  induction n with
  | zero => intro s j1 j2 j3 w _ _ _ _ _ _ _; exact ⟨rfl, rfl, by simp [cycles, states]⟩
  | succ n ih =>
    intro s j1 j2 j3 w h1 hc hw h2 h2' h3 h3'
    obtain ⟨s3, w', p3, jj2, ho, hr, x1, x2, hst, y1, y2, y3⟩ :=
      again_states (es := again 3 ++ cycles n) h2 h2' hw h1 hc (by omega)
    have h1' : s3.job 1 = some j1 := (ho 1 (by omega)).trans h1
    have h3b : s3.job 3 = some j3 := (ho 3 (by omega)).trans h3
    obtain ⟨s6, w6, p6, jj3, ho6, hr6, x4, x5, hst6, y4, y5, y6⟩ :=
      again_states (es := cycles n) h3b h3' p3 h1' hc (by omega)
    obtain ⟨i1, i2, i3⟩ := ih s6 j1 ⟨true, 1, .waiting⟩ ⟨true, 1, .waiting⟩ w6 ((ho6 1 (by omega)).trans h1') hc p6
      ((ho6 2 (by omega)).trans jj2) rfl jj3 rfl
    refine ⟨?_, ?_, ?_⟩
    · rw [cycles, hr, hr6]; exact i1
    · rw [cycles, hst, hst6]; simp [i2]; omega
    · rw [cycles, hst, hst6]
      intro x hx
      simp only [List.mem_cons] at hx
      rcases hx with hx | hx | hx | hx | hx | hx | hx
      · rw [hx]; exact y1
      · rw [hx]; exact y2
      · rw [hx]; exact y3
      · rw [hx]; exact y4
      · rw [hx]; exact y5
      · rw [hx]; exact y6
      · exact i3 x hx

/-- A job is buried and what it printed is written; another fails, and what it printed is not written yet. -/
def setup : List Ev := [.add 1, .add 2, .add 3, .reserve 1, .ended 1 ⟨true, 3, ⟨[7], [8]⟩⟩ true, .exec 0, .reserve 3,
  .ended 3 ⟨true, 1, .nothing⟩ false]

def busy : S := (run {} setup).getD {}

/-- C101 is violated: looking up the output of a failed job waits for the writes of all jobs, so that it may wait for ever
although every write is executed, and none of them is of that job, as long as other jobs keep failing. -/
theorem C101_violated_waits : ∃ es s, run {} es = some s ∧ (∀ w ∈ s.pend, w.key ≠ 1) ∧
    (∃ j, s.job 1 = some j ∧ j.place = .buried) ∧ ∀ n, ∃ more, (run s more).isSome = true ∧
      (states s more).length = 6 * n ∧ (∀ x ∈ states s more, shown x 1 = none) ∧
      (∀ e ∈ more, e = .reserve 2 ∨ e = .reserve 3 ∨ e = .exec 0 ∨ e = .ended 2 ⟨true, 1, .nothing⟩ false ∨
        e = .ended 3 ⟨true, 1, .nothing⟩ false) := by
  refine ⟨setup, busy, rfl, by decide, ⟨_, rfl, rfl⟩, ?_⟩
  intro n
  obtain ⟨h1, h2, h3⟩ := starve n busy ⟨true, 3, .buried⟩ ⟨false, 0, .waiting⟩ ⟨true, 1, .waiting⟩ ⟨3, true, .nothing⟩
    rfl rfl rfl rfl rfl rfl rfl
  refine ⟨cycles n, ?_⟩
  refine ⟨h1, h2, h3, ?_⟩
  clear h1 h2 h3
  induction n with
  | zero => simp [cycles]
  | succ n ih =>
    intro e he
    simp only [cycles, again, List.cons_append, List.nil_append, List.mem_cons] at he
    rcases he with he | he | he | he | he | he | he
    all_goals first
      | exact ih e he
      | simp [he]

end Verif.Server.Std
