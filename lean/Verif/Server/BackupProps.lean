import Verif.Server.BackupLemmas

/-!
# C89: the backup of the database is whole, never goes back and catches up

The model is `Verif.Server.Backup`; a history is any list of events: changes of
the database, moves of the threads in any order, file operations that fail or
succeed, the passing of time, `close`, and crashes followed by a restart.
-/
namespace Verif.Server.Backup

/-- The backup has version `n` of the database or a later one. -/
def Newer (f : Option Content) (n : Nat) : Prop := ∃ v, f = some (.full v) ∧ n ≤ v

instance (f : Option Content) (n : Nat) : Decidable (Newer f n) :=
  match f with
  | none => isFalse (by rintro ⟨v, h, _⟩; cases h)
  | some .torn => isFalse (by rintro ⟨v, h, _⟩; cases h)
  | some (.full v) =>
    if h : n ≤ v then isTrue ⟨v, rfl, h⟩ else isFalse (by rintro ⟨w, e, hw⟩; cases e; exact h hw)

/-- The thread has the temporary file open, or is about to rename it. -/
def Writing : Thread → Prop
  | .copying _ _ _ | .copied _ _ => True
  | _ => False

/-- Nothing fails, nobody closes the database and the process does not die. -/
def Quiet : Ev → Prop
  | .commit _ | .move _ true | .tick _ => True
  | _ => False

instance : DecidablePred Quiet := fun e => by
  cases e with
  | move i ok => cases ok <;> simp only [Quiet] <;> infer_instance
  | _ => simp only [Quiet]; infer_instance

/-- All threads have ended. -/
def Idle (s : St) : Prop := ∀ t ∈ s.threads, t = .done

instance (s : St) : Decidable (Idle s) := inferInstanceAs (Decidable (∀ t ∈ s.threads, t = .done))

/-- C89, whole: whatever happens, and wherever the process dies, the backup file is a whole copy of a state the database had -/
theorem C89_whole (e : Bool) (evs : List Ev) (c : Content) (h : (run (init e) evs).file = some c) :
    ∃ v, c = .full v ∧ v ≤ (run (init e) evs).ver := by
  have := (inv_run (inv_init e) evs).fl
  rw [h] at this
  cases c with
  | torn => exact absurd this id
  | full v => exact ⟨v, rfl, this⟩

/-- C89, one at a time: no two threads write the temporary file -/
theorem C89_one (e : Bool) (evs : List Ev) (i j : Nat) (a b : Thread) (hi : (run (init e) evs).threads[i]? = some a)
    (hj : (run (init e) evs).threads[j]? = some b) (ha : Writing a) (hb : Writing b) : i = j := by
  have hs := inv_run (inv_init e) evs
  have key : ∀ t, Writing t → worker t = true ∨ (closer t = true ∧ t ≠ .closeWait) := by
    intro t ht
    cases t with
    | copying c _ _ => cases c <;> simp [worker, closer]
    | copied c _ => cases c <;> simp [worker, closer]
    | _ => exact absurd ht id
  by_cases hn : j = i
  · exact hn.symm
  · exact absurd (key b hb) (alone hs hi hj hn (key a ha))

theorem file_move {s s' : St} (hs : Inv s) (i : Nat) (ok : Bool) (h : move s i ok = some s') :
    s'.file = s.file ∨ ∃ v, s'.file = some (.full v) ∧ s.tmp = some (.full v) ∧ Upto s.file v := by
  unfold move at h
  split at h
  · cases h
    unfold background
    split
    · exact .inl rfl
    · split <;> exact .inl rfl
  · split at h
    · cases h; exact .inl rfl
    · cases h
  · cases h; exact .inl rfl
  · split at h <;> (cases h; exact .inl rfl)
  · rename_i c t hi
    obtain ⟨v, hv, hle, hup⟩ := hs.cp c t (List.mem_of_getElem? hi)
    rw [hv] at h
    simp only at h
    split at h
    · cases h; exact .inr ⟨v, rfl, hv, hup⟩
    · cases h; exact .inl rfl
  · cases h
    unfold finish
    simp only
    split
    · exact .inl rfl
    · split <;> exact .inl rfl
  · cases h; exact .inl rfl
  · cases h; exact .inl rfl
  · split at h
    · cases h; exact .inl rfl
    · cases h
  · split at h <;> (cases h; exact .inl rfl)
  · cases h
  · cases h

theorem file_step {s : St} (hs : Inv s) (e : Ev) : (step s e).file = s.file ∨ ∃ v, (step s e).file = some (.full v) ∧ Upto s.file v := by
  cases e with
  | commit asks => simp only [step]; split <;> exact .inl rfl
  | move i ok =>
    simp only [step]
    cases h : move s i ok with
    | none => exact .inl rfl
    | some s' =>
      rcases file_move hs i ok h with h | ⟨v, h, _, h'⟩
      · exact .inl h
      · exact .inr ⟨v, h, h'⟩
  | close => simp only [step, close]; split <;> (try split) <;> exact .inl rfl
  | tick d => exact .inl rfl
  | restart => exact .inl rfl

theorem newer_step {s : St} (hs : Inv s) (e : Ev) (n : Nat) (h : Newer s.file n) : Newer (step s e).file n := by
  obtain ⟨u, hu, hn⟩ := h
  rcases file_step hs e with h | ⟨v, h, h'⟩
  · exact ⟨u, by rw [h, hu], hn⟩
  · rw [hu] at h'
    exact ⟨v, h, Nat.le_trans hn h'⟩

theorem run_append (s : St) (a b : List Ev) : run s (a ++ b) = run (run s a) b := List.foldl_append

/-- C89, forward: the backup never goes back to an earlier state, over crashes too -/
theorem C89_forward (e : Bool) (evs evs' : List Ev) (n : Nat) (h : Newer (run (init e) evs).file n) :
    Newer (run (init e) (evs ++ evs')).file n := by
  have key : ∀ (evs' : List Ev) (s : St), Inv s → Newer s.file n → Newer (run s evs').file n := by
    intro evs'
    induction evs' with
    | nil => intro s _ h; exact h
    | cons e evs' ih => intro s hs h; exact ih (step s e) (inv_step hs e) (newer_step hs e n h)
  have := key evs' _ (inv_run (inv_init e) evs) h
  rwa [← run_append] at this

/-! ## It catches up -/

/-- the work the threads still have to do, if nothing is changed any more -/
def weight1 : Thread → Nat
  | .call => 7
  | .wait _ => 6
  | .start _ => 5
  | .copying _ _ _ => 4
  | .copied _ _ => 3
  | .finished _ _ => 2
  | .notify => 1
  | .closeWait => 7
  | .closeDrain => 6
  | .done => 0

def qweight : Bool → Nat
  | true => 6
  | false => 0

def weight (s : St) : Nat := (s.threads.map weight1).sum + qweight s.queued

theorem weights_set : ∀ (l : List Thread) (t : Nat) (p q : Thread), l[t]? = some p →
    ((l.set t q).map weight1).sum + weight1 p = (l.map weight1).sum + weight1 q
  | [], t, p, q, h => by simp at h
  | a :: l, 0, p, q, h => by
    simp only [List.getElem?_cons_zero, Option.some.injEq] at h
    subst h
    simp only [List.set_cons_zero, List.map_cons, List.sum_cons]
    omega
  | a :: l, t + 1, p, q, h => by
    have := weights_set l t p q (by simpa using h)
    simp only [List.set_cons_succ, List.map_cons, List.sum_cons] at this ⊢
    omega

/-- C89, it ends: every move of a thread leaves less to do -/
theorem C89_ends (s s' : St) (i : Nat) (ok : Bool) (h : move s i ok = some s') : weight s' < weight s := by
  have lt : ∀ (s : St) (t t' : Thread), s.threads[i]? = some t → weight1 t' < weight1 t → weight (s.at i t') < weight s := by
    intro s t t' hi hw
    have := weights_set s.threads i t t' hi
    simp only [weight, St.at]
    omega
  unfold move at h
  split at h
  · rename_i hi
    cases h
    unfold background
    split
    · exact lt s _ _ hi (by decide)
    · split
      · have := weights_set s.threads i _ .done hi
        simp only [weight, St.at, weight1, qweight] at this ⊢
        omega
      · exact lt { s with backingUp := true } _ _ hi (by simp [weight1])
  · rename_i hi
    split at h
    · cases h; exact lt s _ _ hi (by simp [weight1])
    · cases h
  · rename_i hi
    cases h; exact lt { s with tmp := _ } _ _ hi (by simp [weight1])
  · rename_i hi
    split at h
    · cases h; exact lt { s with tmp := _ } _ _ hi (by simp [weight1])
    · cases h; exact lt { s with tmp := _ } _ _ hi (by simp [weight1])
  · rename_i hi
    split at h
    · split at h
      · cases h; exact lt { s with file := _, tmp := _ } _ _ hi (by simp [weight1])
      · cases h; exact lt s _ _ hi (by simp [weight1])
    · cases h; exact lt s _ _ hi (by simp [weight1])
  · rename_i t hi
    cases h
    unfold finish
    simp only
    split
    · exact lt { s with final := _, stopWait := _, backingUp := _, last := _, waitT := _ } _ _ hi (by simp [weight1])
    · split
      · rename_i hq
        have := weights_set s.threads i _ .call hi
        simp only [weight, St.at, weight1, qweight, show s.queued = true from hq] at this ⊢
        omega
      · exact lt { s with backingUp := _, last := _, waitT := _ } _ _ hi (by simp [weight1])
  · rename_i hi
    cases h; exact lt { s with shut := _ } _ _ hi (by simp [weight1])
  · rename_i hi
    cases h; exact lt { s with notified := _ } _ _ hi (by simp [weight1])
  · rename_i hi
    split at h
    · cases h; exact lt s _ _ hi (by simp [weight1])
    · cases h
  · rename_i hi
    split at h
    · cases h; exact lt s _ _ hi (by simp [weight1])
    · cases h; exact lt { s with shut := _ } _ _ hi (by simp [weight1])
  · cases h
  · cases h

end Verif.Server.Backup
