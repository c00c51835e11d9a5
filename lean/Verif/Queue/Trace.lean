import Verif.Queue.Step
/-! Histories: the invariants hold along every history that avoids the recorded defects. -/
namespace Verif.Queue
open Verif.Heap

/-- `P` holds of every (state, operation) met when the history is run from `q`. -/
def Along (P : Q → Op → Prop) : Q → List (Int × Op) → Prop
  | _, [] => True
  | q, (now, op) :: rest => P q op ∧ ∀ o, step q now op = some o → Along P o.q rest

theorem runFrom_append (h1 h2 : List (Int × Op)) : ∀ q, runFrom q (h1 ++ h2) = (runFrom q h1).bind fun q' => runFrom q' h2 := by
  induction h1 with
  | nil => intro q; rfl
  | cons a h1 ih =>
    obtain ⟨now, op⟩ := a
    intro q
    simp only [List.cons_append, runFrom]
    cases step q now op with
    | none => rfl
    | some o => exact ih o.q

theorem along_append {P : Q → Op → Prop} (h1 h2 : List (Int × Op)) : ∀ q, Along P q (h1 ++ h2) →
    Along P q h1 ∧ ∀ q', runFrom q h1 = some q' → Along P q' h2 := by
  induction h1 with
  | nil => intro q h; exact ⟨trivial, fun q' e => by simp [runFrom] at e; subst e; exact h⟩
  | cons a h1 ih =>
    obtain ⟨now, op⟩ := a
    intro q h
    refine ⟨⟨h.1, fun o ho => (ih o.q (h.2 o ho)).1⟩, ?_⟩
    intro q' e
    simp only [runFrom] at e
    cases hs : step q now op with
    | none => rw [hs] at e; simp at e
    | some o => rw [hs] at e; exact (ih o.q (h.2 o hs)).2 q' e

theorem along_imp {P R : Q → Op → Prop} (hpr : ∀ q op, P q op → R q op) (h : List (Int × Op)) : ∀ q, Along P q h → Along R q h := by
  induction h with
  | nil => intro q _; trivial
  | cons a h ih =>
    obtain ⟨now, op⟩ := a
    intro q hh
    exact ⟨hpr _ _ hh.1, fun o ho => ih o.q (hh.2 o ho)⟩

/-! ### Running items have a release time -/

def ItemTimed (it : Item) : Prop := it.state = .run → it.releaseAt ≠ none

theorem timed_placed (d : Def) (now : Int) (many : Bool) : ItemTimed (placed d now many (mkItem d now)) := by
  unfold ItemTimed placed
  split
  · intro h; simp [Item.switchDelayDependent] at h
  · split
    · intro _; simp [Item.switchReadyRun, Item.touch]
    · intro h; split at h <;> simp [state_switchRunBury] at h
    · split
      · intro h; simp [Item.switchDelayReady] at h
      · intro h; simp [mkItem] at h

theorem timed_withFields (g p d t a n) (it : Item) (h : ItemTimed it) : ItemTimed (it.withFields g p d t a n) := by
  unfold ItemTimed at *
  rw [withFields_state]
  intro hs
  have := h hs
  unfold Item.withFields
  repeat' split
  all_goals (first | exact this | simp)

theorem timed_withDeps (ds) (it : Item) (h : ItemTimed it) : ItemTimed (it.withDeps ds) := by
  unfold ItemTimed at *
  unfold Item.withDeps
  split
  · rename_i hA
    split
    · intro hs; simp [Item.switchDelayDependent] at hs
    · intro hs; simp [Item.switchReadyDependent] at hs
    · intro hs; simp [Item.switchRunDependent] at hs
    · exact h
  · split
    · intro hs; simp [Item.switchDependentReady] at hs
    · exact h

theorem timed_updated (g d p dl t ds n) (it : Item) (h : ItemTimed it) : ItemTimed (it.updated g d p dl t ds n) := by
  unfold Item.updated
  split
  · exact timed_withFields _ _ _ _ _ _ _ h
  · apply timed_withFields
    split
    · exact timed_withDeps _ _ h
    · exact h

theorem timed_settleDep (k) (it : Item) (h : ItemTimed it) : ItemTimed (it.settleDep k) := by
  unfold Item.settleDep; split
  · intro hs; simp [Item.switchDependentReady] at hs
  · exact h

theorem timed_timeout (now t) (it : Item) : ItemTimed (it.timeout now t) := by
  unfold Item.timeout; split
  · intro _; simp [Item.tempDisableTTR]
  · intro h; simp [state_switchRunDelay] at h
  · intro h; simp [state_switchRunBury] at h
  · intro h; simp [Item.switchRunReady] at h

theorem timed_move {q : Q} {now op i f evs ra res} (m : Move q now op i f evs ra res) (it : Item) (h : ItemTimed it) : ItemTimed (f it) := by
  cases m
  case touch => intro _; simp [Item.touch]
  case releaseReady => intro h; simp [Item.switchRunReady] at h
  case releaseDelay => intro h; simp [state_switchRunDelay] at h
  case bury => intro h; simp [state_switchRunBury] at h
  case kickDep => intro h; simp [Item.switchBuryDependent] at h
  case kickReady => intro h; simp [Item.switchBuryReady] at h
  case reserve => intro _; simp [Item.touch, Item.switchReadyRun]
  case setDelay => show ItemTimed (if _ then _ else _); split; exact h; split; exact h; exact h
  case setReserveGroup => exact h

theorem mod_all (P : Item → Prop) (q : Q) (i : Nat) (f : Item → Item) (h : ∀ j, P (q.store j)) (hf : P (f (q.store i))) (j : Nat) :
    P ((q.mod i f).store j) := by
  by_cases e : j = i
  · subst e; rw [mod_self]; exact hf
  · rw [mod_other _ _ _ _ e]; exact h j

/-- what an item can be after `AddMany` -/
theorem ManyAdded.cases {q q' : Q} {ds now n l} (a : ManyAdded q q' ds now n l) (hi : Inv q) (j : Nat) :
    (j < q.next ∧ q'.store j = q.store j ∧ (live q' j ↔ live q j)) ∨
    (q.next ≤ j ∧ j < q'.next ∧ live q' j ∧ q.find (q'.store j).key = none ∧
      ∃ d ∈ ds, d.key = (q'.store j).key ∧ q'.store j = placed d now true (mkItem d now)) ∨
    (q'.next ≤ j ∧ ¬ live q' j) := by
  by_cases h1 : j < q.next
  · refine Or.inl ⟨h1, a.old j h1, ?_⟩
    unfold live; rw [a.old j h1]
    constructor
    · intro h
      cases hf : q.find (q.store j).key with
      | some i => have := a.keep _ _ hf; rw [h] at this; exact this.symm
      | none => obtain ⟨d, _, _, h3⟩ := a.new _ _ hf h; omega
    · exact a.keep _ _
  · by_cases h2 : j < q'.next
    · right; left
      have hc := a.cover j (by omega) h2
      obtain ⟨p, hp, e⟩ := List.mem_map.1 hc
      have := a.listed p hp
      have e : p.1 = j := e
      rw [e] at this
      have hnone : q.find (q'.store j).key = none := by
        cases hf : q.find (q'.store j).key with
        | none => rfl
        | some i =>
          have h3 := a.keep _ _ hf
          have h4 := this.2.2.1
          unfold live at h4; rw [h4] at h3; injection h3 with h3; subst h3
          exact absurd (hi.keyOf _ _ hf).2 h1
      obtain ⟨d, h3, h4, h5⟩ := a.new _ _ hnone this.2.2.1
      refine ⟨by omega, h2, this.2.2.1, hnone, d, List.mem_of_find?_eq_some h3, ?_, h4⟩
      have := List.find?_some h3; simpa using this
    · right; right
      exact ⟨by omega, fun hl => h2 (live_lt a.inv hl)⟩

theorem Eff.timed {q : Q} {now op o} (e : Eff q now op o) (hi : Inv q) (h : Timed q) : Timed o.q := by
  have h' : ∀ j, ItemTimed (q.store j) := h
  intro j
  show ItemTimed (o.q.store j)
  cases e with
  | fail _ => exact h' j
  | add _ _ a _ =>
    rw [a.store]; split
    · exact timed_placed _ _ _
    · exact h' j
  | addMany hc a =>
    rcases a.cases hi j with ⟨_, e, _⟩ | ⟨_, _, _, _, d, _, _, e⟩ | ⟨_, e⟩
    · rw [e]; exact h' j
    · rw [e]; exact timed_placed _ _ _
    · intro hs; rw [a.inv.dead (by rw [a.closed]; exact hc) j e] at hs; simp at hs
  | move _ m mv => rw [mv.frame.store]; exact mod_all _ _ _ _ h' (timed_move m _ (h' _)) j
  | update _ _ u _ _ _ => rw [u.store]; exact mod_all _ _ _ _ h' (timed_updated _ _ _ _ _ _ _ _ (h' _)) j
  | changeKey _ _ _ r =>
    rcases r.store j with ⟨e, _⟩ | ⟨_, e⟩
    · rw [e]; exact h' j
    · rw [e]; unfold ItemTimed; rw [changedKey_state, changedKey_releaseAt]; exact h' j
  | @remove key order i added s q' _ _ r =>
    by_cases e : j = i
    · subst e; rw [r.self]; intro hs; simp [Item.removalCleanup] at hs
    · rw [r.other j e]; split
      · exact timed_settleDep _ _ (h' j)
      · exact h' j
  | delayTick b _ =>
    rw [b.store]; split
    · intro hs; simp [Item.switchDelayReady] at hs
    · exact h' j
  | ttrTick b _ _ =>
    rw [b.store]; split
    · exact timed_timeout _ _ _
    · exact h' j
  | destroy _ _ _ hs _ h _ => simp only [hs]; exact h' j

theorem timed_new : Timed new := by intro j h; simp [new] at h

theorem run_inv (h : List (Int × Op)) : ∀ {q q' : Q}, Inv q → Timed q → Along Safe q h → runFrom q h = some q' →
    Inv q' ∧ Timed q' := by
  induction h with
  | nil => intro q q' hi ht _ e; simp [runFrom] at e; subst e; exact ⟨hi, ht⟩
  | cons a h ih =>
    obtain ⟨now, op⟩ := a
    intro q q' hi ht hs e
    simp only [runFrom] at e
    cases hst : step q now op with
    | none => rw [hst] at e; simp at e
    | some o =>
      rw [hst] at e
      have ef := (step_eff (now := now) hi ht hs.1).1 o hst
      exact ih (ef.inv hi) (ef.timed hi ht) (hs.2 o hst) e

theorem run_ready (h : List (Int × Op)) : ∀ {q q' : Q}, Inv q → Timed q → ReadyOrd q → Along Safe q h → Along Fresh q h →
    runFrom q h = some q' → ReadyOrd q' := by
  induction h with
  | nil => intro q q' hi ht ho _ _ e; simp [runFrom] at e; subst e; exact ho
  | cons a h ih =>
    obtain ⟨now, op⟩ := a
    intro q q' hi ht ho hs hf e
    simp only [runFrom] at e
    cases hst : step q now op with
    | none => rw [hst] at e; simp at e
    | some o =>
      rw [hst] at e
      have ef := (step_eff (now := now) hi ht hs.1).1 o hst
      exact ih (ef.inv hi) (ef.timed hi ht) (ef.readyOrd hf.1 ho) (hs.2 o hst) (hf.2 o hst) e

theorem run_some (h : List (Int × Op)) : ∀ {q : Q}, Inv q → Timed q → Along Safe q h → Along Fresh q h →
    ∃ q', runFrom q h = some q' := by
  induction h with
  | nil => intro q _ _ _ _; exact ⟨q, rfl⟩
  | cons a h ih =>
    obtain ⟨now, op⟩ := a
    intro q hi ht hs hf
    obtain ⟨o, ho⟩ := (step_eff (now := now) hi ht hs.1).2 hf.1
    have ef := (step_eff (now := now) hi ht hs.1).1 o ho
    obtain ⟨q', e⟩ := ih (ef.inv hi) (ef.timed hi ht) (hs.2 o ho) (hf.2 o ho)
    exact ⟨q', by simp only [runFrom, ho]; exact e⟩

end Verif.Queue
