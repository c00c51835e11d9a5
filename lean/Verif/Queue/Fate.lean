import Verif.Queue.Trace
/-! What one step does to one item that is in the queue. -/
namespace Verif.Queue
open Verif.Heap

/-- what a step does to item `i` (in the queue before the step) -/
inductive Fate (q : Q) (now : Int) (op : Op) (o : Out) (i : Nat) : Prop
  | same : live o.q i → o.q.store i = q.store i → Fate q now op o i
  | move {f evs ra res} : Move q now op i f evs ra res → live o.q i → o.q.store i = f (q.store i) → Fate q now op o i
  | update {k g d p dl t ds} : op = .update k g d p dl t ds → q.find k = some i → live o.q i →
      o.q.store i = (q.store i).updated g d p dl t ds now → Fate q now op o i
  | rename {old new} : op = .changeKey old new → q.find new = none → (q.find old).isSome → live o.q i →
      o.q.store i = (q.store i).changedKey old new → Fate q now op o i
  | settle {k order} : op = .remove k order → i ∈ q.visit k order → q.find k ≠ some i → live o.q i →
      o.q.store i = (q.store i).settleDep k → Fate q now op o i
  | removed {k order} : op = .remove k order → q.find k = some i → ¬ live o.q i → Fate q now op o i
  | due : op = .delayTick → (q.store i).state = .delay → (q.store i).isready now = true → live o.q i →
      o.q.store i = (q.store i).switchDelayReady → Fate q now op o i
  | timeout {cb} : op = .ttrTick cb → (q.store i).state = .run → (q.store i).releasable now = true → live o.q i →
      o.q.store i = (q.store i).timeout now (cb (q.store i).data) → Fate q now op o i
  | destroyed : op = .destroy → o.q.closed = true → ¬ live o.q i → Fate q now op o i

theorem updated_key (g d p dl t ds n) (it : Item) : (it.updated g d p dl t ds n).key = it.key := by
  unfold Item.updated
  split
  · rw [withFields_key]
  · rw [withFields_key]; split
    · rw [withDeps_key]
    · rfl

theorem Move.key {q : Q} {now op i f evs ra res} (m : Move q now op i f evs ra res) (it : Item) : (f it).key = it.key := by
  cases m
  case touch => rfl
  case releaseReady => rfl
  case releaseDelay => rfl
  case bury => rfl
  case kickDep => rfl
  case kickReady => rfl
  case reserve => rfl
  case setDelay => simp only; split; rfl; split <;> rfl
  case setReserveGroup => rfl

theorem timeout_key (now t) (it : Item) : (it.timeout now t).key = it.key := by unfold Item.timeout; split <;> rfl

theorem live_of_same {q q' : Q} {i : Nat} (hl : live q i) (hk : (q'.store i).key = (q.store i).key)
    (hf : q'.find (q.store i).key = q.find (q.store i).key) : live q' i := by
  unfold live; rw [hk, hf]; exact hl

theorem Eff.fate {q : Q} {now op o} (e : Eff q now op o) (hi : Inv q) (i : Nat) (hl : live q i) : Fate q now op o i := by
  cases e with
  | fail _ => exact .same hl rfl
  | add _ hn a _ =>
    have hne : i ≠ q.next := by have := live_lt hi hl; omega
    have hs := a.store i
    rw [if_neg hne] at hs
    refine .same (live_of_same hl (by rw [hs]) ?_) hs
    rw [a.find, if_neg]
    intro e; unfold live at hl; rw [e, hn] at hl; simp at hl
  | addMany hc a =>
    have hlt := live_lt hi hl
    rcases a.cases hi i with ⟨_, e, h⟩ | ⟨h, _⟩ | ⟨h, _⟩
    · exact .same (h.2 hl) e
    · omega
    · have := a.next; omega
  | @move _ i' f evs ra res q' _ m mv =>
    have hs : q'.store = (q.mod i' f).store := mv.frame.store
    by_cases he : i = i'
    · subst he
      have h1 : q'.store i = f (q.store i) := by rw [hs, mod_self]
      refine .move m (live_of_same hl (by show (q'.store i).key = _; rw [h1, m.key]) ?_) h1
      show q'.find _ = _; rw [mv.frame.find]; rfl
    · have h1 : q'.store i = q.store i := by rw [hs, mod_other _ _ _ _ he]
      refine .same (live_of_same hl (by show (q'.store i).key = _; rw [h1]) ?_) h1
      show q'.find _ = _; rw [mv.frame.find]; rfl
  | @update key group data priority delay ttr deps i' q' ra _ hf u _ _ _ =>
    have hs := u.store
    by_cases he : i = i'
    · subst he
      have h1 : q'.store i = (q.store i).updated group data priority delay ttr deps now := by rw [hs, mod_self]
      refine .update rfl hf (live_of_same hl (by show (q'.store i).key = _; rw [h1, updated_key]) ?_) h1
      show q'.find _ = _; unfold Q.find; rw [u.items]
    · have h1 : q'.store i = q.store i := by rw [hs, mod_other _ _ _ _ he]
      refine .same (live_of_same hl (by show (q'.store i).key = _; rw [h1]) ?_) h1
      show q'.find _ = _; unfold Q.find; rw [u.items]
  | changeKey _ hn ho r =>
    rcases r.store i with ⟨_, h⟩ | ⟨_, h⟩
    · exact absurd hl h
    · exact .rename rfl hn (by rw [ho]; rfl) ((r.live i).2 hl) h
  | @remove key order i' added s q' _ hf r =>
    by_cases he : i = i'
    · subst he
      refine .removed rfl hf ?_
      intro h
      have h2 : q'.find (q'.store i).key = some i := h
      rw [r.self] at h2
      have hk : (Item.removalCleanup (if i ∈ q.visit key order then (q.store i).settleDep key else q.store i)).key = key := by
        have := (hi.keyOf _ _ hf).1
        unfold Item.removalCleanup; simp only; split
        · rw [settleDep_key]; exact this
        · exact this
      rw [hk, r.find, if_pos rfl] at h2; simp at h2
    · have hs := r.other i he
      have hk : (q.store i).key ≠ key := by
        intro e; have : q.find (q.store i).key = some i := hl
        rw [e, hf] at this; injection this with this; exact he this.symm
      have hfind : q'.find (q.store i).key = q.find (q.store i).key := by rw [r.find, if_neg hk]
      by_cases hv : i ∈ q.visit key order
      · rw [if_pos hv] at hs
        refine .settle rfl hv ?_ (live_of_same hl (by show (q'.store i).key = _; rw [hs, settleDep_key]) hfind) hs
        rw [hf]; intro e; injection e with e; exact he e.symm
      · rw [if_neg hv] at hs
        exact .same (live_of_same hl (by show (q'.store i).key = _; rw [hs]) hfind) hs
  | @delayTick l q' b hm =>
    have hs := b.store i
    by_cases hv : i ∈ l
    · rw [if_pos hv] at hs
      have h2 := (hm i).1 hv
      refine .due rfl h2.2.1 h2.2.2 (live_of_same hl (by show (q'.store i).key = _; rw [hs]; rfl) ?_) hs
      show q'.find _ = _; unfold Q.find; rw [b.items]
    · rw [if_neg hv] at hs
      refine .same (live_of_same hl (by show (q'.store i).key = _; rw [hs]) ?_) hs
      show q'.find _ = _; unfold Q.find; rw [b.items]
  | @ttrTick cb l q' b h1 h2 =>
    have hs := b.store i
    by_cases hv : i ∈ l.map (·.1)
    · rw [if_pos hv] at hs
      have h3 := (h2 i).1 hv
      refine .timeout rfl h3.2.1 h3.2.2 (live_of_same hl (by show (q'.store i).key = _; rw [hs, timeout_key]) ?_) hs
      show q'.find _ = _; unfold Q.find; rw [b.items]
    · rw [if_neg hv] at hs
      refine .same (live_of_same hl (by show (q'.store i).key = _; rw [hs]) ?_) hs
      show q'.find _ = _; unfold Q.find; rw [b.items]
  | destroy _ hc hit _ _ _ _ =>
    refine .destroyed rfl hc ?_
    intro h; unfold live Q.find at h; simp only [hit, mget] at h; simp at h

/-- items that were not in the queue before the step but are after it were created by it -/
theorem Eff.born {q : Q} {now op o} (e : Eff q now op o) (hi : Inv q) (i : Nat) (hn : ¬ live q i) (hl : live o.q i) :
    q.next ≤ i ∧ ((∃ d, op = .add d ∧ i = q.next ∧ o.q.store i = placed d now false (mkItem d now) ∧ q.find d.key = none) ∨
      (∃ ds, op = .addMany ds ∧ ∃ d ∈ ds, q.find d.key = none ∧
        o.q.store i = placed { d with size := 0 } now true (mkItem { d with size := 0 } now))) := by
  cases e with
  | fail _ => exact absurd hl hn
  | @add d q' s _ hf a _ =>
    have hs := a.store i
    by_cases he : i = q.next
    · rw [if_pos he] at hs
      exact ⟨by omega, Or.inl ⟨d, rfl, he, hs, hf⟩⟩
    · rw [if_neg he] at hs
      exfalso
      have h : q'.find (q'.store i).key = some i := hl
      rw [hs, a.find] at h
      split at h
      · injection h with h; exact he h.symm
      · exact hn h
  | @addMany ds q' n l hc a =>
    rcases a.cases hi i with ⟨_, e, h⟩ | ⟨h, _, _, hf, d, hd, hk, hs⟩ | ⟨_, h⟩
    · exact absurd (h.1 hl) hn
    · obtain ⟨d0, h0, e0⟩ := List.mem_map.1 hd
      subst e0
      exact ⟨h, Or.inr ⟨ds, rfl, d0, h0, by rw [← hk] at hf; exact hf, hs⟩⟩
    · exact absurd hl h
  | @move _ i' f evs ra res q' _ m mv =>
    exfalso; apply hn
    have := (mv.frame.live i).1 hl
    exact (mod_live q i' f m.key i).1 this
  | @update key group data priority delay ttr deps i' q' ra _ hf u _ _ _ =>
    exfalso; apply hn
    have h : q'.find (q'.store i).key = some i := hl
    unfold Q.find at h; rw [u.items, u.store] at h
    rw [mod_key _ _ _ (fun it => updated_key _ _ _ _ _ _ _ it)] at h
    exact h
  | changeKey _ _ _ r => exact absurd ((r.live i).1 hl) hn
  | @remove key order i' added s q' _ hf r =>
    exfalso; apply hn
    have h : q'.find (q'.store i).key = some i := hl
    rw [r.find] at h
    split at h
    · simp at h
    · have := hi.keyOf _ _ h
      unfold live; rw [this.1]; exact h
  | @delayTick l q' b hm =>
    exfalso; apply hn
    have h : q'.find (q'.store i).key = some i := hl
    unfold Q.find at h; rw [b.items, b.store] at h
    split at h <;> exact h
  | @ttrTick cb l q' b h1 h2 =>
    exfalso; apply hn
    have h : q'.find (q'.store i).key = some i := hl
    unfold Q.find at h; rw [b.items, b.store] at h
    split at h
    · rw [timeout_key] at h; exact h
    · exact h
  | destroy _ hc hit _ _ _ _ =>
    exfalso
    unfold live Q.find at hl; simp only [hit, mget] at hl; simp at hl

theorem Eff.next_le {q : Q} {now op o} (e : Eff q now op o) : q.next ≤ o.q.next := by
  cases e with
  | fail _ => exact Nat.le_refl _
  | add _ _ a _ => have := a.next; simp only; omega
  | addMany _ a => have := a.next; simp only; omega
  | move _ _ m => exact Nat.le_of_eq m.frame.next.symm
  | update _ _ u _ _ _ => exact Nat.le_of_eq u.next.symm
  | changeKey _ _ _ r => exact Nat.le_of_eq r.next.symm
  | remove _ _ r => exact Nat.le_of_eq r.next.symm
  | delayTick b _ => exact Nat.le_of_eq b.next.symm
  | ttrTick b _ _ => exact Nat.le_of_eq b.next.symm
  | destroy _ _ _ _ h _ _ => exact Nat.le_of_eq h.symm

theorem Eff.closed {q : Q} {now op o} (e : Eff q now op o) (h : q.closed = true) : o.q.closed = true := by
  cases e with
  | fail _ => exact h
  | add _ _ a _ => rw [a.closed]; exact h
  | addMany _ a => rw [a.closed]; exact h
  | move _ _ m => rw [m.frame.closed]; exact h
  | update _ _ u _ _ _ => rw [u.closed]; exact h
  | changeKey _ _ _ r => rw [r.closed]; exact h
  | remove _ _ r => rw [r.closed]; exact h
  | delayTick b _ => rw [b.closed]; exact h
  | ttrTick b _ _ => rw [b.closed]; exact h
  | destroy _ hc _ _ _ _ _ => exact hc

/-- a property that holds before a history and not after it is lost at some step -/
theorem exists_change (P : Q → Prop) (h : List (Int × Op)) : ∀ q q', P q → ¬ P q' → runFrom q h = some q' →
    ∃ a t op b qa o, h = a ++ (t, op) :: b ∧ runFrom q a = some qa ∧ step qa t op = some o ∧ P qa ∧ ¬ P o.q ∧
      runFrom o.q b = some q' := by
  induction h with
  | nil => intro q q' h1 h2 e; simp [runFrom] at e; subst e; exact absurd h1 h2
  | cons x h ih =>
    obtain ⟨t, op⟩ := x
    intro q q' h1 h2 e
    simp only [runFrom] at e
    cases hs : step q t op with
    | none => rw [hs] at e; simp at e
    | some o =>
      rw [hs] at e
      simp only at e
      by_cases hp : P o.q
      · obtain ⟨a, t', op', b, qa, o', e1, e2, e3, e4⟩ := ih o.q q' hp h2 e
        refine ⟨(t, op) :: a, t', op', b, qa, o', by rw [e1]; rfl, ?_, e3, e4⟩
        simp only [runFrom, hs]; exact e2
      · exact ⟨[], t, op, h, q, o, rfl, rfl, hs, h1, hp, e⟩

theorem run_closed (h : List (Int × Op)) : ∀ {q q' : Q}, Inv q → Timed q → Along Safe q h → runFrom q h = some q' →
    q.closed = true → q'.closed = true := by
  induction h with
  | nil => intro q q' hi ht _ e hc; simp [runFrom] at e; subst e; exact hc
  | cons a h ih =>
    obtain ⟨now, op⟩ := a
    intro q q' hi ht hs e hc
    simp only [runFrom] at e
    cases hst : step q now op with
    | none => rw [hst] at e; simp at e
    | some o =>
      rw [hst] at e
      have ef := (step_eff (now := now) hi ht hs.1).1 o hst
      exact ih (ef.inv hi) (ef.timed hi ht) (hs.2 o hst) e (ef.closed hc)

end Verif.Queue
