import Verif.Queue.Model
import Verif.Heap.Lemmas
/-! The invariant of the queue and its preservation by the primitive moves. -/
namespace Verif.Queue
open Verif.Heap

/-! ### Orders -/

theorem before_asymm (a b : Option Int) (h : before a b = true) : before b a = false := by
  cases a <;> cases b <;> simp_all [before]; omega

theorem before_trans (a b c : Option Int) (h1 : before b a = false) (h2 : before c b = false) :
    before c a = false := by
  cases a <;> cases b <;> cases c <;> simp_all [before]; omega

theorem swo_delay (st : Nat → Item) : SWO (lessDelay st) :=
  ⟨fun _ _ h => before_asymm _ _ h, fun _ _ _ h1 h2 => before_trans _ _ _ h1 h2⟩
theorem swo_run (st : Nat → Item) : SWO (lessRun st) :=
  ⟨fun _ _ h => before_asymm _ _ h, fun _ _ _ h1 h2 => before_trans _ _ _ h1 h2⟩
theorem swo_ready (st : Nat → Item) : SWO (lessReady st) := by
  constructor
  · intro a b h; unfold lessReady at *; grind
  · intro a b c h1 h2; unfold lessReady at *; grind

theorem IsHeap.congr {less less' : Nat → Nat → Bool} {l : List Nat} (h : IsHeap less l)
    (e : ∀ a ∈ l, ∀ b ∈ l, less' a b = less a b) : IsHeap less' l := by
  intro c hc hcn
  have := h c hc hcn
  unfold Ok lessAt at *
  have h1 : c < l.length := hcn
  have h2 : (c - 1) / 2 < l.length := by omega
  rw [List.getElem?_eq_getElem h1, List.getElem?_eq_getElem h2] at *
  simp only at *
  rw [e _ (List.getElem_mem h1) _ (List.getElem_mem h2)]; exact this

/-! ### Maps -/

theorem mget_mdel {β : Type} (m : List (String × β)) (k k' : String) :
    mget (mdel m k) k' = if k' = k then none else mget m k' := by
  unfold mget mdel
  induction m with
  | nil => simp
  | cons p m ih =>
    obtain ⟨a, v⟩ := p
    by_cases h : a = k
    · subst h
      simp only [ne_eq, not_true_eq_false, decide_false, List.filter_cons, Bool.false_eq_true, if_false]
      rw [ih]
      by_cases h' : k' = a
      · simp [h']
      · have : (k' == a) = false := by simpa using h'
        simp [h', List.lookup_cons, this]
    · simp only [ne_eq, h, not_false_eq_true, decide_true, List.filter_cons, if_true, List.lookup_cons]
      by_cases h' : k' = a
      · subst h'; simp [h]
      · have : (k' == a) = false := by simpa using h'
        simp only [this]; exact ih

theorem mget_mset {β : Type} (m : List (String × β)) (k k' : String) (v : β) :
    mget (mset m k v) k' = if k' = k then some v else mget m k' := by
  unfold mset
  have := mget_mdel m k k'
  unfold mget at *
  rw [List.lookup_cons]
  by_cases h : k' = k
  · subst h; simp
  · have hb : (k' == k) = false := by simpa using h
    simp only [hb, h, if_false]
    rw [this]; simp [h]

theorem mget_mem {β : Type} (m : List (String × β)) (k : String) (v : β) (h : mget m k = some v) : (k, v) ∈ m := by
  unfold mget at h
  induction m with
  | nil => simp at h
  | cons p m ih =>
    obtain ⟨a, w⟩ := p
    rw [List.lookup_cons] at h
    by_cases hk : k = a
    · subst hk; simp at h; subst h; simp
    · have hb : (k == a) = false := by simpa using hk
      simp only [hb] at h
      exact List.mem_cons_of_mem _ (ih h)

theorem mem_mget {β : Type} (m : List (String × β)) (k : String) (v : β) (hn : (m.map (·.1)).Nodup)
    (h : (k, v) ∈ m) : mget m k = some v := by
  unfold mget
  induction m with
  | nil => simp at h
  | cons p m ih =>
    obtain ⟨a, w⟩ := p
    rw [List.lookup_cons]
    simp only [List.map_cons, List.nodup_cons] at hn
    by_cases hk : k = a
    · subst hk
      simp only [beq_self_eq_true]
      rcases List.mem_cons.1 h with h | h
      · simp at h; simp [h]
      · exact absurd (List.mem_map.2 ⟨_, h, rfl⟩) hn.1
    · have hb : (k == a) = false := by simpa using hk
      simp only [hb]
      rcases List.mem_cons.1 h with h | h
      · simp at h; exact absurd h.1 hk
      · exact ih hn.2 h

theorem mdel_nodup {β : Type} (m : List (String × β)) (k : String) (hn : (m.map (·.1)).Nodup) :
    ((mdel m k).map (·.1)).Nodup :=
  List.Sublist.nodup (List.Sublist.map _ List.filter_sublist) hn

theorem mset_nodup {β : Type} (m : List (String × β)) (k : String) (v : β) (hn : (m.map (·.1)).Nodup) :
    ((mset m k v).map (·.1)).Nodup := by
  unfold mset
  simp only [List.map_cons, List.nodup_cons]
  refine ⟨?_, mdel_nodup m k hn⟩
  simp [mdel]

/-! ### The invariant -/

/-- the item is in the queue: it is found under its own key -/
def live (q : Q) (i : Nat) : Prop := q.find (q.store i).key = some i

/-- The invariant, with an optional item `x` that is in the queue but currently in no sub-queue. -/
structure InvX (q : Q) (x : Option Nat) : Prop where
  keys : (q.items.map (·.1)).Nodup
  keyOf : ∀ k i, q.find k = some i → (q.store i).key = k ∧ i < q.next
  xlive : ∀ i, x = some i → live q i
  wfDelay : WF q.delay
  wfRun : WF q.run
  wfBury : WF q.bury
  wfDep : WF q.dep
  wfReady : ∀ g, WF (q.rheap g)
  memDelay : ∀ i, i ∈ q.delay.arr ↔ live q i ∧ x ≠ some i ∧ (q.store i).state = .delay
  memRun : ∀ i, i ∈ q.run.arr ↔ live q i ∧ x ≠ some i ∧ (q.store i).state = .run
  memBury : ∀ i, i ∈ q.bury.arr ↔ live q i ∧ x ≠ some i ∧ (q.store i).state = .bury
  memDep : ∀ i, i ∈ q.dep.arr ↔ live q i ∧ x ≠ some i ∧ (q.store i).state = .dependent
  memReady : ∀ g i, i ∈ q.ready g ↔ live q i ∧ x ≠ some i ∧ (q.store i).state = .ready ∧ (q.store i).group = g
  notRemoved : ∀ i, live q i → x ≠ some i → (q.store i).state ≠ .removed
  dead : q.closed = false → ∀ i, ¬ live q i → (q.store i).state = .removed
  ordDelay : IsHeap (lessDelay q.store) q.delay.arr
  ordRun : IsHeap (lessRun q.store) q.run.arr

abbrev Inv (q : Q) : Prop := InvX q none

/-- heap order of the ready sub-queue -/
def ReadyOrd (q : Q) : Prop := ∀ g, IsHeap (lessReady q.store) (q.ready g)

theorem live_find {q : Q} (h : ∀ k i, q.find k = some i → (q.store i).key = k ∧ i < q.next) {k i}
    (hf : q.find k = some i) : live q i := by
  unfold live; rw [(h k i hf).1]; exact hf

theorem InvX.live {q x} (h : InvX q x) {k i} (hf : q.find k = some i) : live q i := live_find h.keyOf hf

theorem live_lt {q x} (h : InvX q x) {i} (hl : Verif.Queue.live q i) : i < q.next := (h.keyOf _ _ hl).2

theorem inv_new : Inv new := by
  have hl : ∀ i, ¬ live new i := by intro i h; simp [live, Q.find, mget, new] at h
  constructor
  case dead => intro _ i _; rfl
  all_goals first
    | (intro g; constructor <;> simp [new, Q.rheap])
    | (constructor <;> simp [new])
    | simp [new, Q.find, mget]
    | skip
  all_goals (try (intro c hc hcn; simp at hcn))
  all_goals (try (intro i h; exact absurd h (hl i)))
  all_goals (try (intro i; simp [new]; try (intro h; exact absurd h (hl i))))
  all_goals (try (intro g i; simp [new]; intro h; exact absurd h (hl i)))

theorem readyOrd_new : ReadyOrd new := by intro g c hc hcn; simp [new] at hcn

end Verif.Queue
