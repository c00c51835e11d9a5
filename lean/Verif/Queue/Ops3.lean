import Verif.Queue.Ops2
/-! ChangeKey, Remove, Destroy and the two timers. -/
namespace Verif.Queue
open Verif.Heap

instance (q : Q) (i : Nat) : Decidable (live q i) := by unfold live; infer_instance

/-- An invariant carries over to a state with the same sub-queues and the same order-relevant fields. -/
theorem InvX.transport {q q' : Q} {x} (h : InvX q x)
    (keys : (q'.items.map (·.1)).Nodup) (keyOf : ∀ k i, q'.find k = some i → (q'.store i).key = k ∧ i < q'.next)
    (hd : q'.delay = q.delay) (hr : q'.run = q.run) (hb : q'.bury = q.bury) (hp : q'.dep = q.dep)
    (hy : q'.ready = q.ready) (hyi : q'.readyIdx = q.readyIdx) (hc : q'.closed = q.closed)
    (hl : ∀ j, Verif.Queue.live q' j ↔ Verif.Queue.live q j) (hst : ∀ j, (q'.store j).state = (q.store j).state)
    (hg : ∀ j, (q'.store j).group = (q.store j).group) (hra : ∀ j, (q'.store j).readyAt = (q.store j).readyAt)
    (hrl : ∀ j, (q'.store j).releaseAt = (q.store j).releaseAt) : InvX q' x where
  keys := keys
  keyOf := keyOf
  xlive := fun i e => (hl i).2 (h.xlive i e)
  wfDelay := hd ▸ h.wfDelay
  wfRun := hr ▸ h.wfRun
  wfBury := hb ▸ h.wfBury
  wfDep := hp ▸ h.wfDep
  wfReady := by intro g; have := h.wfReady g; unfold Q.rheap at *; rw [hy, hyi]; exact this
  memDelay := by intro j; rw [hd, hl, hst]; exact h.memDelay j
  memRun := by intro j; rw [hr, hl, hst]; exact h.memRun j
  memBury := by intro j; rw [hb, hl, hst]; exact h.memBury j
  memDep := by intro j; rw [hp, hl, hst]; exact h.memDep j
  memReady := by intro g j; rw [hy, hl, hst, hg]; exact h.memReady g j
  notRemoved := by intro j hj; rw [hst]; exact h.notRemoved j ((hl j).1 hj)
  dead := by intro hcl j hj; rw [hst]; exact h.dead (hc ▸ hcl) j (fun a => hj ((hl j).2 a))
  ordDelay := by
    rw [hd]; refine IsHeap.congr h.ordDelay fun a _ b _ => ?_
    unfold lessDelay; rw [hra, hra]
  ordRun := by
    rw [hr]; refine IsHeap.congr h.ordRun fun a _ b _ => ?_
    unfold lessRun; rw [hrl, hrl]

theorem changedKey_state (o n) (it : Item) : (it.changedKey o n).state = it.state := by
  unfold Item.changedKey; split <;> rfl
theorem changedKey_group (o n) (it : Item) : (it.changedKey o n).group = it.group := by
  unfold Item.changedKey; split <;> rfl
theorem changedKey_readyAt (o n) (it : Item) : (it.changedKey o n).readyAt = it.readyAt := by
  unfold Item.changedKey; split <;> rfl
theorem changedKey_releaseAt (o n) (it : Item) : (it.changedKey o n).releaseAt = it.releaseAt := by
  unfold Item.changedKey; split <;> rfl
theorem changedKey_prio (o n) (it : Item) : (it.changedKey o n).priority = it.priority := by
  unfold Item.changedKey; split <;> rfl
theorem changedKey_size (o n) (it : Item) : (it.changedKey o n).size = it.size := by
  unfold Item.changedKey; split <;> rfl
theorem changedKey_creation (o n) (it : Item) : (it.changedKey o n).creation = it.creation := by
  unfold Item.changedKey; split <;> rfl
theorem changedKey_key (o n) (it : Item) : (it.changedKey o n).key = if it.key = o then n else it.key := by
  unfold Item.changedKey; split <;> rfl

/-- what `ChangeKey` yields on success -/
structure Renamed (q q' : Q) (old new : String) (i : Nat) : Prop where
  inv : Inv q'
  ready : ReadyOrd q → ReadyOrd q'
  find : ∀ k, q'.find k = if k = new then some i else if k = old then none else q.find k
  next : q'.next = q.next
  closed : q'.closed = q.closed
  store : ∀ j, q'.store j = q.store j ∧ ¬ live q j ∨ live q j ∧ q'.store j = (q.store j).changedKey old new
  live : ∀ j, Verif.Queue.live q' j ↔ Verif.Queue.live q j
  dependants : q'.dependants = renameDependants q.dependants old new

theorem mem_items {q : Q} {x} (h : InvX q x) (j : Nat) : j ∈ q.items.map (·.2) ↔ live q j := by
  constructor
  · intro hj
    obtain ⟨⟨k, v⟩, hm, rfl⟩ := List.mem_map.1 hj
    exact h.live (mem_mget q.items k v h.keys hm)
  · intro hl
    exact List.mem_map.2 ⟨_, mget_mem _ _ _ hl, rfl⟩

theorem changeKey_ok {q : Q} {old new : String} {i : Nat} (h : Inv q) (hc : q.closed = false)
    (hn : q.find new = none) (hf : q.find old = some i) :
    ∃ q', q.changeKey old new = ⟨q', .ok, [], false⟩ ∧ Renamed q q' old new i := by
  have hne : old ≠ new := by intro e; subst e; rw [hn] at hf; simp at hf
  have hki := h.keyOf old i hf
  have hil : live q i := h.live hf
  refine ⟨{ q with
        items := mset (mdel q.items old) new i
        dependants := renameDependants q.dependants old new
        store := fun x => if x ∈ (mset (mdel q.items old) new i).map (·.2)
          then (q.store x).changedKey old new else q.store x },
    by unfold Q.changeKey; simp [hc, hn, hf], ?_⟩
  have hvals : ∀ x, x ∈ (mset (mdel q.items old) new i).map (·.2) ↔ live q x := by
    intro x
    have hnd : ((mset (mdel q.items old) new i).map (·.1)).Nodup := mset_nodup _ _ _ (mdel_nodup _ _ h.keys)
    constructor
    · intro hx
      obtain ⟨⟨k, v⟩, hm, rfl⟩ := List.mem_map.1 hx
      have := mem_mget _ k v hnd hm
      rw [mget_mset] at this
      split at this
      · injection this with this; subst this; exact hil
      · rw [mget_mdel] at this
        split at this
        · simp at this
        · exact h.live this
    · intro hx
      by_cases e : x = i
      · subst e; simp [mset]
      · refine List.mem_map.2 ⟨((q.store x).key, x), mget_mem _ _ _ ?_, rfl⟩
        rw [mget_mset, if_neg, mget_mdel, if_neg]
        · exact hx
        · intro hk; unfold live at hx; rw [hk, hf] at hx; injection hx with hx; exact e hx.symm
        · intro hk; unfold live at hx; rw [hk, hn] at hx; simp at hx
  generalize hq' : ({ q with
        items := mset (mdel q.items old) new i
        dependants := renameDependants q.dependants old new
        store := fun x => if x ∈ (mset (mdel q.items old) new i).map (·.2)
          then (q.store x).changedKey old new else q.store x } : Q) = q'
  have hst : ∀ j, q'.store j = if live q j then (q.store j).changedKey old new else q.store j := by
    intro j; rw [← hq']; by_cases e : live q j
    · simp only [if_pos ((hvals j).2 e), if_pos e]
    · simp only [if_neg (fun a => e ((hvals j).1 a)), if_neg e]
  have hfind : ∀ k, q'.find k = if k = new then some i else if k = old then none else q.find k := by
    intro k; rw [← hq']; unfold Q.find; simp only [mget_mset, mget_mdel]
  have hlive : ∀ j, live q' j ↔ live q j := by
    intro j
    by_cases e : live q j
    · simp only [e, iff_true]
      unfold live
      rw [hst, if_pos e, changedKey_key, hfind]
      by_cases hk : (q.store j).key = old
      · rw [if_pos hk, if_pos rfl]; unfold live at e; rw [hk, hf] at e; exact e
      · rw [if_neg hk, if_neg, if_neg hk]
        · exact e
        · intro hk2; unfold live at e; rw [hk2, hn] at e; simp at e
    · simp only [e, iff_false]
      have e' := e
      unfold live at e' ⊢
      rw [hst, if_neg e, hfind]
      split
      · intro a; injection a with a; subst a; exact e hil
      · split
        · simp
        · exact e'
  have hsame : ∀ {α : Type} (f : Item → α), (∀ it, f (it.changedKey old new) = f it) → ∀ j, f (q'.store j) = f (q.store j) := by
    intro α f hff j; rw [hst]; split
    · exact hff _
    · rfl
  refine ⟨?_, ?_, hfind, by rw [← hq'], by rw [← hq'], ?_, hlive, by rw [← hq']⟩
  · refine h.transport ?_ ?_ (by rw [← hq']) (by rw [← hq']) (by rw [← hq']) (by rw [← hq']) (by rw [← hq']) (by rw [← hq']) (by rw [← hq'])
      hlive (hsame _ (changedKey_state _ _)) (hsame _ (changedKey_group _ _)) (hsame _ (changedKey_readyAt _ _))
      (hsame _ (changedKey_releaseAt _ _))
    · rw [← hq']; exact mset_nodup _ _ _ (mdel_nodup _ _ h.keys)
    · intro k j hk
      have hnext : q'.next = q.next := by rw [← hq']
      rw [hfind] at hk
      split at hk
      · injection hk with hk; subst hk
        rw [hst, if_pos hil, changedKey_key, if_pos hki.1, hnext]
        exact ⟨by rename_i e; exact e.symm, hki.2⟩
      · split at hk
        · simp at hk
        · have := h.keyOf k j hk
          rw [hst, if_pos (h.live hk), changedKey_key, this.1, hnext, if_neg (by assumption)]
          exact ⟨rfl, this.2⟩
  · intro ho g
    have : q'.ready = q.ready := by rw [← hq']
    rw [this]
    refine IsHeap.congr (ho g) fun a _ b _ => ?_
    unfold lessReady
    rw [hsame (·.priority) (changedKey_prio _ _) a, hsame (·.priority) (changedKey_prio _ _) b,
      hsame (·.size) (changedKey_size _ _) a, hsame (·.size) (changedKey_size _ _) b,
      hsame (·.creation) (changedKey_creation _ _) a, hsame (·.creation) (changedKey_creation _ _) b]
  · intro j; rw [hst]; by_cases e : live q j
    · right; simp [e]
    · left; simp [e]

/-! ### Remove -/

/-- what happens to a dependant when `key` is resolved for it -/
def Item.settleDep (key : String) (it : Item) : Item :=
  if it.state = .dependent ∧ (it.resolve key).remaining = [] then (it.resolve key).switchDependentReady
  else it.resolve key

theorem resolve_resolve (k) (it : Item) : (it.resolve k).resolve k = it.resolve k := by
  unfold Item.resolve; simp

theorem settleDep_key (k) (it : Item) : (it.settleDep k).key = it.key := by
  unfold Item.settleDep; split <;> rfl

theorem settleDep_idem (k) (it : Item) : (it.settleDep k).settleDep k = it.settleDep k := by
  by_cases e : it.state = .dependent ∧ (it.resolve k).remaining = []
  · have : it.settleDep k = (it.resolve k).switchDependentReady := by unfold Item.settleDep; rw [if_pos e]
    rw [this]
    unfold Item.settleDep
    rw [if_neg (by simp [Item.switchDependentReady])]
    simp [Item.resolve, Item.switchDependentReady]
  · have : it.settleDep k = it.resolve k := by unfold Item.settleDep; rw [if_neg e]
    rw [this]
    unfold Item.settleDep
    rw [resolve_resolve]
    have : (it.resolve k).state = it.state := rfl
    rw [this, if_neg e]

theorem plain_resolve (k) : Plain (Item.resolve k) := by constructor <;> intro _ <;> rfl

theorem resolveAll_ok (key : String) (js : List Nat) : ∀ (q : Q) (l : List Nat), Inv q → q.closed = false →
    ∃ q' l', q.resolveAll key js l = some (q', l ++ l') ∧ Inv q' ∧ (ReadyOrd q → ReadyOrd q') ∧
      q'.items = q.items ∧ q'.next = q.next ∧ q'.closed = q.closed ∧ q'.dependants = q.dependants ∧
      (∀ j, q'.store j = if j ∈ js then (q.store j).settleDep key else q.store j) ∧ l'.Nodup ∧
      (∀ j, j ∈ l' ↔ j ∈ js ∧ (q.store j).state = .dependent ∧ ((q.store j).resolve key).remaining = []) := by
  induction js with
  | nil => intro q l h hc; exact ⟨q, [], by simp [Q.resolveAll], h, id, rfl, rfl, rfl, rfl, by simp, by simp, by simp⟩
  | cons j js ih =>
    intro q l h hc
    have fin : ∀ (q1 : Q) (l1 : List Nat), Moved q q1 j (Item.settleDep key) →
        (l1 = if (q.store j).state = .dependent ∧ ((q.store j).resolve key).remaining = [] then [j] else []) →
        ∃ q' l', q1.resolveAll key js (l ++ l1) = some (q', l ++ l') ∧ Inv q' ∧ (ReadyOrd q → ReadyOrd q') ∧
          q'.items = q.items ∧ q'.next = q.next ∧ q'.closed = q.closed ∧ q'.dependants = q.dependants ∧
          (∀ x, q'.store x = if x ∈ j :: js then (q.store x).settleDep key else q.store x) ∧ l'.Nodup ∧
          (∀ x, x ∈ l' ↔ x ∈ j :: js ∧ (q.store x).state = .dependent ∧ ((q.store x).resolve key).remaining = []) := by
      intro q1 l1 m hl1
      obtain ⟨q', l', e, inv, ro, hi, hn, hcl, hde, hst, hnd, hmem⟩ := ih q1 (l ++ l1) m.inv (by rw [m.frame.closed]; exact hc)
      have s1 : ∀ x, q1.store x = if x = j then (q.store j).settleDep key else q.store x := by
        intro x; rw [m.frame.store]; rfl
      have key1 : ∀ x, x ≠ j → q1.store x = q.store x := by intro x hx; rw [s1, if_neg hx]
      have nj : j ∈ l' → (q.store j).state = .dependent ∧ ((q.store j).resolve key).remaining = [] → False := by
        intro hj hp
        have := (hmem j).1 hj
        rw [s1, if_pos rfl] at this
        unfold Item.settleDep at this
        rw [if_pos hp] at this
        simp [Item.switchDependentReady] at this
      have nj2 : j ∈ l' → ¬ ((q.store j).state = .dependent ∧ ((q.store j).resolve key).remaining = []) → False := by
        intro hj hp
        have := (hmem j).1 hj
        rw [s1, if_pos rfl] at this
        unfold Item.settleDep at this
        rw [if_neg hp] at this
        rw [resolve_resolve] at this
        exact hp this.2
      refine ⟨q', l1 ++ l', by rw [e, List.append_assoc], inv, fun a => ro (m.ready a), ?_, ?_, ?_, ?_, ?_, ?_, ?_⟩
      · rw [hi, m.frame.items]; rfl
      · rw [hn, m.frame.next]; rfl
      · rw [hcl, m.frame.closed]; rfl
      · rw [hde, m.frame.dependants]; rfl
      · intro x
        rw [hst, s1]
        by_cases ex : x = j
        · subst ex; simp [settleDep_idem]
        · simp [ex]
      · rw [hl1]; split
        · rename_i hp
          simp only [List.singleton_append, List.nodup_cons]
          exact ⟨fun hj => nj hj hp, hnd⟩
        · simpa using hnd
      · intro x
        rw [List.mem_append, hmem]
        by_cases ex : x = j
        · subst ex
          rw [hl1]
          constructor
          · rintro (a | a)
            · split at a
              · rename_i hp; exact ⟨by simp, hp⟩
              · simp at a
            · exact absurd ((hmem x).2 a) (fun b => by
                by_cases hp : (q.store x).state = .dependent ∧ ((q.store x).resolve key).remaining = []
                · exact nj b hp
                · exact nj2 b hp)
          · rintro ⟨_, hp⟩; left; rw [if_pos hp]; simp
        · rw [key1 x ex]
          have : x ∉ l1 := by rw [hl1]; split <;> simp [ex]
          simp [this, ex]
    unfold Q.resolveAll
    simp only [mod_self]
    by_cases hp : (q.store j).state = .dependent ∧ ((q.store j).resolve key).remaining = []
    · have hlv : live q j := by
        by_cases hlv : live q j
        · exact hlv
        · have := h.dead hc j hlv; rw [hp.1] at this; simp at this
      have hp' : ((q.store j).resolve key).state = .dependent ∧ ((q.store j).resolve key).remaining = [] := hp
      rw [if_pos hp']
      have h1 := modPlain h j (Item.resolve key) (plain_resolve key)
      obtain ⟨q1, e1, r1⟩ := removeDep_ok h1 ((mod_live q j (Item.resolve key) (fun _ => rfl) j).2 hlv) (by rw [mod_self]; exact hp.1)
      rw [e1]
      have m := r1.toReady (f := Item.switchDependentReady) (fun _ => rfl) rfl
      have m' : Moved q ((q1.mod j Item.switchDependentReady).pushReady j) j (Item.settleDep key) := by
        refine ⟨⟨?_, m.frame.items, m.frame.next, m.frame.closed, m.frame.dependants⟩, m.inv,
          fun ho => m.ready (modPlain_ready j _ (plain_resolve key) ho)⟩
        rw [m.frame.store, mod_mod]
        funext x; by_cases ex : x = j
        · subst ex; rw [mod_self, mod_self]; unfold Item.settleDep; rw [if_pos hp]
        · rw [mod_other _ _ _ _ ex, mod_other _ _ _ _ ex]
      exact fin _ [j] m' (by rw [if_pos hp])
    · have hp' : ¬ (((q.store j).resolve key).state = .dependent ∧ ((q.store j).resolve key).remaining = []) := hp
      rw [if_neg hp']
      have m' : Moved q (q.mod j (Item.resolve key)) j (Item.settleDep key) := by
        refine ⟨⟨?_, rfl, rfl, rfl, rfl⟩, modPlain h j _ (plain_resolve key), modPlain_ready j _ (plain_resolve key)⟩
        funext x; by_cases ex : x = j
        · subst ex; rw [mod_self, mod_self]; unfold Item.settleDep; rw [if_neg hp]
        · rw [mod_other _ _ _ _ ex, mod_other _ _ _ _ ex]
      have := fin _ [] m' (by rw [if_neg hp])
      simpa using this

/-- a loose item can be dropped -/
theorem dropLoose {q : Q} {i : Nat} (h : InvX q (some i)) (m) :
    Inv (({ q with items := mdel q.items (q.store i).key, dependants := m } : Q).mod i Item.removalCleanup) ∧
    (ReadyOrd q → ReadyOrd (({ q with items := mdel q.items (q.store i).key, dependants := m } : Q).mod i Item.removalCleanup)) := by
  have hil : live q i := h.xlive i rfl
  generalize hq' : (({ q with items := mdel q.items (q.store i).key, dependants := m } : Q).mod i Item.removalCleanup) = q'
  have hst : ∀ j, j ≠ i → q'.store j = q.store j := by intro j hj; rw [← hq', mod_other _ _ _ _ hj]
  have hki : (q'.store i).key = (q.store i).key := by rw [← hq', mod_self]; rfl
  have hsi : (q'.store i).state = .removed := by rw [← hq', mod_self]; rfl
  have hfind : ∀ k, q'.find k = if k = (q.store i).key then none else q.find k := by
    intro k; rw [← hq']; unfold Q.find Q.mod; simp only [mget_mdel]
  have hl : ∀ j, live q' j ↔ live q j ∧ j ≠ i := by
    intro j
    by_cases e : j = i
    · subst e; unfold live; rw [hfind, hki]; simp
    · unfold live; rw [hfind, hst j e]
      constructor
      · intro a; split at a
        · simp at a
        · exact ⟨a, e⟩
      · rintro ⟨a, -⟩
        rw [if_neg]; exact a
        intro hk; unfold live at hil; rw [hk, hil] at a; injection a with a; exact e a.symm
  have key : ∀ (s : State) (j : Nat), (live q j ∧ some i ≠ some j ∧ (q.store j).state = s) ↔
      (live q' j ∧ none ≠ some j ∧ (q'.store j).state = s) := by
    intro s j; rw [hl]; simp only [some_ne]
    constructor
    · rintro ⟨a, b, c⟩; exact ⟨⟨a, b⟩, by simp, by rw [hst j b]; exact c⟩
    · rintro ⟨⟨a, b⟩, -, c⟩; exact ⟨a, b, by rw [← hst j b]; exact c⟩
  have ne_of_mem : ∀ {s : State} {j : Nat}, (live q j ∧ some i ≠ some j ∧ (q.store j).state = s) → j ≠ i := by
    intro s j hh; exact some_ne.1 hh.2.1
  refine ⟨?_, ?_⟩
  · exact
      { keys := by rw [← hq']; exact mdel_nodup _ _ h.keys
        keyOf := by
          intro k j hk
          rw [hfind] at hk
          split at hk
          · simp at hk
          · rename_i hne
            have := h.keyOf k j hk
            have hj : j ≠ i := by intro e; subst e; exact hne this.1.symm
            rw [hst j hj, ← hq']; exact this
        xlive := by intro j e; simp at e
        wfDelay := by rw [← hq']; exact h.wfDelay
        wfRun := by rw [← hq']; exact h.wfRun
        wfBury := by rw [← hq']; exact h.wfBury
        wfDep := by rw [← hq']; exact h.wfDep
        wfReady := by rw [← hq']; exact h.wfReady
        memDelay := fun j => by
          have : q'.delay = q.delay := by rw [← hq']; rfl
          rw [this]; exact (h.memDelay j).trans (key _ j)
        memRun := fun j => by
          have : q'.run = q.run := by rw [← hq']; rfl
          rw [this]; exact (h.memRun j).trans (key _ j)
        memBury := fun j => by
          have : q'.bury = q.bury := by rw [← hq']; rfl
          rw [this]; exact (h.memBury j).trans (key _ j)
        memDep := fun j => by
          have : q'.dep = q.dep := by rw [← hq']; rfl
          rw [this]; exact (h.memDep j).trans (key _ j)
        memReady := by
          intro g j
          have : q'.ready = q.ready := by rw [← hq']; rfl
          rw [this, h.memReady g j]
          have k := key .ready j
          constructor
          · rintro ⟨a, b, c, e⟩
            obtain ⟨a', b', c'⟩ := k.1 ⟨a, b, c⟩
            exact ⟨a', b', c', by rw [hst j (some_ne.1 b)]; exact e⟩
          · rintro ⟨a, b, c, e⟩
            obtain ⟨a', b', c'⟩ := k.2 ⟨a, b, c⟩
            exact ⟨a', b', c', by rw [hst j (some_ne.1 b')] at e; exact e⟩
        notRemoved := by
          intro j hj _
          obtain ⟨a, b⟩ := (hl j).1 hj
          rw [hst j b]; exact h.notRemoved j a (some_ne.2 b)
        dead := by
          intro hc j hj
          by_cases e : j = i
          · rw [e]; exact hsi
          · rw [hst j e]
            have hcl : q.closed = false := by rw [← hq'] at hc; exact hc
            exact h.dead hcl j (fun a => hj ((hl j).2 ⟨a, e⟩))
        ordDelay := by
          have : q'.delay = q.delay := by rw [← hq']; rfl
          rw [this]
          refine IsHeap.congr h.ordDelay fun a ha b hb => ?_
          unfold lessDelay; rw [hst a (ne_of_mem ((h.memDelay a).1 ha)), hst b (ne_of_mem ((h.memDelay b).1 hb))]
        ordRun := by
          have : q'.run = q.run := by rw [← hq']; rfl
          rw [this]
          refine IsHeap.congr h.ordRun fun a ha b hb => ?_
          unfold lessRun; rw [hst a (ne_of_mem ((h.memRun a).1 ha)), hst b (ne_of_mem ((h.memRun b).1 hb))] }
  · intro ho g
    have : q'.ready = q.ready := by rw [← hq']; rfl
    rw [this]
    refine IsHeap.congr (ho g) fun a ha b hb => ?_
    have ha' := (h.memReady g a).1 ha
    have hb' := (h.memReady g b).1 hb
    unfold lessReady; rw [hst a (some_ne.1 ha'.2.1), hst b (some_ne.1 hb'.2.1)]

theorem takeOut_ok {q : Q} {i : Nat} (h : Inv q) (hl : live q i) (it ds) :
    ∃ q1, (({ q with items := it, dependants := ds } : Q).takeOut i) =
        some ({ q1 with items := it, dependants := ds }, some ((q.store i).state.sub)) ∧ Removed q q1 i := by
  have hnr := h.notRemoved i hl (by simp)
  rcases hs : (q.store i).state with _ | _ | _ | _ | _ | _
  · obtain ⟨q1, e, r⟩ := removeDelay_ok h hl hs
    refine ⟨q1, ?_, r⟩
    unfold Q.takeOut; simp only [hs]
    unfold Q.removeDelay at e ⊢; simp only
    revert e
    cases removeAt (lessDelay q.store) q.delay (q.delay.idx i) <;> simp
    intro e; rw [← e]; simp [State.sub]
  · obtain ⟨q1, e, r⟩ := removeReady_ok h hl hs
    refine ⟨q1, ?_, r⟩
    unfold Q.takeOut; simp only [hs]
    unfold Q.removeReady Q.removeReadyFrom at e ⊢; simp only [Q.rheap, Q.setR] at e ⊢
    revert e
    cases removeAt (lessReady q.store) ⟨q.ready (q.store i).group, q.readyIdx⟩ (q.readyIdx i) <;> simp
    intro e; rw [← e]; simp [State.sub]
  · obtain ⟨q1, e, r⟩ := removeRun_ok h hl hs
    refine ⟨q1, ?_, r⟩
    unfold Q.takeOut; simp only [hs]
    unfold Q.removeRun at e ⊢; simp only
    revert e
    cases removeAt (lessRun q.store) q.run (q.run.idx i) <;> simp
    intro e; rw [← e]; simp [State.sub]
  · obtain ⟨q1, e, r⟩ := removeBury_ok h hl hs
    refine ⟨q1, ?_, r⟩
    unfold Q.takeOut; simp only [hs]
    unfold Q.removeBury at e ⊢; simp only
    revert e
    cases slRemove q.bury i <;> simp
    intro e; rw [← e]; simp [State.sub]
  · obtain ⟨q1, e, r⟩ := removeDep_ok h hl hs
    refine ⟨q1, ?_, r⟩
    unfold Q.takeOut; simp only [hs]
    unfold Q.removeDep at e ⊢; simp only
    revert e
    cases slRemove q.dep i <;> simp
    intro e; rw [← e]; simp [State.sub]
  · exact absurd hs hnr

/-- the dependants visited by `Remove` -/
def Q.visit (q : Q) (key : String) (order : List Nat) : List Nat :=
  let deps := ((mget q.dependants key).getD []).map (·.2)
  if order.isPerm deps then order else deps

theorem mem_visit (q : Q) (key : String) (order : List Nat) (j : Nat) :
    j ∈ q.visit key order ↔ j ∈ ((mget q.dependants key).getD []).map (·.2) := by
  unfold Q.visit; simp only
  split
  · rename_i hp; exact (List.isPerm_iff.1 hp).mem_iff
  · rfl

theorem remove_ok {q : Q} {key : String} {i : Nat} (order : List Nat) (h : Inv q) (hc : q.closed = false)
    (hf : q.find key = some i) :
    ∃ q' added s, q.remove key order = some ⟨q', .ok,
        ⟨s, .removed, [i]⟩ :: (if added = [] then [] else [⟨.dependent, .ready, added⟩]), added ≠ []⟩ ∧
      Inv q' ∧ (ReadyOrd q → ReadyOrd q') ∧
      (∀ k, q'.find k = if k = key then none else q.find k) ∧ q'.next = q.next ∧ q'.closed = q.closed ∧
      (∀ j, j ≠ i → q'.store j = if j ∈ q.visit key order then (q.store j).settleDep key else q.store j) ∧
      q'.store i = Item.removalCleanup (if i ∈ q.visit key order then (q.store i).settleDep key else q.store i) ∧
      q'.dependants = unlinkParents (mdel q.dependants key) key (q.store i).dependencies ∧
      added.Nodup ∧
      (∀ j, j ∈ added ↔ j ∈ q.visit key order ∧ (q.store j).state = .dependent ∧ ((q.store j).resolve key).remaining = []) ∧
      s = (if i ∈ q.visit key order then (q.store i).settleDep key else q.store i).state.sub := by
  obtain ⟨q1, added, e1, inv1, ro1, hi, hn, hcl, hde, hst, hnd, hmem⟩ := resolveAll_ok key (q.visit key order) q [] h hc
  have hlive : live q1 i := by
    have : (q1.store i).key = key := by
      rw [hst]; split
      · rw [settleDep_key]; exact (h.keyOf _ _ hf).1
      · exact (h.keyOf _ _ hf).1
    unfold live Q.find; rw [this, hi]; exact hf
  have hkey : (q1.store i).key = key := by
    rw [hst]; split
    · rw [settleDep_key]; exact (h.keyOf _ _ hf).1
    · exact (h.keyOf _ _ hf).1
  have hdeps : (q1.store i).dependencies = (q.store i).dependencies := by
    rw [hst]; split
    · unfold Item.settleDep; split <;> rfl
    · rfl
  obtain ⟨q2, e2, r2⟩ := takeOut_ok inv1 hlive (mdel q1.items key) (unlinkParents (mdel q1.dependants key) key (q1.store i).dependencies)
  have hd := dropLoose r2.inv (unlinkParents (mdel q1.dependants key) key (q1.store i).dependencies)
  have hk2 : (q2.store i).key = key := by rw [r2.frame.store]; exact hkey
  rw [hk2] at hd
  refine ⟨({ q2 with items := mdel q2.items key, dependants := unlinkParents (mdel q1.dependants key) key (q1.store i).dependencies } : Q).mod i Item.removalCleanup,
    added, (q1.store i).state.sub, ?_, hd.1, fun ho => hd.2 (r2.ready (ro1 ho)), ?_, ?_, ?_, ?_, ?_, ?_, hnd, hmem, ?_⟩
  · have hv : (if order.isPerm (List.map (fun x => x.2) ((mget q.dependants key).getD [])) = true then order
        else List.map (fun x => x.2) ((mget q.dependants key).getD [])) = q.visit key order := rfl
    unfold Q.remove
    simp only [hc, hf, hv, e1, Bool.false_eq_true, if_false, List.nil_append]
    rw [e2, r2.frame.items]
    rfl
  · intro k
    have : (({ q2 with items := mdel q2.items key, dependants := unlinkParents (mdel q1.dependants key) key (q1.store i).dependencies } : Q).mod i Item.removalCleanup).find k = mget (mdel q2.items key) k := rfl
    rw [this, mget_mdel, r2.frame.items, hi]; rfl
  · show q2.next = q.next; rw [r2.frame.next, hn]
  · show q2.closed = q.closed; rw [r2.frame.closed, hcl]
  · intro j hj
    rw [mod_other _ _ _ _ hj]; show q2.store j = _; rw [r2.frame.store, hst]
  · rw [mod_self]; show Item.removalCleanup (q2.store i) = _; rw [r2.frame.store, hst]
  · show unlinkParents (mdel q1.dependants key) key (q1.store i).dependencies = _; rw [hde, hdeps]
  · rw [hst]

theorem destroy_inv {q : Q} (h : Inv q) : Inv q.destroy.q ∧ (ReadyOrd q → ReadyOrd q.destroy.q) := by
  unfold Q.destroy
  split
  · exact ⟨h, id⟩
  · have hl : ∀ j, ¬ live ({ q with items := [], delay := { q.delay with arr := [] }, run := { q.run with arr := [] }, bury := { q.bury with arr := [] }, dep := { q.dep with arr := [] }, ready := fun _ => [], closed := true } : Q) j := by
      intro j hj; simp [live, Q.find, mget] at hj
    refine ⟨?_, ?_⟩
    · exact
        { keys := by simp
          keyOf := by intro k i hk; simp [Q.find, mget] at hk
          xlive := by intro j e; simp at e
          wfDelay := ⟨by simp, by simp⟩
          wfRun := ⟨by simp, by simp⟩
          wfBury := ⟨by simp, by simp⟩
          wfDep := ⟨by simp, by simp⟩
          wfReady := fun g => ⟨by simp [Q.rheap], by simp [Q.rheap]⟩
          memDelay := fun j => ⟨by simp, fun a => absurd a.1 (hl j)⟩
          memRun := fun j => ⟨by simp, fun a => absurd a.1 (hl j)⟩
          memBury := fun j => ⟨by simp, fun a => absurd a.1 (hl j)⟩
          memDep := fun j => ⟨by simp, fun a => absurd a.1 (hl j)⟩
          memReady := fun g j => ⟨by simp, fun a => absurd a.1 (hl j)⟩
          notRemoved := fun j a => absurd a (hl j)
          dead := by simp
          ordDelay := by intro c hc hcn; simp at hcn
          ordRun := by intro c hc hcn; simp at hcn }
    · intro ho g c hc hcn; simp at hcn

end Verif.Queue
