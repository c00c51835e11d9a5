import Verif.Queue.Stats
import Verif.Queue.StatsSpec
import Verif.Queue.Trace
/-! Lemmas for C140: what each step does to the counters of an item. -/
namespace Verif.Queue
open Verif.Heap

/-- what one step does to the counters -/
structure Acc (q : Q) (now : Int) (op : Op) (o : Out) : Prop where
  next : q.next ≤ o.q.next
  old : ∀ i, i < q.next → (∀ k, Kind.of k (o.q.store i) = Kind.of k (q.store i) + tallied k op o.evs i) ∧
    (o.q.store i).creation = (q.store i).creation
  new : ∀ i, q.next ≤ i → i < o.q.next → (∀ k, Kind.of k (o.q.store i) = tallied k op o.evs i) ∧ (o.q.store i).creation = now
  listed : ∀ e ∈ o.evs, e.src = .new → ∀ i ∈ e.who, q.next ≤ i ∧ i < o.q.next

/-- a change of an item that leaves its counters and its time of creation -/
def Keeps (f : Item → Item) : Prop := ∀ it, (∀ k, Kind.of k (f it) = Kind.of k it) ∧ (f it).creation = it.creation

/-- a change of an item that counts what `n` says -/
def Counts (f : Item → Item) (n : Kind → Nat) : Prop := ∀ it, (∀ k, Kind.of k (f it) = Kind.of k it + n k) ∧ (f it).creation = it.creation

/-- from `q` to `q'` only the items told are counted -/
structure Same (q q' : Q) (n : Kind → Nat → Nat) : Prop where
  next : q'.next = q.next
  cnt : ∀ i k, Kind.of k (q'.store i) = Kind.of k (q.store i) + n k i
  made : ∀ i, (q'.store i).creation = (q.store i).creation

theorem Same.refl (q : Q) : Same q q fun _ _ => 0 := ⟨rfl, fun _ _ => rfl, fun _ => rfl⟩

theorem Same.of_store {q q' : Q} (h : q'.store = q.store) (hn : q'.next = q.next) : Same q q' fun _ _ => 0 :=
  ⟨hn, fun _ _ => by rw [h]; rfl, fun _ => by rw [h]⟩

theorem Same.trans {q q1 q2 : Q} {n m} (a : Same q q1 n) (b : Same q1 q2 m) : Same q q2 fun k i => n k i + m k i :=
  ⟨b.next.trans a.next, fun i k => by rw [b.cnt, a.cnt, Nat.add_assoc], fun i => by rw [b.made, a.made]⟩

theorem Same.trans0 {q q1 q2 : Q} {n} (a : Same q q1 n) (b : Same q1 q2 fun _ _ => 0) : Same q q2 n := by
  have := a.trans b; simpa using this

theorem Same.trans0' {q q1 q2 : Q} {n} (a : Same q q1 fun _ _ => 0) (b : Same q1 q2 n) : Same q q2 n := by
  have := a.trans b; simpa using this

theorem Same.congr {q q' : Q} {n m} (a : Same q q' n) (h : ∀ k i, n k i = m k i) : Same q q' m :=
  ⟨a.next, fun i k => by rw [a.cnt, h], a.made⟩

theorem same_mod {f n} (hf : Counts f n) (q : Q) (j : Nat) : Same q (q.mod j f) fun k i => if i = j then n k else 0 := by
  refine ⟨rfl, fun i k => ?_, fun i => ?_⟩
  · by_cases e : i = j
    · subst e; simp [Q.mod, (hf _).1]
    · simp [Q.mod, e]
  · by_cases e : i = j
    · subst e; simp [Q.mod, (hf _).2]
    · simp [Q.mod, e]

theorem keep_mod {f} (hf : Keeps f) (q : Q) (j : Nat) : Same q (q.mod j f) fun _ _ => 0 :=
  (same_mod (n := fun _ => 0) hf q j).congr fun _ _ => by simp

/-! ### Sub-queues -/

theorem same_pushReady (q : Q) (i) : Same q (q.pushReady i) fun _ _ => 0 := .of_store rfl rfl
theorem same_pushDelay (q : Q) (i) : Same q (q.pushDelay i) fun _ _ => 0 := .of_store rfl rfl
theorem same_pushRun (q : Q) (i) : Same q (q.pushRun i) fun _ _ => 0 := .of_store rfl rfl
theorem same_pushBury (q : Q) (i) : Same q (q.pushBury i) fun _ _ => 0 := .of_store rfl rfl
theorem same_pushDep (q : Q) (i) : Same q (q.pushDep i) fun _ _ => 0 := .of_store rfl rfl

theorem same_removeDelay {q q' : Q} {i} (h : q.removeDelay i = some q') : Same q q' fun _ _ => 0 := by
  unfold Q.removeDelay at h; obtain ⟨r, _, e⟩ := Option.map_eq_some_iff.1 h; subst e; exact .of_store rfl rfl
theorem same_removeRun {q q' : Q} {i} (h : q.removeRun i = some q') : Same q q' fun _ _ => 0 := by
  unfold Q.removeRun at h; obtain ⟨r, _, e⟩ := Option.map_eq_some_iff.1 h; subst e; exact .of_store rfl rfl
theorem same_removeReadyFrom {q q' : Q} {g i} (h : q.removeReadyFrom g i = some q') : Same q q' fun _ _ => 0 := by
  unfold Q.removeReadyFrom at h; obtain ⟨r, _, e⟩ := Option.map_eq_some_iff.1 h; subst e; exact .of_store rfl rfl
theorem same_removeReady {q q' : Q} {i} (h : q.removeReady i = some q') : Same q q' fun _ _ => 0 := same_removeReadyFrom h
theorem same_removeBury {q q' : Q} {i} (h : q.removeBury i = some q') : Same q q' fun _ _ => 0 := by
  unfold Q.removeBury at h; obtain ⟨r, _, e⟩ := Option.map_eq_some_iff.1 h; subst e; exact .of_store rfl rfl
theorem same_removeDep {q q' : Q} {i} (h : q.removeDep i = some q') : Same q q' fun _ _ => 0 := by
  unfold Q.removeDep at h; obtain ⟨r, _, e⟩ := Option.map_eq_some_iff.1 h; subst e; exact .of_store rfl rfl
theorem same_fixDelay {q q' : Q} {i} (h : q.fixDelay i = some q') : Same q q' fun _ _ => 0 := by
  unfold Q.fixDelay at h; obtain ⟨r, _, e⟩ := Option.map_eq_some_iff.1 h; subst e; exact .of_store rfl rfl
theorem same_fixRun {q q' : Q} {i} (h : q.fixRun i = some q') : Same q q' fun _ _ => 0 := by
  unfold Q.fixRun at h; obtain ⟨r, _, e⟩ := Option.map_eq_some_iff.1 h; subst e; exact .of_store rfl rfl
theorem same_updateReady {q q' : Q} {i g} (h : q.updateReady i g = some q') : Same q q' fun _ _ => 0 := by
  unfold Q.updateReady at h; split at h
  · obtain ⟨r, hr, e⟩ := Option.map_eq_some_iff.1 h; subst e; exact (same_removeReadyFrom hr).trans0 (same_pushReady _ _)
  · obtain ⟨r, _, e⟩ := Option.map_eq_some_iff.1 h; subst e; exact .of_store rfl rfl

/-! ### Changes of one item -/

theorem keeps_touch (now) : Keeps (Item.touch now) := fun _ => ⟨fun k => by cases k <;> rfl, rfl⟩
theorem keeps_restart (now) : Keeps (Item.restart now) := fun _ => ⟨fun k => by cases k <;> rfl, rfl⟩
theorem keeps_ttr (now) : Keeps (Item.tempDisableTTR now) := fun _ => ⟨fun k => by cases k <;> rfl, rfl⟩
theorem keeps_dr : Keeps Item.switchDelayReady := fun _ => ⟨fun k => by cases k <;> rfl, rfl⟩
theorem keeps_dd : Keeps Item.switchDelayDependent := fun _ => ⟨fun k => by cases k <;> rfl, rfl⟩
theorem keeps_depr : Keeps Item.switchDependentReady := fun _ => ⟨fun k => by cases k <;> rfl, rfl⟩
theorem keeps_rdep : Keeps Item.switchReadyDependent := fun _ => ⟨fun k => by cases k <;> rfl, rfl⟩
theorem keeps_cleanup : Keeps Item.removalCleanup := fun _ => ⟨fun k => by cases k <;> rfl, rfl⟩
theorem keeps_deps (ds) : Keeps (Item.setDependencies ds) := fun _ => ⟨fun k => by cases k <;> rfl, rfl⟩
theorem keeps_resolve (k) : Keeps (Item.resolve k) := fun _ => ⟨fun k => by cases k <;> rfl, rfl⟩
theorem keeps_changedKey (o n) : Keeps (Item.changedKey o n) := fun it => by
  unfold Item.changedKey; split <;> exact ⟨fun k => by cases k <;> rfl, rfl⟩

/-- one of a kind -/
def one (a : Kind) : Kind → Nat := fun k => if k = a then 1 else 0

theorem counts_reserve (now) : Counts (fun it => (it.touch now).switchReadyRun) (one .reserve) := fun _ => ⟨fun k => by cases k <;> rfl, rfl⟩
theorem counts_runReady : Counts Item.switchRunReady (one .timeout) := fun _ => ⟨fun k => by cases k <;> rfl, rfl⟩
theorem counts_runDelay (now) : Counts (fun it => (it.restart now).switchRunDelay false) (one .release) := fun _ => ⟨fun k => by cases k <;> rfl, rfl⟩
theorem counts_runDelayT (now) : Counts (fun it => (it.restart now).switchRunDelay true) (one .timeout) := fun _ => ⟨fun k => by cases k <;> rfl, rfl⟩
theorem counts_runBury : Counts (Item.switchRunBury false) (one .bury) := fun _ => ⟨fun k => by cases k <;> rfl, rfl⟩
theorem counts_runBuryT : Counts (Item.switchRunBury true) (fun k => one .bury k + one .timeout k) := fun _ => ⟨fun k => by cases k <;> rfl, rfl⟩
theorem counts_runDep : Counts Item.switchRunDependent (one .release) := fun _ => ⟨fun k => by cases k <;> rfl, rfl⟩
theorem counts_buryReady : Counts Item.switchBuryReady (one .kick) := fun _ => ⟨fun k => by cases k <;> rfl, rfl⟩
theorem counts_buryDep : Counts Item.switchBuryDependent (one .kick) := fun _ => ⟨fun k => by cases k <;> rfl, rfl⟩

/-! ### Tallies -/

theorem tallied_nil (k op i) : tallied k op [] i = 0 := rfl

theorem tallied_cons (k op e es i) : tallied k op (e :: es) i = (if k.counts op e then e.who.count i else 0) + tallied k op es i := rfl

theorem tallied_append (k op es es' i) : tallied k op (es ++ es') i = tallied k op es i + tallied k op es' i := by
  induction es with
  | nil => simp [tallied_nil]
  | cons e es ih => rw [List.cons_append, tallied_cons, tallied_cons, ih]; omega

theorem tallied_one (k op s d j i) : tallied k op [⟨s, d, [j]⟩] i = if i = j then (if k.counts op ⟨s, d, [j]⟩ then 1 else 0) else 0 := by
  rw [tallied_cons, tallied_nil]
  by_cases e : i = j
  · subst e; simp
  · have : (j == i) = false := by simpa using fun h => e h.symm
    simp [e, List.count_cons, this]

/-- whom an event lists does not matter -/
theorem counts_who (k : Kind) (op s d w w') : k.counts op ⟨s, d, w⟩ = k.counts op ⟨s, d, w'⟩ := by
  cases k <;> rfl

/-- a step that adds nothing -/
theorem acc_same {q : Q} {now op} {o : Out} (a : Same q o.q (fun k i => tallied k op o.evs i)) (h : ∀ e ∈ o.evs, e.src ≠ .new) : Acc q now op o :=
  ⟨by rw [a.next]; exact Nat.le_refl _, fun i _ => ⟨a.cnt i, a.made i⟩, fun i h1 h2 => by rw [a.next] at h2; omega,
    fun e he hs => absurd hs (h e he)⟩

theorem acc_still {q : Q} {now op} {o : Out} (a : Same q o.q (fun _ _ => 0)) (h : o.evs = []) : Acc q now op o :=
  acc_same (a.congr fun k i => by rw [h]; rfl) (by rw [h]; intro e he; cases he)

/-! ### Adding -/

/-- what sub-queue an added item enters, and what is counted -/
theorem place_cnt (q : Q) (i d now many) :
    ((q.place i d now many).1).next = q.next ∧
    ((q.place i d now many).2 ∈ [SubQ.ready, .delay, .dependent, .run, .bury]) ∧
    (∀ j, j ≠ i → (q.place i d now many).1.store j = q.store j) ∧
    ((q.place i d now many).1.store i).creation = (q.store i).creation ∧
    ∀ k, Kind.of k ((q.place i d now many).1.store i) = Kind.of k (q.store i) +
      (if k = .reserve ∧ ((q.place i d now many).2 = .run ∨ many = true ∧ (q.place i d now many).2 = .bury) then 1 else 0) +
      (if k = .bury ∧ (q.place i d now many).2 = .bury then 1 else 0) := by
  unfold Q.place
  split
  · refine ⟨rfl, by simp, fun j hj => by simp [Q.mod, Q.pushDep, hj], ?_, fun k => ?_⟩
    · simp [Q.mod, Q.pushDep, Item.switchDelayDependent, Item.setDependencies]
    · cases k <;> simp [Q.mod, Q.pushDep, Item.switchDelayDependent, Item.setDependencies, Kind.of]
  · split
    · refine ⟨rfl, by simp, fun j hj => by simp [Q.mod, Q.pushRun, hj], ?_, fun k => ?_⟩
      · simp [Q.mod, Q.pushRun, Item.switchDelayReady, Item.touch, Item.switchReadyRun]
      · cases k <;> simp [Q.mod, Q.pushRun, Item.switchDelayReady, Item.touch, Item.switchReadyRun, Kind.of]
    · refine ⟨rfl, by simp, fun j hj => by simp [Q.mod, Q.pushBury, hj], ?_, fun k => ?_⟩
      · cases many <;> simp [Q.mod, Q.pushBury, Item.switchDelayReady, Item.switchReadyRun, Item.switchRunBury]
      · cases many <;> cases k <;> simp [Q.mod, Q.pushBury, Item.switchDelayReady, Item.switchReadyRun, Item.switchRunBury, Kind.of]
    · split
      · refine ⟨rfl, by simp, fun j hj => by simp [Q.mod, Q.pushReady, Q.setR, hj], ?_, fun k => ?_⟩
        · simp [Q.mod, Q.pushReady, Q.setR, Item.switchDelayReady]
        · cases k <;> simp [Q.mod, Q.pushReady, Q.setR, Item.switchDelayReady, Kind.of]
      · exact ⟨rfl, by simp, fun j hj => rfl, rfl, fun k => by simp [Q.pushDelay]⟩

/-- what an addition counts -/
theorem counts_new (k : Kind) (op : Op) (s w) (hs : s ∈ [SubQ.ready, .delay, .dependent, .run, .bury]) :
    (if k.counts op ⟨.new, s, w⟩ then 1 else 0) =
      (if k = .reserve ∧ (s = .run ∨ op.isMany = true ∧ s = .bury) then 1 else 0) + (if k = .bury ∧ s = .bury then 1 else 0) := by
  simp only [List.mem_cons, List.not_mem_nil, or_false] at hs
  rcases hs with rfl | rfl | rfl | rfl | rfl <;> cases k <;> cases h : op.isMany <;> simp [Kind.counts, h]

theorem create_next (q : Q) (d now) : (q.create d now).next = q.next + 1 := rfl
theorem create_other (q : Q) (d now) (j : Nat) (h : j ≠ q.next) : (q.create d now).store j = q.store j := by simp [Q.create, Q.mod, h]
theorem create_self (q : Q) (d now) : (q.create d now).store q.next = mkItem d now := by simp [Q.create, Q.mod]
theorem mkItem_of (d now k) : Kind.of k (mkItem d now) = 0 := by cases k <;> rfl

theorem acc_add (q : Q) (d now) : Acc q now (.add d) (q.add d now) := by
  unfold Q.add
  split
  · exact acc_still (.refl q) rfl
  · split
    · exact acc_still (.refl q) rfl
    · obtain ⟨h1, h2, h3, h4, h5⟩ := place_cnt (q.create d now) q.next d now false
      generalize hr : (q.create d now).place q.next d now false = r at *
      refine ⟨by show q.next ≤ r.1.next; rw [h1, create_next]; omega, fun i hi => ?_, fun i h6 h7 => ?_, ?_⟩
      · have hne : i ≠ q.next := by omega
        show (∀ k, Kind.of k (r.1.store i) = _) ∧ (r.1.store i).creation = _
        rw [h3 i hne, create_other _ _ _ _ hne]
        exact ⟨fun k => by show _ = _ + tallied k _ [⟨_, _, [_]⟩] i; rw [tallied_one]; simp [hne], rfl⟩
      · have h7 : i < r.1.next := h7
        rw [h1, create_next] at h7
        have e : i = q.next := by omega
        subst e
        refine ⟨fun k => ?_, ?_⟩
        · show Kind.of k (r.1.store q.next) = tallied k _ [⟨_, _, [_]⟩] q.next
          rw [tallied_one, h5, create_self, mkItem_of, if_pos rfl, counts_new _ _ _ _ h2]
          simp [Op.isMany]
        · show (r.1.store q.next).creation = now
          rw [h4, create_self]; rfl
      · intro e he _ i hi
        have he : e = ⟨.new, r.2, [q.next]⟩ := by simpa using he
        subst he
        have hi : i = q.next := by simpa using hi
        subst hi
        exact ⟨Nat.le_refl _, by show q.next < r.1.next; rw [h1, create_next]; omega⟩

/-- what the additions of one call count for an item -/
def added (k : Kind) (op : Op) (l : List (Nat × SubQ)) (i : Nat) : Nat :=
  (l.map fun p => if p.1 = i then (if k.counts op ⟨.new, p.2, []⟩ then 1 else 0) else 0).sum

theorem added_append (k op l l' i) : added k op (l ++ l') i = added k op l i + added k op l' i := by
  simp [added, List.sum_append]

/-- one event for each sub-queue lists the same as one for each item -/
theorem tallied_group (k : Kind) (op : Op) (src : SubQ) {α} (l : List (Nat × α)) (p : α → Prop) [DecidablePred p] (s : SubQ) (i : Nat) :
    tallied k op (if (l.filter (fun x => p x.2)).map (·.1) = [] then [] else [⟨src, s, (l.filter (fun x => p x.2)).map (·.1)⟩]) i =
      (l.map fun x => if x.1 = i then (if p x.2 then (if k.counts op ⟨src, s, []⟩ then 1 else 0) else 0) else 0).sum := by
  have h1 : ∀ w : List Nat, tallied k op (if w = [] then [] else [⟨src, s, w⟩]) i = if k.counts op ⟨src, s, []⟩ then w.count i else 0 := by
    intro w
    split
    · rename_i e; subst e; simp [tallied_nil]
    · rw [tallied_cons, tallied_nil, counts_who k op src s w []]; simp
  rw [h1]
  induction l with
  | nil => simp
  | cons x l ih =>
    simp only [List.map_cons, List.sum_cons, ← ih, List.filter_cons]
    by_cases hp : p x.2 <;> by_cases hc : k.counts op ⟨src, s, []⟩ = true <;> by_cases hx : x.1 = i <;> simp [hp, hc, hx, List.count_cons] <;> omega

theorem many_flat (l : List (Nat × SubQ)) : manyEvs l = ([SubQ.ready, .delay, .dependent, .run, .bury].map fun s =>
    if (l.filter (fun x => x.2 = s)).map (·.1) = [] then [] else [(⟨.new, s, (l.filter (fun x => x.2 = s)).map (·.1)⟩ : Ev)]).flatten := by
  unfold manyEvs
  generalize [SubQ.ready, .delay, .dependent, .run, .bury] = ss
  induction ss with
  | nil => rfl
  | cons s ss ih =>
    simp only [List.filterMap_cons, List.map_cons, List.flatten_cons, ← ih]
    split <;> rename_i h
    · split at h
      · rename_i h2; rw [if_pos h2]; rfl
      · simp at h
    · split at h
      · simp at h
      · rename_i h2; simp only [Option.some.injEq] at h; rw [if_neg h2, ← h]; rfl

theorem tallied_many (k op) (l : List (Nat × SubQ)) (h : ∀ p ∈ l, p.2 ∈ [SubQ.ready, .delay, .dependent, .run, .bury]) (i : Nat) :
    tallied k op (manyEvs l) i = added k op l i := by
  rw [many_flat]
  have hg : ∀ s : SubQ, tallied k op (if (l.filter (fun x => x.2 = s)).map (·.1) = [] then [] else [(⟨.new, s, (l.filter (fun x => x.2 = s)).map (·.1)⟩ : Ev)]) i = _ :=
    fun s => tallied_group k op .new l (· = s) s i
  simp only [List.map_cons, List.map_nil, List.flatten_cons, List.flatten_nil, tallied_append, hg, tallied_nil]
  clear hg
  unfold added
  induction l with
  | nil => rfl
  | cons x l ih =>
    have := ih fun p hp => h p (List.mem_cons_of_mem _ hp)
    have hx := h x (List.mem_cons_self ..)
    simp only [List.map_cons, List.sum_cons]
    rw [← this]
    simp only [List.mem_cons, List.not_mem_nil, or_false] at hx
    rcases hx with e | e | e | e | e <;> simp [e] <;> omega

theorem added_zero (k op) (l : List (Nat × SubQ)) (i : Nat) (h : ∀ p ∈ l, p.1 ≠ i) : added k op l i = 0 := by
  unfold added
  induction l with
  | nil => rfl
  | cons p l ih =>
    simp only [List.map_cons, List.sum_cons]
    rw [if_neg (h p (List.mem_cons_self ..)), ih fun p' hp' => h p' (List.mem_cons_of_mem _ hp')]

theorem mem_manyEvs {l : List (Nat × SubQ)} {e i} (he : e ∈ manyEvs l) (hi : i ∈ e.who) : ∃ s, (i, s) ∈ l := by
  unfold manyEvs at he
  obtain ⟨s, _, h⟩ := List.mem_filterMap.1 he
  simp only [] at h
  split at h
  · simp at h
  · simp only [Option.some.injEq] at h
    subst h
    obtain ⟨p, hp, e⟩ := List.mem_map.1 hi
    exact ⟨p.2, by rw [← e]; exact (List.mem_filter.1 hp).1⟩

theorem addLoop_cnt (op : Op) (hop : op.isMany = true) (now : Int) (ds : List Def) : ∀ (q : Q) a u l,
    ∃ l2, (Q.addLoop now q ds a u l).2.2.2 = l ++ l2 ∧ q.next ≤ (Q.addLoop now q ds a u l).1.next ∧
      (∀ i, i < q.next → (Q.addLoop now q ds a u l).1.store i = q.store i) ∧
      (∀ i, q.next ≤ i → i < (Q.addLoop now q ds a u l).1.next →
        (∀ k, Kind.of k ((Q.addLoop now q ds a u l).1.store i) = added k op l2 i) ∧ ((Q.addLoop now q ds a u l).1.store i).creation = now) ∧
      (∀ p ∈ l2, q.next ≤ p.1 ∧ p.1 < (Q.addLoop now q ds a u l).1.next ∧ p.2 ∈ [SubQ.ready, .delay, .dependent, .run, .bury]) := by
  induction ds with
  | nil =>
    intro q a u l
    exact ⟨[], by simp [Q.addLoop], Nat.le_refl _, fun i _ => rfl, fun i h1 h2 => by simp only [Q.addLoop] at h2; omega, fun p hp => by cases hp⟩
  | cons d ds ih =>
    intro q a u l
    unfold Q.addLoop
    split
    · exact ih q a (u + 1) l
    · obtain ⟨h1, h2, h3, h4, h5⟩ := place_cnt (q.create d now) q.next d now true
      obtain ⟨l2, g1, g2, g3, g4, g5⟩ := ih ((q.create d now).place q.next d now true).1 (a + 1) u (l ++ [(q.next, ((q.create d now).place q.next d now true).2)])
      simp only []
      generalize (q.create d now).place q.next d now true = r at *
      rw [h1, create_next] at g2 g3 g4 g5
      have hz : ∀ k i, i ≤ q.next → added k op l2 i = 0 := fun k i hi =>
        added_zero k op l2 i fun p hp => by have := (g5 p hp).1; omega
      refine ⟨(q.next, r.2) :: l2, by rw [g1]; simp, by omega, fun i hi => ?_, fun i h6 h7 => ?_, fun p hp => ?_⟩
      · rw [g3 i (by omega), h3 i (by omega), create_other _ _ _ _ (by omega)]
      · by_cases e : i = q.next
        · subst e
          rw [g3 _ (by omega)]
          refine ⟨fun k => ?_, by rw [h4, create_self]; rfl⟩
          have := hz k q.next (Nat.le_refl _)
          rw [h5, create_self, mkItem_of]
          have hc := counts_new k op r.2 [] h2
          rw [hop] at hc
          simp only [added, List.map_cons, List.sum_cons, if_pos] at this ⊢
          rw [this, hc]
          simp
        · have := g4 i (by omega) h7
          refine ⟨fun k => ?_, this.2⟩
          rw [this.1]
          have e' : ¬ q.next = i := fun h => e h.symm
          simp [added, e']
      · rcases List.mem_cons.1 hp with e | hp
        · subst e; exact ⟨Nat.le_refl _, by show q.next < _; omega, h2⟩
        · have := g5 p hp; exact ⟨by omega, this.2⟩

theorem acc_addMany (q : Q) (ds now) : Acc q now (.addMany ds) (q.addMany ds now) := by
  unfold Q.addMany
  split
  · exact acc_still (.refl q) rfl
  · obtain ⟨l2, g1, g2, g3, g4, g5⟩ := addLoop_cnt (.addMany ds) rfl now (ds.map fun d => { d with size := 0 }) q 0 0 []
    simp only []
    generalize Q.addLoop now q (ds.map fun d => { d with size := 0 }) 0 0 [] = r at *
    rw [List.nil_append] at g1
    have ht : ∀ k i, tallied k (.addMany ds) (manyEvs r.2.2.2) i = added k (.addMany ds) l2 i := fun k i => by
      rw [g1]; exact tallied_many _ _ _ (fun p hp => (g5 p hp).2.2) i
    refine ⟨g2, fun i hi => ?_, fun i h1 h2 => ?_, fun e he _ i hi => ?_⟩
    · show (∀ k, Kind.of k (r.1.store i) = _ + tallied k _ (manyEvs r.2.2.2) i) ∧ (r.1.store i).creation = _
      rw [g3 i hi]
      refine ⟨fun k => ?_, rfl⟩
      rw [ht, added_zero]
      · rfl
      · intro p hp; have := (g5 p hp).1; omega
    · refine ⟨fun k => ?_, (g4 i h1 h2).2⟩
      show _ = tallied k _ (manyEvs r.2.2.2) i
      rw [ht]; exact (g4 i h1 h2).1 k
    · have he : e ∈ manyEvs r.2.2.2 := he
      rw [g1] at he
      obtain ⟨s, hs⟩ := mem_manyEvs he hi
      exact ⟨(g5 _ hs).1, (g5 _ hs).2.1⟩

/-! ### Changing -/

theorem same_updateFields {q q' : Q} {i g p d t a now} (h : q.updateFields i g p d t a now = some q') : Same q q' fun _ _ => 0 := by
  unfold Q.updateFields at h
  simp only [] at h
  split at h
  · have k : Same q (q.mod i fun it => { it with delay := d }) fun _ _ => 0 := by refine keep_mod ?_ q i; exact fun _ => ⟨fun k => by cases k <;> rfl, rfl⟩
    split at h
    · exact (k.trans0 (keep_mod (keeps_restart now) _ i)).trans0 (same_fixDelay h)
    · injection h with h; subst h; exact k
  · split at h
    · have k : Same q (q.mod i fun it => { it with priority := p, group := g }) fun _ _ => 0 := by refine keep_mod ?_ q i; exact fun _ => ⟨fun k => by cases k <;> rfl, rfl⟩
      split at h
      · exact k.trans0 (same_updateReady h)
      · injection h with h; subst h; exact k
    · split at h
      · have k : Same q (q.mod i fun it => { it with ttr := t }) fun _ _ => 0 := by refine keep_mod ?_ q i; exact fun _ => ⟨fun k => by cases k <;> rfl, rfl⟩
        split at h
        · exact (k.trans0 (keep_mod (keeps_touch now) _ i)).trans0 (same_fixRun h)
        · injection h with h; subst h; exact k
      · injection h with h; subst h; exact .refl _

/-- what a change of dependencies counts -/
def fromCount (f : Option SubQ) (i : Nat) : Kind → Nat → Nat := fun k j => if j = i ∧ f = some .run ∧ k = .release then 1 else 0

theorem same_updateMove {q : Q} {i ds r} (h : q.updateMove i ds = some r) : Same q r.1 (fromCount r.2.1 i) ∧ r.2.1 ≠ some .new ∧ r.2.1 ≠ some .bury := by
  have hk : ∀ {q q' : Q} {f : Option SubQ}, f ≠ some .run → Same q q' (fun _ _ => 0) → Same q q' (fromCount f i) :=
    fun hf a => a.congr fun k j => by simp [fromCount, hf]
  unfold Q.updateMove at h
  split at h
  · split at h
    · obtain ⟨q1, h1, e⟩ := Option.map_eq_some_iff.1 h; subst e
      exact ⟨hk (by simp) (((same_removeDelay h1).trans0 (keep_mod keeps_dd _ i)).trans0 (same_pushDep _ i)), by simp, by simp⟩
    · obtain ⟨q1, h1, e⟩ := Option.map_eq_some_iff.1 h; subst e
      exact ⟨hk (by simp) (((same_removeReady h1).trans0 (keep_mod keeps_rdep _ i)).trans0 (same_pushDep _ i)), by simp, by simp⟩
    · obtain ⟨q1, h1, e⟩ := Option.map_eq_some_iff.1 h; subst e
      refine ⟨?_, by simp, by simp⟩
      refine (((same_removeRun h1).trans0' (same_mod counts_runDep _ i)).trans0 (same_pushDep _ i)).congr fun k j => ?_
      by_cases e : j = i <;> simp [fromCount, one, e]
    · injection h with h; subst h; exact ⟨hk (by simp) (.refl _), by simp, by simp⟩
    · injection h with h; subst h; exact ⟨hk (by simp) (same_pushDep _ i), by simp, by simp⟩
  · split at h
    · obtain ⟨q1, h1, e⟩ := Option.map_eq_some_iff.1 h; subst e
      exact ⟨hk (by simp) (((same_removeDep h1).trans0 (keep_mod keeps_depr _ i)).trans0 (same_pushReady _ i)), by simp, by simp⟩
    · injection h with h; subst h; exact ⟨hk (by simp) (.refl _), by simp, by simp⟩

theorem same_updateDeps {q : Q} {i key ds r} (h : q.updateDeps i key ds = some r) : Same q r.1 (fromCount r.2.1 i) ∧ r.2.1 ≠ some .new ∧ r.2.1 ≠ some .bury := by
  unfold Q.updateDeps at h
  simp only [] at h
  split at h
  · obtain ⟨h1, h2⟩ := same_updateMove h
    refine ⟨Same.trans0' ?_ h1, h2⟩
    refine (Same.of_store rfl rfl : Same q { q with dependants := dropDependants q key (depDiff (q.store i).remaining ds).1 } fun _ _ => 0).trans0 ?_
    refine (keep_mod (keeps_deps ds) _ i).trans0 ?_
    exact .of_store rfl rfl
  · injection h with h; subst h
    exact ⟨(Same.refl q).congr fun _ _ => by simp [fromCount], by simp, by simp⟩

theorem acc_update {q : Q} {key group data priority delay ttr deps now o} (h : q.update key group data priority delay ttr deps now = some o) :
    Acc q now (.update key group data priority delay ttr deps) o := by
  unfold Q.update at h
  split at h
  · injection h with h; subst h; exact acc_still (.refl q) rfl
  · split at h
    · injection h with h; subst h; exact acc_still (.refl q) rfl
    · rename_i i _
      simp only [] at h
      split at h
      · simp at h
      · rename_i q1 f ar hd
        split at h
        · simp at h
        · rename_i q2 hf
          injection h with h; subst h
          have k0 : Same q (q.mod i fun it => { it with data := data }) fun _ _ => 0 := by refine keep_mod ?_ q i; exact fun _ => ⟨fun k => by cases k <;> rfl, rfl⟩
          have k1 : Same (q.mod i fun it => { it with data := data }) q1 (fromCount f i) ∧ f ≠ some .new ∧ f ≠ some .bury := by
            cases deps with
            | none =>
              simp only [Option.some.injEq, Prod.mk.injEq] at hd
              obtain ⟨h1, h2, _⟩ := hd
              subst h1 h2
              exact ⟨(Same.refl _).congr fun _ _ => by simp [fromCount], by simp, by simp⟩
            | some ds => exact same_updateDeps (r := (q1, f, ar)) hd
          refine acc_same (((k0.trans0' k1.1).trans0 (same_updateFields hf)).congr fun k j => ?_) ?_
          · rw [tallied_append]
            have h0 : tallied k (.update key group data priority delay ttr deps) (if ar then [⟨.dependent, .ready, [i]⟩] else []) j = 0 := by
              split
              · rw [tallied_one]; cases k <;> simp [Kind.counts]
              · rfl
            rw [h0]
            cases f with
            | none => simp [fromCount, tallied_nil]
            | some s =>
              simp only [tallied_one]
              have := k1.2
              cases s <;> cases k <;> by_cases e : j = i <;> simp_all [fromCount, Kind.counts, Op.isTtr, Op.isRelease]
          · intro e he
            rcases List.mem_append.1 he with he | he
            · split at he
              · have he := List.mem_singleton.1 he
                subst he; simp
              · cases he
            · cases f with
              | none => cases he
              | some s =>
                have he := List.mem_singleton.1 he
                subst he
                intro hs
                exact k1.2.1 (by rw [← hs])

theorem acc_changeKey (q : Q) (o n now) : Acc q now (.changeKey o n) (q.changeKey o n) := by
  unfold Q.changeKey
  split
  · exact acc_still (.refl q) rfl
  · split
    · exact acc_still (.refl q) rfl
    · split
      · exact acc_still (.refl q) rfl
      · refine acc_still ⟨rfl, fun i k => ?_, fun i => ?_⟩ rfl
        · show Kind.of k (if _ then _ else _) = _
          split
          · exact (keeps_changedKey o n _).1 k
          · rfl
        · show Item.creation (if _ then _ else _) = _
          split
          · exact (keeps_changedKey o n _).2
          · rfl

theorem acc_setDelay {q : Q} {key d now o} (h : q.setDelay key d now = some o) : Acc q now (.setDelay key d) o := by
  unfold Q.setDelay at h
  split at h
  · injection h with h; subst h; exact acc_still (.refl q) rfl
  · split at h
    · injection h with h; subst h; exact acc_still (.refl q) rfl
    · rename_i i _
      simp only [] at h
      have k : Same q (q.mod i fun it => { it with delay := d }) fun _ _ => 0 := by refine keep_mod ?_ q i; exact fun _ => ⟨fun k => by cases k <;> rfl, rfl⟩
      split at h
      · split at h
        · obtain ⟨q1, h1, e⟩ := Option.map_eq_some_iff.1 h; subst e
          exact acc_still ((k.trans0 (keep_mod (keeps_restart now) _ i)).trans0 (same_fixDelay h1)) rfl
        · injection h with h; subst h; exact acc_still k rfl
      · injection h with h; subst h; exact acc_still (.refl q) rfl

theorem acc_setReserveGroup {q : Q} {key g now o} (h : q.setReserveGroup key g = some o) : Acc q now (.setReserveGroup key g) o := by
  unfold Q.setReserveGroup at h
  split at h
  · injection h with h; subst h; exact acc_still (.refl q) rfl
  · split at h
    · injection h with h; subst h; exact acc_still (.refl q) rfl
    · rename_i i _
      simp only [] at h
      have k : Same q (q.mod i fun it => { it with group := g }) fun _ _ => 0 := by refine keep_mod ?_ q i; exact fun _ => ⟨fun k => by cases k <;> rfl, rfl⟩
      split at h
      · split at h
        · obtain ⟨q1, h1, e⟩ := Option.map_eq_some_iff.1 h; subst e
          exact acc_still (k.trans0 (same_updateReady h1)) rfl
        · injection h with h; subst h; exact acc_still k rfl
      · injection h with h; subst h; exact acc_still (.refl q) rfl

/-! ### Moving -/

/-- a step that moves one item -/
theorem acc_one {q : Q} {now op} {o : Out} {s d j} {n : Kind → Nat} (a : Same q o.q (fun k i => if i = j then n k else 0)) (he : o.evs = [⟨s, d, [j]⟩])
    (hn : ∀ k, n k = if Kind.counts k op ⟨s, d, [j]⟩ then 1 else 0) (hs : s ≠ .new) : Acc q now op o := by
  refine acc_same (a.congr fun k i => ?_) (by rw [he]; intro e he; simp only [List.mem_singleton] at he; subst he; exact hs)
  rw [he, tallied_one, hn]

theorem acc_reserve {q : Q} {g now o} (h : q.reserve g now = some o) : Acc q now (.reserve g) o := by
  unfold Q.reserve at h
  split at h
  · injection h with h; subst h; exact acc_still (.refl q) rfl
  · split at h
    · injection h with h; subst h; exact acc_still (.refl q) rfl
    · split at h
      · simp at h
      · rename_i i hp _
        injection h with h; subst h
        refine acc_one (j := i) (s := .ready) (d := .run) (n := one .reserve) ?_ rfl (fun k => by cases k <;> simp [one, Kind.counts]) (by simp)
        exact Same.trans0 (Same.trans0' (q1 := { q.setR g hp with cursor := g }) (.of_store rfl rfl) (same_mod (counts_reserve now) _ i)) (same_pushRun _ i)

theorem acc_touch {q : Q} {key now o} (h : q.touch key now = some o) : Acc q now (.touch key) o := by
  unfold Q.touch at h
  split at h
  · injection h with h; subst h; exact acc_still (.refl q) rfl
  · split at h
    · injection h with h; subst h; exact acc_still (.refl q) rfl
    · split at h
      · injection h with h; subst h; exact acc_still (.refl q) rfl
      · obtain ⟨q1, h1, e⟩ := Option.map_eq_some_iff.1 h; subst e
        exact acc_still ((keep_mod (keeps_touch now) q _).trans0 (same_fixRun h1)) rfl

theorem acc_release {q : Q} {key now o} (h : q.release key now = some o) : Acc q now (.release key) o := by
  unfold Q.release at h
  split at h
  · injection h with h; subst h; exact acc_still (.refl q) rfl
  · split at h
    · injection h with h; subst h; exact acc_still (.refl q) rfl
    · rename_i i _
      split at h
      · injection h with h; subst h; exact acc_still (.refl q) rfl
      · split at h
        · simp at h
        · rename_i q1 h1
          split at h
          · injection h with h; subst h
            refine acc_one (j := i) (s := .run) (d := .ready) (n := one .timeout) ?_ rfl (fun k => by cases k <;> simp [one, Kind.counts, Op.isTtr, Op.isRelease]) (by simp)
            exact ((same_removeRun h1).trans0' (same_mod counts_runReady _ i)).trans0 (same_pushReady _ i)
          · injection h with h; subst h
            refine acc_one (j := i) (s := .run) (d := .delay) (n := one .release) ?_ rfl (fun k => by cases k <;> simp [one, Kind.counts, Op.isTtr, Op.isRelease]) (by simp)
            exact ((same_removeRun h1).trans0' (same_mod (counts_runDelay now) _ i)).trans0 (same_pushDelay _ i)

theorem acc_bury {q : Q} {key now o} (h : q.buryItem key = some o) : Acc q now (.bury key) o := by
  unfold Q.buryItem at h
  split at h
  · injection h with h; subst h; exact acc_still (.refl q) rfl
  · split at h
    · injection h with h; subst h; exact acc_still (.refl q) rfl
    · rename_i i _
      split at h
      · injection h with h; subst h; exact acc_still (.refl q) rfl
      · split at h
        · simp at h
        · rename_i q1 h1
          injection h with h; subst h
          refine acc_one (j := i) (s := .run) (d := .bury) (n := one .bury) ?_ rfl (fun k => by cases k <;> simp [one, Kind.counts, Op.isTtr, Op.isRelease, Op.isMany]) (by simp)
          exact ((same_removeRun h1).trans0' (same_mod counts_runBury _ i)).trans0 (same_pushBury _ i)

theorem acc_kick {q : Q} {key now o} (h : q.kick key = some o) : Acc q now (.kick key) o := by
  unfold Q.kick at h
  split at h
  · injection h with h; subst h; exact acc_still (.refl q) rfl
  · split at h
    · injection h with h; subst h; exact acc_still (.refl q) rfl
    · rename_i i _
      split at h
      · injection h with h; subst h; exact acc_still (.refl q) rfl
      · split at h
        · simp at h
        · rename_i q1 h1
          split at h
          · injection h with h; subst h
            refine acc_one (j := i) (s := .bury) (d := .dependent) (n := one .kick) ?_ rfl (fun k => by cases k <;> simp [one, Kind.counts]) (by simp)
            exact ((same_removeBury h1).trans0' (same_mod counts_buryDep _ i)).trans0 (same_pushDep _ i)
          · injection h with h; subst h
            refine acc_one (j := i) (s := .bury) (d := .ready) (n := one .kick) ?_ rfl (fun k => by cases k <;> simp [one, Kind.counts]) (by simp)
            exact ((same_removeBury h1).trans0' (same_mod counts_buryReady _ i)).trans0 (same_pushReady _ i)

theorem same_resolveAll (key : String) (js : List Nat) : ∀ {q : Q} {l r}, q.resolveAll key js l = some r → Same q r.1 fun _ _ => 0 := by
  induction js with
  | nil => intro q l r h; simp only [Q.resolveAll, Option.some.injEq] at h; subst h; exact .refl q
  | cons j js ih =>
    intro q l r h
    unfold Q.resolveAll at h
    simp only [] at h
    have k := keep_mod (keeps_resolve key) q j
    split at h
    · split at h
      · simp at h
      · rename_i q1 h1
        exact (((k.trans0 (same_removeDep h1)).trans0 (keep_mod keeps_depr _ j)).trans0 (same_pushReady _ j)).trans0 (ih h)
    · exact k.trans0 (ih h)

theorem same_takeOut {q : Q} {i r} (h : q.takeOut i = some r) : Same q r.1 (fun _ _ => 0) ∧ r.2 ≠ some .new := by
  unfold Q.takeOut at h
  split at h
  · obtain ⟨q1, h1, e⟩ := Option.map_eq_some_iff.1 h; subst e; exact ⟨same_removeDelay h1, by simp⟩
  · obtain ⟨q1, h1, e⟩ := Option.map_eq_some_iff.1 h; subst e; exact ⟨same_removeReady h1, by simp⟩
  · obtain ⟨q1, h1, e⟩ := Option.map_eq_some_iff.1 h; subst e; exact ⟨same_removeRun h1, by simp⟩
  · obtain ⟨q1, h1, e⟩ := Option.map_eq_some_iff.1 h; subst e; exact ⟨same_removeBury h1, by simp⟩
  · obtain ⟨q1, h1, e⟩ := Option.map_eq_some_iff.1 h; subst e; exact ⟨same_removeDep h1, by simp⟩
  · injection h with h; subst h; exact ⟨.refl q, by simp⟩

theorem acc_remove {q : Q} {key order now o} (h : q.remove key order = some o) : Acc q now (.remove key order) o := by
  unfold Q.remove at h
  split at h
  · injection h with h; subst h; exact acc_still (.refl q) rfl
  · split at h
    · injection h with h; subst h; exact acc_still (.refl q) rfl
    · rename_i i _
      simp only [] at h
      split at h
      · simp at h
      · rename_i q1 ad h1
        split at h
        · simp at h
        · rename_i q2 s h2
          injection h with h; subst h
          have k1 := same_resolveAll key _ h1
          have k2 := same_takeOut h2
          have k3 : Same q1 q2 fun _ _ => 0 := ⟨k2.1.next, fun i k => k2.1.cnt i k, fun i => k2.1.made i⟩
          refine acc_same (((k1.trans0 k3).trans0 (keep_mod keeps_cleanup _ i)).congr fun k j => ?_) ?_
          · rw [tallied_append]
            have e1 : ∀ s : Option SubQ, tallied k (.remove key order) (match s with | none => [] | some s => [⟨s, .removed, [i]⟩]) j = 0 := by
              intro s
              cases s with
              | none => rfl
              | some s => simp only [tallied_one]; cases k <;> simp [Kind.counts, Op.isTtr, Op.isRelease]
            have e2 : tallied k (.remove key order) (if ad = [] then [] else [⟨.dependent, .ready, ad⟩]) j = 0 := by
              split
              · rfl
              · rw [tallied_cons, tallied_nil]; cases k <;> simp [Kind.counts]
            rw [e2, Nat.add_zero]
            cases s with
            | none => exact (e1 none).symm
            | some s => exact (e1 (some s)).symm
          · intro e he
            rcases List.mem_append.1 he with he | he
            · cases s with
              | none => cases he
              | some s =>
                have he := List.mem_singleton.1 he
                subst he
                intro hs
                exact k2.2 (by rw [← hs])
            · split at he
              · cases he
              · have he := List.mem_singleton.1 he
                subst he; simp

/-! ### Time -/

theorem same_delayLoop (now : Int) (n : Nat) : ∀ {q : Q} {l r}, q.delayLoop now n l = some r → Same q r.1 fun _ _ => 0 := by
  induction n with
  | zero => intro q l r h; simp only [Q.delayLoop, Option.some.injEq] at h; subst h; exact .refl q
  | succ n ih =>
    intro q l r h
    unfold Q.delayLoop at h
    split at h
    · simp at h
    · rename_i i _
      split at h
      · split at h
        · simp at h
        · rename_i q1 h1
          exact (((same_removeDelay h1).trans0 (keep_mod keeps_dr _ i)).trans0 (same_pushReady _ i)).trans0 (ih h)
      · injection h with h; subst h; exact .refl q

theorem acc_delayTick {q : Q} {now o} (h : q.delayTick now = some o) : Acc q now .delayTick o := by
  unfold Q.delayTick at h
  obtain ⟨r, h1, e⟩ := Option.map_eq_some_iff.1 h; subst e
  refine acc_same ((same_delayLoop now _ h1).congr fun k j => ?_) ?_
  · simp only []
    split
    · rfl
    · rw [tallied_cons, tallied_nil]; cases k <;> simp [Kind.counts]
  · intro e he
    simp only [] at he
    split at he
    · cases he
    · have he := List.mem_singleton.1 he
      subst he; simp

/-- what running out of time counts for an item -/
def ranOut (l : List (Nat × Target)) (k : Kind) (i : Nat) : Nat :=
  (l.map fun p => if p.1 = i then (if p.2 = .run then 0 else if k = .timeout ∨ (k = .bury ∧ p.2 = .bury) then 1 else 0) else 0).sum

theorem ttrLoop_cnt (now : Int) (cb : Nat → Target) (n : Nat) : ∀ {q : Q} {l r}, q.ttrLoop now cb n l = some r →
    ∃ l2, r.2 = l ++ l2 ∧ Same q r.1 (ranOut l2) := by
  induction n with
  | zero =>
    intro q l r h; simp only [Q.ttrLoop, Option.some.injEq] at h; subst h
    exact ⟨[], by simp, .refl q⟩
  | succ n ih =>
    intro q l r h
    unfold Q.ttrLoop at h
    split at h
    · simp at h
    · rename_i i _
      have hcons : ∀ (t : Target) {q1 : Q} {m : Kind → Nat}, Same q q1 (fun k j => if j = i then m k else 0) →
          (∀ k, m k = if t = .run then 0 else if k = .timeout ∨ (k = .bury ∧ t = .bury) then 1 else 0) →
          q1.ttrLoop now cb n (l ++ [(i, t)]) = some r → ∃ l2, r.2 = l ++ l2 ∧ Same q r.1 (ranOut l2) := by
        intro t q1 m a hm h
        obtain ⟨l2, e1, e2⟩ := ih h
        refine ⟨(i, t) :: l2, by rw [e1]; simp, (a.trans e2).congr fun k j => ?_⟩
        unfold ranOut
        simp only [List.map_cons, List.sum_cons]
        by_cases e : j = i
        · subst e; simp [hm]
        · have e' : ¬ i = j := fun h => e h.symm
          simp [e, e']
      split at h
      · split at h
        · split at h
          · simp at h
          · rename_i q1 h1
            refine hcons .run (m := fun _ => 0) (((keep_mod (keeps_ttr now) q i).trans0 (same_fixRun h1)).congr fun k j => by simp) (fun k => by simp) h
        · split at h
          · simp at h
          · rename_i q1 h1
            exact hcons .delay (((same_removeRun h1).trans0' (same_mod (counts_runDelayT now) _ i)).trans0 (same_pushDelay _ i)) (fun k => by cases k <;> simp [one]) h
        · split at h
          · simp at h
          · rename_i q1 h1
            exact hcons .bury (((same_removeRun h1).trans0' (same_mod counts_runBuryT _ i)).trans0 (same_pushBury _ i)) (fun k => by cases k <;> simp [one]) h
        · split at h
          · simp at h
          · rename_i q1 h1
            exact hcons .ready (((same_removeRun h1).trans0' (same_mod counts_runReady _ i)).trans0 (same_pushReady _ i)) (fun k => by cases k <;> simp [one]) h
      · injection h with h; subst h
        exact ⟨[], by simp, .refl q⟩

theorem tallied_ttr (cb : Nat → Target) (k : Kind) (l : List (Nat × Target)) (t : Target) (s : SubQ) (i : Nat) :
    tallied k (.ttrTick cb) (ttrEv l t s) i = (l.map fun x => if x.1 = i then (if x.2 = t then (if k.counts (.ttrTick cb) ⟨.run, s, []⟩ then 1 else 0) else 0) else 0).sum :=
  tallied_group k (.ttrTick cb) .run l (· = t) s i

theorem acc_ttrTick {q : Q} {cb now o} (h : q.ttrTick cb now = some o) : Acc q now (.ttrTick cb) o := by
  unfold Q.ttrTick at h
  obtain ⟨r, h1, e⟩ := Option.map_eq_some_iff.1 h; subst e
  obtain ⟨l2, e1, a⟩ := ttrLoop_cnt now cb _ h1
  rw [List.nil_append] at e1
  refine acc_same (a.congr fun k j => ?_) ?_
  · rw [tallied_append, tallied_append, tallied_ttr, tallied_ttr, tallied_ttr, e1]
    unfold ranOut
    clear e1 a
    induction l2 with
    | nil => rfl
    | cons x l2 ih =>
      simp only [List.map_cons, List.sum_cons]
      rw [ih]
      have : ∀ t : Target, (if t = .run then 0 else if k = .timeout ∨ (k = .bury ∧ t = .bury) then 1 else 0) =
          (if t = .delay then (if k.counts (.ttrTick cb) ⟨.run, .delay, []⟩ then 1 else 0) else 0) +
          (if t = .bury then (if k.counts (.ttrTick cb) ⟨.run, .bury, []⟩ then 1 else 0) else 0) +
          (if t = .ready then (if k.counts (.ttrTick cb) ⟨.run, .ready, []⟩ then 1 else 0) else 0) := by
        intro t; cases t <;> cases k <;> simp [Kind.counts, Op.isTtr, Op.isMany, Op.isRelease]
      by_cases e : x.1 = j
      · simp only [if_pos e, this x.2]; omega
      · simp only [if_neg e]; omega
  · intro e he
    simp only [List.mem_append] at he
    have : ∀ t s, e ∈ ttrEv r.2 t s → e.src ≠ .new := by
      intro t s he
      unfold ttrEv at he
      simp only [] at he
      split at he
      · cases he
      · have he := List.mem_singleton.1 he
        subst he; simp
    rcases he with (he | he) | he <;> exact this _ _ he

theorem step_acc {q : Q} {now op o} (h : step q now op = some o) : Acc q now op o := by
  cases op with
  | add d => simp only [step, Option.some.injEq] at h; subst h; exact acc_add q d now
  | addMany ds => simp only [step, Option.some.injEq] at h; subst h; exact acc_addMany q ds now
  | update => exact acc_update h
  | changeKey o n => simp only [step, Option.some.injEq] at h; subst h; exact acc_changeKey q o n now
  | setDelay => exact acc_setDelay h
  | setReserveGroup => exact acc_setReserveGroup h
  | reserve => exact acc_reserve h
  | touch => exact acc_touch h
  | release => exact acc_release h
  | bury => exact acc_bury h
  | kick => exact acc_kick h
  | remove => exact acc_remove h
  | delayTick => exact acc_delayTick h
  | ttrTick => exact acc_ttrTick h
  | destroy =>
    simp only [step, Option.some.injEq] at h; subst h
    unfold Q.destroy
    split
    · exact acc_still (.refl q) rfl
    · exact acc_still (.of_store rfl rfl) rfl

theorem times_append (p) (a b : List Happened) (i) : times p (a ++ b) i = times p a i + times p b i := by
  induction a with
  | nil => simp [times]
  | cons h a ih => rw [List.cons_append]; simp only [times]; rw [ih]; omega

theorem tally_append (k) (a b : List Happened) (i) : tally k (a ++ b) i = tally k a i + tally k b i :=
  times_append _ a b i

theorem tally_step (k now op evs i) : tally k (evs.map fun e => ⟨now, op, e⟩) i = tallied k op evs i := by
  induction evs with
  | nil => rfl
  | cons e evs ih => rw [List.map_cons]; simp only [tally, times, tallied] at *; rw [ih]

/-- along a history the counters of an item that is there count what happened -/
theorem trace_cnt (h : List (Int × Op)) : ∀ {q q' : Q} {tr}, traceFrom q h = some (q', tr) → ∀ i, i < q.next →
    (∀ k, Kind.of k (q'.store i) = Kind.of k (q.store i) + tally k tr i) ∧ (q'.store i).creation = (q.store i).creation := by
  induction h with
  | nil => intro q q' tr e i _; simp only [traceFrom, Option.some.injEq, Prod.mk.injEq] at e; obtain ⟨e1, e2⟩ := e; subst e1 e2; exact ⟨fun k => rfl, rfl⟩
  | cons a h ih =>
    obtain ⟨now, op⟩ := a
    intro q q' tr e i hi
    simp only [traceFrom] at e
    cases hs : step q now op with
    | none => rw [hs] at e; simp at e
    | some o =>
      rw [hs] at e
      obtain ⟨r, h1, e⟩ := Option.map_eq_some_iff.1 e
      simp only [Prod.mk.injEq] at e
      obtain ⟨e1, e2⟩ := e
      subst e1 e2
      have a := step_acc hs
      have b := ih h1 i (Nat.lt_of_lt_of_le hi a.next)
      refine ⟨fun k => ?_, by rw [b.2, (a.old i hi).2]⟩
      rw [b.1, (a.old i hi).1, tally_append, tally_step]; omega

end Verif.Queue
