import Verif.Queue.Trace
/-!
# Properties C01–C03, C06–C09, C11 of the queue package

Vocabulary of the statements:
* `runFrom new h = some q`: running the history `h` (operations with their clock readings) on a new queue ends in `q`
  without a panic.
* `q.find k = some i`: `Get(k)` finds the item `i`; `q.store i` are its fields, `(q.store i).state` is `State()`.
* `inSub q s i`: item `i` is in the sub-queue `s`.
-/
namespace Verif.Queue
open Verif.Heap

/-- specification: `i` is in sub-queue `s` -/
def inSub (q : Q) (s : State) (i : Nat) : Prop :=
  match s with
  | .delay => i ∈ q.delay.arr
  | .ready => ∃ g, i ∈ q.ready g
  | .run => i ∈ q.run.arr
  | .bury => i ∈ q.bury.arr
  | .dependent => i ∈ q.dep.arr
  | .removed => False

/-- specification: the queue holds item `i` -/
def held (q : Q) (i : Nat) : Prop := ∃ k, q.find k = some i

theorem held_iff {q : Q} (h : Inv q) (i : Nat) : held q i ↔ live q i :=
  ⟨fun ⟨_, e⟩ => h.live e, fun e => ⟨_, e⟩⟩

theorem inSub_iff {q : Q} (h : Inv q) (s : State) (i : Nat) : inSub q s i ↔ live q i ∧ (q.store i).state = s := by
  cases s
  · simp only [inSub, h.memDelay]; simp
  · simp only [inSub, h.memReady]; simp
  · simp only [inSub, h.memRun]; simp
  · simp only [inSub, h.memBury]; simp
  · simp only [inSub, h.memDep]; simp
  · simp only [inSub, false_iff, not_and]; exact fun hl => h.notRemoved i hl (by simp)

/-! ## C01 -/

/-- specification of C01: every item is in exactly one sub-queue, once, namely the one that `State()` names; sub-queues
hold nothing else; ready items are under their own reserve group; every key finds an item that carries that key; the
number of items is the sum of the five sub-queue sizes (`gs` is any list of the groups of the ready sub-queue). -/
structure Consistent (q : Q) : Prop where
  exactlyOne : ∀ i, held q i → ∀ s, inSub q s i ↔ s = (q.store i).state
  noOther : ∀ i s, inSub q s i → held q i
  once : q.delay.arr.Nodup ∧ q.run.arr.Nodup ∧ q.bury.arr.Nodup ∧ q.dep.arr.Nodup ∧ ∀ g, (q.ready g).Nodup
  group : ∀ g i, i ∈ q.ready g → (q.store i).group = g
  key : ∀ k i, q.find k = some i → (q.store i).key = k
  stats : ∀ gs : List String, gs.Nodup → (∀ i, inSub q .ready i → (q.store i).group ∈ gs) →
    q.items.length = q.delay.arr.length + (gs.flatMap q.ready).length + q.run.arr.length + q.bury.arr.length + q.dep.arr.length

theorem nodup_flatMap_ready {q : Q} (h : Inv q) (gs : List String) (hg : gs.Nodup) : (gs.flatMap q.ready).Nodup := by
  induction gs with
  | nil => simp
  | cons g gs ih =>
    simp only [List.nodup_cons] at hg
    rw [List.flatMap_cons, List.nodup_append]
    refine ⟨(h.wfReady g).nodup, ih hg.2, ?_⟩
    intro a ha b hb e
    subst e
    obtain ⟨g', hg', hb'⟩ := List.mem_flatMap.1 hb
    have e1 := ((h.memReady g a).1 ha).2.2.2
    have e2 := ((h.memReady g' a).1 hb').2.2.2
    exact hg.1 (by rw [← e1, e2]; exact hg')

theorem items_nodup {q : Q} (h : Inv q) : (q.items.map (·.2)).Nodup := by
  have hk := h.keys
  have : ∀ p ∈ q.items, (q.store p.2).key = p.1 := by
    intro p hp; exact (h.keyOf p.1 p.2 (mem_mget q.items p.1 p.2 h.keys hp)).1
  generalize q.items = l at hk this
  induction l with
  | nil => simp
  | cons p l ih =>
    simp only [List.map_cons, List.nodup_cons] at hk ⊢
    refine ⟨?_, ih hk.2 (fun x hx => this x (List.mem_cons_of_mem _ hx))⟩
    intro hm
    obtain ⟨p', hp', e⟩ := List.mem_map.1 hm
    apply hk.1
    have h1 := this p (by simp)
    have h2 := this p' (List.mem_cons_of_mem _ hp')
    exact List.mem_map.2 ⟨p', hp', by rw [← h2, e, h1]⟩

theorem consistent_of_inv {q : Q} (h : Inv q) : Consistent q := by
  refine ⟨?_, ?_, ⟨h.wfDelay.nodup, h.wfRun.nodup, h.wfBury.nodup, h.wfDep.nodup, fun g => (h.wfReady g).nodup⟩, ?_, ?_, ?_⟩
  · intro i hi s
    rw [inSub_iff h]
    exact ⟨fun a => a.2.symm, fun a => ⟨(held_iff h i).1 hi, a.symm⟩⟩
  · intro i s hs; exact (held_iff h i).2 ((inSub_iff h s i).1 hs).1
  · intro g i hi; exact ((h.memReady g i).1 hi).2.2.2
  · intro k i hk; exact (h.keyOf k i hk).1
  · intro gs hg hcov
    have hperm : (q.items.map (·.2)).Perm
        (q.delay.arr ++ (gs.flatMap q.ready) ++ q.run.arr ++ q.bury.arr ++ q.dep.arr) := by
      have dis : ∀ {s s' : State}, s ≠ s' → ∀ i, inSub q s i → inSub q s' i → False := by
        intro s s' hne i a b
        exact hne (((inSub_iff h s i).1 a).2.symm.trans ((inSub_iff h s' i).1 b).2)
      have hmr : ∀ i, i ∈ gs.flatMap q.ready ↔ inSub q .ready i := by
        intro i; rw [List.mem_flatMap]
        constructor
        · rintro ⟨g, _, hm⟩; exact ⟨g, hm⟩
        · intro hm
          have := (inSub_iff h _ _).1 hm
          exact ⟨_, hcov i hm, (h.memReady _ i).2 ⟨this.1, by simp, this.2, rfl⟩⟩
      rw [List.perm_ext_iff_of_nodup (items_nodup h)]
      · intro i
        rw [mem_items h]
        simp only [List.mem_append, hmr]
        constructor
        · intro hl
          have hs := (inSub_iff h (q.store i).state i).2 ⟨hl, rfl⟩
          cases hst : (q.store i).state <;> rw [hst] at hs
          · exact Or.inl (Or.inl (Or.inl (Or.inl hs)))
          · exact Or.inl (Or.inl (Or.inl (Or.inr hs)))
          · exact Or.inl (Or.inl (Or.inr hs))
          · exact Or.inl (Or.inr hs)
          · exact Or.inr hs
          · exact absurd hs (by simp [inSub])
        · rintro ((((a | a) | a) | a) | a)
          · exact ((inSub_iff h .delay i).1 a).1
          · exact ((inSub_iff h .ready i).1 a).1
          · exact ((inSub_iff h .run i).1 a).1
          · exact ((inSub_iff h .bury i).1 a).1
          · exact ((inSub_iff h .dependent i).1 a).1
      · refine List.nodup_append.2 ⟨List.nodup_append.2 ⟨List.nodup_append.2 ⟨List.nodup_append.2
          ⟨h.wfDelay.nodup, nodup_flatMap_ready h gs hg, ?_⟩, h.wfRun.nodup, ?_⟩, h.wfBury.nodup, ?_⟩, h.wfDep.nodup, ?_⟩
        · intro a ha b hb e; subst e
          exact dis (s := .delay) (s' := .ready) (by simp) a ha ((hmr a).1 hb)
        · intro a ha b hb e; subst e
          rcases List.mem_append.1 ha with ha | ha
          · exact dis (s := .delay) (s' := .run) (by simp) a ha hb
          · exact dis (s := .ready) (s' := .run) (by simp) a ((hmr a).1 ha) hb
        · intro a ha b hb e; subst e
          simp only [List.mem_append] at ha
          rcases ha with (ha | ha) | ha
          · exact dis (s := .delay) (s' := .bury) (by simp) a ha hb
          · exact dis (s := .ready) (s' := .bury) (by simp) a ((hmr a).1 ha) hb
          · exact dis (s := .run) (s' := .bury) (by simp) a ha hb
        · intro a ha b hb e; subst e
          simp only [List.mem_append] at ha
          rcases ha with ((ha | ha) | ha) | ha
          · exact dis (s := .delay) (s' := .dependent) (by simp) a ha hb
          · exact dis (s := .ready) (s' := .dependent) (by simp) a ((hmr a).1 ha) hb
          · exact dis (s := .run) (s' := .dependent) (by simp) a ha hb
          · exact dis (s := .bury) (s' := .dependent) (by simp) a ha hb
    have := hperm.length_eq
    simp only [List.length_map, List.length_append] at this
    omega

/-- C01, for all histories in which no `Update` call gives an empty dependency list to an item that has outstanding
dependencies but is not in the dependent sub-queue (such a call breaks it: `C01_violated`). -/
theorem C01_partial (h : List (Int × Op)) (q : Q) (hs : Along Safe new h) (hr : runFrom new h = some q) : Consistent q :=
  consistent_of_inv (run_inv h inv_new timed_new hs hr).1

/-- C01, absence of panics: under the same condition, and if no `Update` re-sorts the wrong reserve group
(`Fresh`, see `C02_violated`), no operation panics. -/
theorem C01_no_panic_partial (h : List (Int × Op)) (hs : Along Safe new h) (hf : Along Fresh new h) :
    (runFrom new h).isSome := by
  obtain ⟨q, e⟩ := run_some h inv_new timed_new hs hf
  rw [e]; rfl

/-- Histories without `Update` meet both conditions, so for them C01 holds outright. -/
def noUpdate : Op → Bool
  | .update .. => false
  | _ => true

theorem along_of_noUpdate (h : List (Int × Op)) (hn : ∀ p ∈ h, noUpdate p.2 = true) :
    ∀ q, Along Safe q h ∧ Along Fresh q h := by
  induction h with
  | nil => intro q; exact ⟨trivial, trivial⟩
  | cons a h ih =>
    obtain ⟨now, op⟩ := a
    intro q
    have h1 := hn (now, op) (by simp)
    have ih' := ih (fun p hp => hn p (List.mem_cons_of_mem _ hp))
    have : Safe q op ∧ Fresh q op := by cases op <;> simp [Safe, Fresh, noUpdate] at h1 ⊢
    exact ⟨⟨this.1, fun o _ => (ih' o.q).1⟩, ⟨this.2, fun o _ => (ih' o.q).2⟩⟩

theorem C01_noUpdate_partial (h : List (Int × Op)) (hn : ∀ p ∈ h, noUpdate p.2 = true) :
    ∃ q, runFrom new h = some q ∧ Consistent q := by
  obtain ⟨hs, hf⟩ := along_of_noUpdate h hn new
  obtain ⟨q, e⟩ := run_some h inv_new timed_new hs hf
  exact ⟨q, e, C01_partial h q hs e⟩

/-- a history that meets the hypotheses: add, add with dependency, reserve, bury, kick, remove, timers -/
def demo : List (Int × Op) :=
  [(0, .add { key := "a", group := "g", priority := 3, ttr := 10 }), (1, .add { key := "b", deps := ["a"] }),
   (2, .addMany [{ key := "c", delay := 5 }, { key := "a" }, { key := "d", start := some true, ttr := 1 }]),
   (3, .reserve "g"), (4, .bury "a"), (5, .kick "a"), (6, .reserve "g"), (7, .remove "a" []), (9, .delayTick),
   (20, .ttrTick fun _ => .bury), (21, .delayTick), (22, .changeKey "b" "e")]

example : ∀ p ∈ demo, noUpdate p.2 = true := by decide
example : ((runFrom new demo).map fun q => (q.items.length, q.ready "", q.bury.arr, q.find "e")) =
    some (3, [1, 2], [3], some 1) := by decide +kernel

/-- The witness against C01: bury an item, give it a dependency while it is buried, then take the dependency away. -/
def badHistory : List (Int × Op) :=
  [(0, .add { key := "x" }), (1, .reserve ""), (2, .bury "x"), (3, .update "x" "" 0 0 0 0 (some ["y"])),
   (4, .add { key := "z", deps := ["w"] }), (5, .update "x" "" 0 0 0 0 (some []))]

/-- C01 fails: after this history item 0 is in the ready and in the bury sub-queue. -/
theorem C01_violated : ∃ q, runFrom new badHistory = some q ∧ ¬ Consistent q := by
  have hq : ((runFrom new badHistory).map fun q => (q.ready "", q.bury.arr, q.find "x")) = some ([0], [0], some 0) := by
    decide +kernel
  obtain ⟨q, e, hq⟩ := Option.map_eq_some_iff.1 hq
  simp only [Prod.mk.injEq] at hq
  obtain ⟨h1, h2, h6⟩ := hq
  refine ⟨q, e, ?_⟩
  intro c
  have a := (c.exactlyOne 0 ⟨_, h6⟩ .ready).1 ⟨"", by rw [h1]; simp⟩
  have b := (c.exactlyOne 0 ⟨_, h6⟩ .bury).1 (by show 0 ∈ q.bury.arr; rw [h2]; simp)
  rw [← a] at b; simp at b

/-- A shorter history on which the same defect panics. -/
theorem C01_violated_panic : runFrom new
    [(0, .add { key := "x" }), (1, .reserve ""), (2, .bury "x"), (3, .update "x" "" 0 0 0 0 (some ["y"])),
     (5, .update "x" "" 0 0 0 0 (some []))] = none := by
  rw [← Option.isNone_iff_eq_none]; decide +kernel

/-! ## C02 -/

/-- specification: the item is ready in reserve group `g` -/
def readyIn (q : Q) (g : String) (i : Nat) : Prop := held q i ∧ (q.store i).state = .ready ∧ (q.store i).group = g

/-- specification: `a` is to be handed out before `b` -/
def Better (a b : Item) : Prop :=
  a.priority > b.priority ∨ (a.priority = b.priority ∧ (a.size > b.size ∨ (a.size = b.size ∧ a.creation < b.creation)))

theorem lessReady_iff (st : Nat → Item) (a b : Nat) : lessReady st a b = true ↔ Better (st a) (st b) := by
  unfold lessReady Better
  split
  · rename_i h1
    split
    · rename_i h2; simp [h1, h2]
    · rename_i h2; simp [h1, h2]
  · rename_i h1; simp [h1]

/-- C02: for histories that hit neither of the two defects of `Update` (`Safe`, `Fresh`), `Reserve` returns a ready item
of the group such that no other one is better, and moves it to the run sub-queue; it fails with `ErrNothingReady`
exactly if there is none. -/
theorem C02_partial (h : List (Int × Op)) (q : Q) (hs : Along Safe new h) (hf : Along Fresh new h)
    (hr : runFrom new h = some q) (g : String) (now : Int) (o : Out) (ho : step q now (.reserve g) = some o)
    (hc : q.closed = false) :
    ((∃ i, readyIn q g i) → ∃ i, o.res = .item i ∧ readyIn q g i ∧ (∀ j, readyIn q g j → ¬ Better (q.store j) (q.store i)) ∧
      inSub o.q .run i) ∧
    ((¬ ∃ i, readyIn q g i) → o.res = .err .nothingReady) := by
  obtain ⟨hi, ht⟩ := run_inv h inv_new timed_new hs hr
  have hord := run_ready h inv_new timed_new readyOrd_new hs hf hr
  have hmem : ∀ i, readyIn q g i ↔ i ∈ q.ready g := by
    intro i; unfold readyIn; rw [held_iff hi, hi.memReady]; simp
  have ef := (step_eff (now := now) (op := .reserve g) hi ht trivial).1 o ho
  cases ef with
  | fail he =>
    simp only [expectErr, hc] at he
    by_cases hne : q.ready g = []
    · refine ⟨?_, ?_⟩
      · rintro ⟨i, hi'⟩; rw [hmem, hne] at hi'; simp at hi'
      · intro _; simp [hne] at he; rw [← he]
    · simp [hne] at he
  | @move op i f evs ra res q' _ m mv =>
    cases m with
    | reserve hl hst hg h0 =>
      refine ⟨?_, ?_⟩
      · intro _
        refine ⟨i, rfl, ⟨(held_iff hi i).2 hl, hst, hg⟩, ?_, ?_⟩
        · intro j hj hb
          have := root_min (swo_ready q.store) (hord g) h0 ((hmem j).1 hj)
          rw [(lessReady_iff _ _ _).2 hb] at this; simp at this
        · rw [inSub_iff mv.inv]
          refine ⟨(mv.frame.live i).2 ((mod_live q i (fun it => (it.touch now).switchReadyRun) (fun _ => rfl) i).2 hl), ?_⟩
          rw [mv.frame.store, mod_self]; rfl
      · intro hn; exact absurd ⟨i, (held_iff hi i).2 hl, hst, hg⟩ hn

/-- With a history free of `Update`, C02 needs no further condition. -/
theorem C02_noUpdate_partial (h : List (Int × Op)) (hn : ∀ p ∈ h, noUpdate p.2 = true) (q : Q)
    (hr : runFrom new h = some q) (g : String) (now : Int) (o : Out) (ho : step q now (.reserve g) = some o)
    (hc : q.closed = false) :
    ((∃ i, readyIn q g i) → ∃ i, o.res = .item i ∧ readyIn q g i ∧ (∀ j, readyIn q g j → ¬ Better (q.store j) (q.store i)) ∧
      inSub o.q .run i) ∧
    ((¬ ∃ i, readyIn q g i) → o.res = .err .nothingReady) :=
  C02_partial h q (along_of_noUpdate h hn new).1 (along_of_noUpdate h hn new).2 hr g now o ho hc

example : ((runFrom new [(0, .add { key := "a", priority := 1 }), (1, .add { key := "b", priority := 2, size := 1 }),
    (2, .add { key := "c", priority := 2, size := 4 }), (3, .add { key := "d", priority := 2, size := 4 })]).bind
    fun q => (step q 9 (.reserve "")).map fun o => o.res) = some (.item 2) := by decide +kernel

/-- C02 fails when `Update` raises the priority of a ready item while another reserve group was used last: the heap of
the other group is fixed instead. Item 1 has priority 9 after the update but `Reserve` returns item 0. -/
def staleHistory : List (Int × Op) :=
  [(0, .add { key := "a", group := "g", priority := 5 }), (1, .add { key := "b", group := "g", priority := 3 }),
   (2, .add { key := "c", group := "other" }), (3, .add { key := "d", group := "other" }),
   (4, .update "b" "g" 0 9 0 0 none)]

theorem C02_violated : ∃ q o, runFrom new staleHistory = some q ∧ step q 5 (.reserve "g") = some o ∧ o.res = .item 0 ∧
    readyIn q "g" 1 ∧ Better (q.store 1) (q.store 0) := by
  have hq : ((runFrom new staleHistory).bind fun q => (step q 5 (.reserve "g")).map fun o =>
      (o.res, q.find "b", (q.store 1).state, (q.store 1).group, (q.store 1).priority, (q.store 0).priority)) =
      some (.item 0, some 1, .ready, "g", 9, 5) := by decide +kernel
  obtain ⟨q, e, hq⟩ := Option.bind_eq_some_iff.1 hq
  obtain ⟨o, ho, hq⟩ := Option.map_eq_some_iff.1 hq
  simp only [Prod.mk.injEq] at hq
  obtain ⟨h1, h2, h3, h4, h5, h6⟩ := hq
  exact ⟨q, o, e, ho, h1, ⟨⟨"b", h2⟩, h3, h4⟩, Or.inl (by rw [h5, h6]; decide)⟩

/-- the same defect can panic: here the group used last has fewer items than the position of the updated one -/
theorem C02_violated_panic : runFrom new
    [(0, .add { key := "a", group := "g", priority := 5 }), (1, .add { key := "b", group := "g", priority := 3 }),
     (2, .add { key := "c", group := "other" }), (4, .update "b" "g" 0 9 0 0 none)] = none := by
  rw [← Option.isNone_iff_eq_none]; decide +kernel

/-! ## C07 -/

/-- C07: an operation either fails with exactly the error of the table `expectErr`, without any effect, or succeeds.
(All states of safe histories; that it does not panic needs `Fresh` as in C01.) -/
theorem C07_partial (h : List (Int × Op)) (q : Q) (hs : Along Safe new h) (hr : runFrom new h = some q)
    (now : Int) (op : Op) (hop : Safe q op) (o : Out) (ho : step q now op = some o) :
    match expectErr q op with
    | some e => o.res = .err e ∧ o.q = q ∧ o.evs = [] ∧ o.readyAdded = false
    | none => ∀ e, o.res ≠ .err e := by
  obtain ⟨hi, ht⟩ := run_inv h inv_new timed_new hs hr
  cases he : expectErr q op with
  | some e => rw [step_fail (now := now) he] at ho; injection ho with ho; subst ho; exact ⟨rfl, rfl, rfl, rfl⟩
  | none =>
    have ef := (step_eff (now := now) hi ht hop).1 o ho
    intro e
    cases ef with
    | fail h => rw [he] at h; simp at h
    | move _ m _ => cases m <;> simp
    | _ => simp

/-- The failing half of C07 needs no hypothesis at all: in any state whatever. -/
theorem C07_failures (q : Q) (now : Int) (op : Op) (e : Err) (h : expectErr q op = some e) :
    step q now op = some ⟨q, .err e, [], false⟩ := step_fail h

example : (runFrom new demo).map (fun q => (expectErr q (.touch "c"), expectErr q (.touch "nope"), expectErr q (.kick "d"),
    expectErr q (.changeKey "e" "c"))) = some (some .notRunning, some .notFound, none, some .alreadyExists) := by decide +kernel

/-! ## C06 -/

/-- C06, `Add` of a present key, in any state. -/
theorem C06_add_existing (q : Q) (now : Int) (d : Def) (hc : q.closed = false) (h : (q.find d.key).isSome) :
    step q now (.add d) = some ⟨q, .err .alreadyExists, [], false⟩ := by
  apply step_fail; simp [expectErr, hc, h]

/-- C06, `AddMany`: every state of a safe history, every list of definitions.  `added + dups` is the number of
definitions; `added` is the number of items the queue grew by; present keys keep their item, unchanged; every other key
among the definitions is now present with the values of its *first* definition; no other key appears. -/
theorem C06_addMany (h : List (Int × Op)) (q : Q) (hs : Along Safe new h) (hr : runFrom new h = some q)
    (hc : q.closed = false) (now : Int) (ds : List Def) :
    ∃ q' added dups evs ra, step q now (.addMany ds) = some ⟨q', .counts added dups, evs, ra⟩ ∧
      added + dups = ds.length ∧ q'.items.length = q.items.length + added ∧
      (∀ k i, q.find k = some i → q'.find k = some i ∧ q'.store i = q.store i) ∧
      (∀ k, q.find k = none → (∀ d ∈ ds, d.key ≠ k) → q'.find k = none) ∧
      (∀ k d, q.find k = none → ds.find? (fun d => d.key = k) = some d →
        ∃ i, q'.find k = some i ∧ (q'.store i).data = d.data ∧ (q'.store i).priority = d.priority ∧
          (q'.store i).group = d.group ∧ (q'.store i).delay = d.delay ∧ (q'.store i).ttr = d.ttr ∧
          (q'.store i).dependencies = d.deps) := by
  obtain ⟨hi, ht⟩ := run_inv h inv_new timed_new hs hr
  obtain ⟨se, so⟩ := step_eff (now := now) (op := .addMany ds) hi ht trivial
  obtain ⟨o, ho⟩ := so trivial
  have ef := se o ho
  cases ef with
  | fail he => simp [expectErr, hc] at he
  | move _ m _ => cases m
  | @addMany _ q' n l _ a =>
    have hle : n ≤ ds.length := by have := a.le; simpa using this
    refine ⟨q', n, _, _, _, ho, by omega, ?_, ?_, ?_, ?_⟩
    · -- the new item list holds the old items and the listed ones
      have hp : (q'.items.map (·.2)).Perm (q.items.map (·.2) ++ l.map (·.1)) := by
        rw [List.perm_ext_iff_of_nodup (items_nodup a.inv)]
        · intro j
          rw [mem_items a.inv, List.mem_append, mem_items hi]
          rcases a.cases hi j with ⟨h1, _, h2⟩ | ⟨h1, h2, h3, _⟩ | ⟨h1, h2⟩
          · rw [h2]
            constructor
            · exact Or.inl
            · rintro (x | x)
              · exact x
              · obtain ⟨p, hp, e⟩ := List.mem_map.1 x
                have := (a.listed p hp).1; have e : p.1 = j := e; omega
          · exact ⟨fun _ => Or.inr (a.cover j h1 h2), fun _ => h3⟩
          · constructor
            · intro x; exact absurd x h2
            · rintro (x | x)
              · have := live_lt hi x; have := a.next; omega
              · obtain ⟨p, hp, e⟩ := List.mem_map.1 x
                have := (a.listed p hp).2.1; have e : p.1 = j := e; omega
        · rw [List.nodup_append]
          refine ⟨items_nodup hi, a.nodup, ?_⟩
          intro x hx y hy e
          subst e
          have h1 := live_lt hi ((mem_items hi x).1 hx)
          obtain ⟨p, hp, e⟩ := List.mem_map.1 hy
          have := (a.listed p hp).1; have e : p.1 = x := e; omega
      have := hp.length_eq
      simp only [List.length_map, List.length_append, a.len] at this
      exact this
    · intro k i hk; exact ⟨a.keep k i hk, a.old i (hi.keyOf k i hk).2⟩
    · intro k hk hd
      rw [a.absent k hk]
      intro d hd'
      obtain ⟨d0, h0, e⟩ := List.mem_map.1 hd'
      subst e; exact hd d0 h0
    · intro k d hk hd
      have hin : ¬ (q'.find k = none) := by
        rw [a.absent k hk]
        intro hall
        have h1 := List.mem_of_find?_eq_some hd
        have h2 := List.find?_some hd
        exact hall _ (List.mem_map.2 ⟨d, h1, rfl⟩) (by simpa using h2)
      obtain ⟨i, hi'⟩ := Option.ne_none_iff_exists'.1 hin
      obtain ⟨d', h1, h2, -⟩ := a.new k i hk hi'
      rw [List.find?_map] at h1
      have hcomp : ((fun d : Def => decide (d.key = k)) ∘ fun d : Def => { d with size := 0 }) = fun d => decide (d.key = k) := rfl
      rw [hcomp, hd] at h1
      simp only [Option.map_some, Option.some.injEq] at h1
      subst h1
      refine ⟨i, hi', ?_⟩
      rw [h2]
      unfold placed
      simp only
      by_cases hdeps : d.deps = []
      · simp only [hdeps, ne_eq, not_true, if_false]
        rcases d.start with _ | _ | _
        · simp only; split <;> simp [mkItem, Item.switchDelayReady]
        · simp [Item.switchRunBury, Item.switchReadyRun, Item.switchDelayReady, mkItem]
        · simp [Item.switchReadyRun, Item.switchDelayReady, mkItem, Item.touch]
      · simp [hdeps, Item.setDependencies, Item.switchDelayDependent, mkItem]

/-- C06: the same definitions a second time add nothing (at any later clock reading). -/
theorem C06_addMany_twice (h : List (Int × Op)) (q q' : Q) (hs : Along Safe new h) (hr : runFrom new h = some q)
    (hc : q.closed = false) (now now' : Int) (ds : List Def) (r evs ra) (h1 : step q now (.addMany ds) = some ⟨q', r, evs, ra⟩) :
    ∃ o, step q' now' (.addMany ds) = some o ∧ o.res = .counts 0 ds.length ∧ o.evs = [] ∧ o.readyAdded = false ∧ o.q = q' := by
  obtain ⟨hi, ht⟩ := run_inv h inv_new timed_new hs hr
  have ef := (step_eff (now := now) (op := .addMany ds) hi ht trivial).1 _ h1
  have present : ∀ d ∈ ds, (q'.find d.key).isSome = true := by
    cases ef with
    | fail he => simp [expectErr, hc] at he
    | move _ m _ => cases m
    | addMany _ a =>
      intro d hd
      cases hk : q.find d.key with
      | some i => rw [a.keep _ _ hk]; rfl
      | none =>
        cases hk' : q'.find d.key with
        | some i => rfl
        | none => exact absurd rfl ((a.absent _ hk).1 hk' { d with size := 0 } (List.mem_map.2 ⟨d, hd, rfl⟩))
  have hc' : q'.closed = false := by
    cases ef with
    | fail he => exact hc
    | move _ m _ => cases m
    | addMany _ a => rw [a.closed]; exact hc
  have loop : ∀ (l : List Def) (u : Nat), (∀ d ∈ l, (q'.find d.key).isSome = true) →
      Q.addLoop now' q' l 0 u [] = (q', 0, u + l.length, []) := by
    intro l
    induction l with
    | nil => intro u _; rfl
    | cons d l ih =>
      intro u hp
      unfold Q.addLoop
      rw [if_pos (hp d (by simp)), ih _ (fun x hx => hp x (List.mem_cons_of_mem _ hx))]
      simp; omega
  refine ⟨⟨q', .counts 0 ds.length, [], false⟩, ?_, rfl, rfl, rfl, rfl⟩
  simp only [step]
  unfold Q.addMany
  rw [if_neg (by simp [hc']), loop _ 0 (by
    intro d hd; obtain ⟨d0, h0, e⟩ := List.mem_map.1 hd; subst e; exact present d0 h0)]
  simp [manyEvs]

example : ((step new 0 (.addMany [{ key := "a", data := 1 }, { key := "b" }, { key := "a", data := 2 }])).map fun o =>
    (o.res, (o.q.store 0).data, o.q.items.length)) = some (.counts 2 1, 1, 2) := by decide +kernel

/-! ## C08, C09 -/

/-- C08: delay processing at time `now` makes ready exactly the delayed items whose ready time is before `now`, changes no
other item, and tells the observers exactly about those. -/
theorem C08 (h : List (Int × Op)) (q : Q) (hs : Along Safe new h) (hr : runFrom new h = some q) (now : Int) :
    ∃ o moved, step q now .delayTick = some o ∧
      (∀ i, i ∈ moved ↔ inSub q .delay i ∧ ∀ t, (q.store i).readyAt = some t → t < now) ∧
      (∀ i ∈ moved, inSub o.q .ready i) ∧ (∀ i, i ∉ moved → o.q.store i = q.store i) ∧
      (∀ i, i ∉ moved → ∀ s, inSub o.q s i ↔ inSub q s i) ∧
      o.evs = (if moved = [] then [] else [⟨.delay, .ready, moved⟩]) := by
  obtain ⟨hi, ht⟩ := run_inv h inv_new timed_new hs hr
  obtain ⟨se, so⟩ := step_eff (now := now) (op := .delayTick) hi ht trivial
  obtain ⟨o, ho⟩ := so trivial
  have ef := se o ho
  cases ef with
  | fail he => simp [expectErr] at he
  | move _ m _ => cases m
  | @delayTick l q' b hm =>
    have hlv : ∀ i, live q' i ↔ live q i := by
      intro i; unfold live Q.find; rw [b.items, b.store]; split <;> rfl
    refine ⟨_, l, ho, ?_, ?_, ?_, ?_, rfl⟩
    · intro i
      rw [hm, inSub_iff hi]
      unfold Item.isready
      cases hra : (q.store i).readyAt with
      | none => simp [before]
      | some t => simp [before, and_assoc]
    · intro i him
      rw [inSub_iff b.inv, hlv]
      exact ⟨((hm i).1 him).1, by rw [b.store, if_pos him]; rfl⟩
    · intro i him; rw [b.store, if_neg him]
    · intro i him s
      rw [inSub_iff b.inv, inSub_iff hi, hlv, b.store, if_neg him]

end Verif.Queue
