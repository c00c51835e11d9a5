import Verif.Queue.Lemmas
/-! Preservation of the queue invariant by the primitive moves: field updates, push, remove and fix. -/
namespace Verif.Queue
open Verif.Heap

/-- Everything but the five sub-queues (and the cursor) is the same. -/
structure Frame (q q' : Q) : Prop where
  store : q'.store = q.store
  items : q'.items = q.items
  next : q'.next = q.next
  closed : q'.closed = q.closed
  dependants : q'.dependants = q.dependants

theorem Frame.refl (q : Q) : Frame q q := ⟨rfl, rfl, rfl, rfl, rfl⟩
theorem Frame.trans {a b c : Q} (h : Frame a b) (h' : Frame b c) : Frame a c :=
  ⟨h'.store.trans h.store, h'.items.trans h.items, h'.next.trans h.next, h'.closed.trans h.closed,
   h'.dependants.trans h.dependants⟩
theorem Frame.find {q q' : Q} (h : Frame q q') (k : String) : q'.find k = q.find k := by
  unfold Q.find; rw [h.items]
theorem Frame.live {q q' : Q} (h : Frame q q') (i : Nat) : live q' i ↔ live q i := by
  unfold Verif.Queue.live; rw [h.find, h.store]

theorem pushDelay_frame (q i) : Frame q (q.pushDelay i) := ⟨rfl, rfl, rfl, rfl, rfl⟩
theorem pushRun_frame (q i) : Frame q (q.pushRun i) := ⟨rfl, rfl, rfl, rfl, rfl⟩
theorem pushBury_frame (q i) : Frame q (q.pushBury i) := ⟨rfl, rfl, rfl, rfl, rfl⟩
theorem pushDep_frame (q i) : Frame q (q.pushDep i) := ⟨rfl, rfl, rfl, rfl, rfl⟩
theorem pushReady_frame (q i) : Frame q (q.pushReady i) := ⟨rfl, rfl, rfl, rfl, rfl⟩

/-! ### Field updates -/

theorem some_ne {i j : Nat} : (some i ≠ some j) ↔ j ≠ i := by
  constructor
  · intro h e; exact h (by rw [e])
  · intro h e; exact h (by injection e with e; exact e.symm)


theorem mod_self (q : Q) (i : Nat) (f) : (q.mod i f).store i = f (q.store i) := by simp [Q.mod]
theorem mod_other (q : Q) (i j : Nat) (f) (h : j ≠ i) : (q.mod i f).store j = q.store j := by simp [Q.mod, h]
theorem mod_find (q : Q) (i : Nat) (f) (k) : (q.mod i f).find k = q.find k := rfl

theorem mod_key (q : Q) (i : Nat) (f) (hf : ∀ it, (f it).key = it.key) (j : Nat) :
    ((q.mod i f).store j).key = (q.store j).key := by
  by_cases h : j = i
  · subst h; rw [mod_self, hf]
  · rw [mod_other _ _ _ _ h]

theorem mod_live (q : Q) (i : Nat) (f) (hf : ∀ it, (f it).key = it.key) (j : Nat) :
    live (q.mod i f) j ↔ live q j := by
  unfold live; rw [mod_key q i f hf, mod_find]

/-- An item in no sub-queue can be changed freely (except for its key). -/
theorem modLoose {q : Q} {i : Nat} (h : InvX q (some i)) (f : Item → Item) (hf : ∀ it, (f it).key = it.key) :
    InvX (q.mod i f) (some i) := by
  have hl := mod_live q i f hf
  have st : ∀ j, some i ≠ some j → (q.mod i f).store j = q.store j := fun j hj =>
    mod_other _ _ _ _ (fun e => hj (by rw [e]))
  constructor
  · exact h.keys
  · intro k j hk; rw [mod_key q i f hf]; exact h.keyOf k j hk
  · intro j hj; rw [hl]; exact h.xlive j hj
  · exact h.wfDelay
  · exact h.wfRun
  · exact h.wfBury
  · exact h.wfDep
  · exact h.wfReady
  · intro j; rw [hl]; refine Iff.trans (h.memDelay j) (and_congr_right fun _ => and_congr_right fun hx => ?_); rw [st j hx]
  · intro j; rw [hl]; refine Iff.trans (h.memRun j) (and_congr_right fun _ => and_congr_right fun hx => ?_); rw [st j hx]
  · intro j; rw [hl]; refine Iff.trans (h.memBury j) (and_congr_right fun _ => and_congr_right fun hx => ?_); rw [st j hx]
  · intro j; rw [hl]; refine Iff.trans (h.memDep j) (and_congr_right fun _ => and_congr_right fun hx => ?_); rw [st j hx]
  · intro g j; rw [hl]; refine Iff.trans (h.memReady g j) (and_congr_right fun _ => and_congr_right fun hx => ?_); rw [st j hx]
  · intro j hlj hx; rw [hl] at hlj; rw [st j hx]; exact h.notRemoved j hlj hx
  · intro hc j hlj
    rw [hl] at hlj
    rw [st j (by rw [some_ne]; intro e; subst e; exact hlj (h.xlive j rfl))]
    exact h.dead hc j hlj
  · refine IsHeap.congr h.ordDelay fun a ha b hb => ?_
    have ha' := (h.memDelay a).1 ha; have hb' := (h.memDelay b).1 hb
    unfold lessDelay; rw [st a ha'.2.1, st b hb'.2.1]
  · refine IsHeap.congr h.ordRun fun a ha b hb => ?_
    have ha' := (h.memRun a).1 ha; have hb' := (h.memRun b).1 hb
    unfold lessRun; rw [st a ha'.2.1, st b hb'.2.1]

theorem modLoose_ready {q : Q} {i : Nat} (h : InvX q (some i)) (f : Item → Item) (ho : ReadyOrd q) :
    ReadyOrd (q.mod i f) := by
  intro g
  refine IsHeap.congr (ho g) fun a ha b hb => ?_
  have ha' := (h.memReady g a).1 ha; have hb' := (h.memReady g b).1 hb
  unfold lessReady
  rw [mod_other _ _ _ _ (fun e => ha'.2.1 (by rw [e])), mod_other _ _ _ _ (fun e => hb'.2.1 (by rw [e]))]

/-- What a change of the fields that no sub-queue looks at keeps. -/
structure Plain (f : Item → Item) : Prop where
  key : ∀ it, (f it).key = it.key
  state : ∀ it, (f it).state = it.state
  group : ∀ it, (f it).group = it.group
  readyAt : ∀ it, (f it).readyAt = it.readyAt
  releaseAt : ∀ it, (f it).releaseAt = it.releaseAt
  priority : ∀ it, (f it).priority = it.priority
  size : ∀ it, (f it).size = it.size
  creation : ∀ it, (f it).creation = it.creation

theorem modPlain {q : Q} {x : Option Nat} (h : InvX q x) (i : Nat) (f : Item → Item) (hf : Plain f) :
    InvX (q.mod i f) x := by
  have hl := mod_live q i f hf.key
  have hs : ∀ j, ((q.mod i f).store j).state = (q.store j).state := by
    intro j; by_cases hj : j = i
    · subst hj; rw [mod_self, hf.state]
    · rw [mod_other _ _ _ _ hj]
  have hg : ∀ j, ((q.mod i f).store j).group = (q.store j).group := by
    intro j; by_cases hj : j = i
    · subst hj; rw [mod_self, hf.group]
    · rw [mod_other _ _ _ _ hj]
  have hr : ∀ j, ((q.mod i f).store j).readyAt = (q.store j).readyAt := by
    intro j; by_cases hj : j = i
    · subst hj; rw [mod_self, hf.readyAt]
    · rw [mod_other _ _ _ _ hj]
  have hr2 : ∀ j, ((q.mod i f).store j).releaseAt = (q.store j).releaseAt := by
    intro j; by_cases hj : j = i
    · subst hj; rw [mod_self, hf.releaseAt]
    · rw [mod_other _ _ _ _ hj]
  constructor
  · exact h.keys
  · intro k j hk; rw [mod_key q i f hf.key]; exact h.keyOf k j hk
  · intro j hj; rw [hl]; exact h.xlive j hj
  · exact h.wfDelay
  · exact h.wfRun
  · exact h.wfBury
  · exact h.wfDep
  · exact h.wfReady
  · intro j; rw [hl, hs]; exact h.memDelay j
  · intro j; rw [hl, hs]; exact h.memRun j
  · intro j; rw [hl, hs]; exact h.memBury j
  · intro j; rw [hl, hs]; exact h.memDep j
  · intro g j; rw [hl, hs, hg]; exact h.memReady g j
  · intro j; rw [hl, hs]; exact h.notRemoved j
  · intro hc j; rw [hl, hs]; exact h.dead hc j
  · refine IsHeap.congr h.ordDelay fun a _ b _ => ?_
    unfold lessDelay; rw [hr, hr]
  · refine IsHeap.congr h.ordRun fun a _ b _ => ?_
    unfold lessRun; rw [hr2, hr2]

theorem modPlain_ready {q : Q} (i : Nat) (f : Item → Item) (hf : Plain f) (ho : ReadyOrd q) :
    ReadyOrd (q.mod i f) := by
  have hp : ∀ j, ((q.mod i f).store j).priority = (q.store j).priority ∧
      ((q.mod i f).store j).size = (q.store j).size ∧ ((q.mod i f).store j).creation = (q.store j).creation := by
    intro j; by_cases hj : j = i
    · subst hj; rw [mod_self, hf.priority, hf.size, hf.creation]; exact ⟨rfl, rfl, rfl⟩
    · rw [mod_other _ _ _ _ hj]; exact ⟨rfl, rfl, rfl⟩
  intro g
  refine IsHeap.congr (ho g) fun a _ b _ => ?_
  unfold lessReady
  rw [(hp a).1, (hp a).2.1, (hp a).2.2, (hp b).1, (hp b).2.1, (hp b).2.2]

/-- A change of an item that is not ready and keeps key, and state not ready, keeps the ready order. -/
theorem mod_notReady_ready {q : Q} {x : Option Nat} (h : InvX q x) (i : Nat) (f : Item → Item)
    (hs : (q.store i).state ≠ .ready) (ho : ReadyOrd q) : ReadyOrd (q.mod i f) := by
  intro g
  refine IsHeap.congr (ho g) fun a ha b hb => ?_
  have ha' := (h.memReady g a).1 ha; have hb' := (h.memReady g b).1 hb
  unfold lessReady
  rw [mod_other _ _ _ _ (fun e => hs (by rw [← e]; exact ha'.2.2.1)),
    mod_other _ _ _ _ (fun e => hs (by rw [← e]; exact hb'.2.2.1))]

/-- Changes of `dependants` and of the cursor do not matter. -/
theorem InvX.deps {q : Q} {x} (h : InvX q x) (m) : InvX { q with dependants := m } x :=
  ⟨h.keys, h.keyOf, h.xlive, h.wfDelay, h.wfRun, h.wfBury, h.wfDep, h.wfReady, h.memDelay, h.memRun, h.memBury,
   h.memDep, h.memReady, h.notRemoved, h.dead, h.ordDelay, h.ordRun⟩

/-! ### Removal from a sub-queue -/

theorem idx_spec {h : IHeap} (w : WF h) {i : Nat} (hi : i ∈ h.arr) :
    ∃ p : Nat, h.idx i = p ∧ h.arr[p]? = some i := by
  obtain ⟨p, hp, e⟩ := List.mem_iff_getElem.1 hi
  have : h.arr[p]? = some i := by rw [List.getElem?_eq_getElem hp, e]
  exact ⟨p, w.idx p i this, this⟩

/-- removing a member by its recorded position removes exactly that member -/
theorem removeAt_member {less} (h : IHeap) (w : WF h) {i : Nat} (hi : i ∈ h.arr) :
    ∃ h', removeAt less h (h.idx i) = some (i, h') ∧ WF h' ∧ (∀ j, j ∈ h'.arr ↔ j ∈ h.arr ∧ j ≠ i) ∧
      (∀ y, y ∉ h.arr → h'.idx y = h.idx y) ∧ (SWO less → IsHeap less h.arr → IsHeap less h'.arr) := by
  obtain ⟨p, hp, hpe⟩ := idx_spec w hi
  have hlt : p < h.arr.length := by grind
  obtain ⟨⟨y, h'⟩, hr⟩ := removeAt_some less h p hlt
  rw [hp]
  have sp := removeAt_spec h (p : Int) y h' w hr
  simp only [Int.toNat_natCast] at sp
  have hy : y = i := by have := sp.1; rw [hpe] at this; simpa using this.symm
  subst hy
  refine ⟨h', hr, sp.2.2.1, ?_, sp.2.2.2.2.2, fun s ho => removeAt_isHeap s h _ _ h' hr ho⟩
  intro j
  have hperm := sp.2.2.2.1
  have hnd := hperm.nodup_iff.1 w.nodup
  rw [hperm.mem_iff]
  simp only [List.mem_cons]
  simp only [List.nodup_cons] at hnd
  grind

theorem slRemove_member (h : IHeap) (w : WF h) {i : Nat} (hi : i ∈ h.arr) :
    ∃ h', slRemove h i = some h' ∧ WF h' ∧ (∀ j, j ∈ h'.arr ↔ j ∈ h.arr ∧ j ≠ i) := by
  obtain ⟨p, hp, hpe⟩ := idx_spec w hi
  have hlt : p < h.arr.length := by grind
  unfold slRemove
  by_cases h1 : h.arr.length = 1
  · rw [if_pos h1]
    refine ⟨_, rfl, ⟨by simp, by simp⟩, ?_⟩
    intro j
    obtain ⟨a, ha⟩ := List.length_eq_one_iff.1 h1
    rw [ha] at hi ⊢; simp at hi ⊢; exact fun h1 => h1.trans hi.symm
  · rw [if_neg h1]
    simp only [hp]
    rw [if_neg (by omega)]
    have hne : h.arr ≠ [] := by intro h0; rw [h0] at hlt; simp at hlt
    obtain ⟨init, l, hl⟩ : ∃ init l, h.arr = init ++ [l] := ⟨_, _, (List.dropLast_concat_getLast hne).symm⟩
    have hlast : h.arr.getLast? = some l := by rw [hl]; simp
    rw [hlast]
    refine ⟨_, rfl, ?_, ?_⟩
    · have hnd := w.nodup
      have hidx := w.idx
      constructor
      · simp only [Int.toNat_natCast]
        rw [hl] at hnd hpe hlt ⊢
        rw [List.nodup_append] at hnd
        by_cases hpl : p = init.length
        · subst hpl; simp; exact hnd.1
        · have hpi : p < init.length := by simp at hlt; omega
          rw [List.set_append, if_pos hpi, List.dropLast_concat]
          rw [List.nodup_iff_pairwise_ne] at *
          rw [List.pairwise_iff_getElem] at *
          intro a b ha hb hab
          simp only [List.length_set] at ha hb
          rw [List.getElem_set, List.getElem_set]
          have h3 := hnd.2.2
          have := hnd.1 a b ha hb hab
          have m1 : init[a] ∈ init := List.getElem_mem _
          have m2 : init[b] ∈ init := List.getElem_mem _
          have n1 := h3 _ m1 l (by simp)
          have n2 := h3 _ m2 l (by simp)
          grind
      · intro c a hc
        simp only [Int.toNat_natCast] at hc
        have hclt : c < h.arr.length - 1 := by
          have : c < ((h.arr.set p l).dropLast).length := by grind
          simpa using this
        rw [List.getElem?_dropLast] at hc
        simp only [List.length_set, hclt, if_true, List.getElem?_set] at hc
        simp only [upd]
        have hi2 := hidx p i hpe
        have hl2 := hidx (h.arr.length - 1) l (by rw [hl]; simp)
        by_cases hcp : p = c
        · subst hcp
          simp only [if_true] at hc
          have hal : a = l := by grind
          subst hal
          rw [if_neg, if_pos rfl]
          intro e; subst e; omega
        · rw [if_neg hcp] at hc
          have ha2 := hidx c a hc
          rw [if_neg, if_neg]
          · exact ha2
          · intro e; subst e; omega
          · intro e; subst e; omega
    · intro j
      simp only [Int.toNat_natCast]
      have hnd := w.nodup
      rw [hl] at hnd hpe hlt ⊢
      rw [List.nodup_append] at hnd
      by_cases hpl : p = init.length
      · subst hpl
        simp at hpe ⊢
        subst hpe
        have h3 := hnd.2.2
        constructor
        · intro hj; exact ⟨Or.inl hj, fun e => h3 j hj l (by simp) e⟩
        · rintro ⟨hj | hj, hn⟩
          · exact hj
          · exact absurd hj hn
      · have hpi : p < init.length := by simp at hlt; omega
        rw [List.set_append, if_pos hpi, List.dropLast_concat]
        rw [List.getElem?_append_left hpi] at hpe
        simp only [List.mem_append, List.mem_singleton]
        have h3 := hnd.2.2
        have hii : i ∈ init := List.mem_of_getElem? hpe
        have hil := h3 i hii l (by simp)
        constructor
        · intro hj
          obtain ⟨c, hc, hcc⟩ := List.mem_iff_getElem.1 hj
          rw [List.getElem_set] at hcc
          split at hcc
          · subst hcc; exact ⟨Or.inr rfl, fun e => hil e.symm⟩
          · rename_i hpc
            simp only [List.length_set] at hc
            refine ⟨Or.inl (hcc ▸ List.getElem_mem _), fun e => ?_⟩
            subst e
            have : init[c]? = init[p]? := by rw [hpe, List.getElem?_eq_getElem hc, hcc]
            exact hpc ((List.getElem?_inj hpi hnd.1).1 this.symm)
        · rintro ⟨hj | hj, hn⟩
          · obtain ⟨c, hc, hcc⟩ := List.mem_iff_getElem.1 hj
            rw [List.mem_iff_getElem]
            refine ⟨c, by simpa using hc, ?_⟩
            rw [List.getElem_set]
            rw [if_neg]
            · exact hcc
            · intro e; subst e
              rw [List.getElem?_eq_getElem hpi] at hpe
              simp only [Option.some.injEq] at hpe
              exact hn (hcc ▸ hpe)
          · subst hj
            rw [List.mem_iff_getElem]
            exact ⟨p, by simpa using hpi, by simp⟩

theorem nm_rm {q : Q} {i : Nat} {s : State} (hs : (q.store i).state ≠ s) (j : Nat) :
    ((live q j ∧ none ≠ some j ∧ (q.store j).state = s) ↔ (live q j ∧ some i ≠ some j ∧ (q.store j).state = s)) := by
  simp only [some_ne]
  constructor
  · rintro ⟨a, _, b⟩; exact ⟨a, fun e => hs (by rw [← b, e]), b⟩
  · rintro ⟨a, _, b⟩; exact ⟨a, by simp, b⟩

theorem nm_rm_ready {q : Q} {i : Nat} (hs : (q.store i).state ≠ .ready) (g : String) (j : Nat) :
    ((live q j ∧ none ≠ some j ∧ (q.store j).state = .ready ∧ (q.store j).group = g) ↔
      (live q j ∧ some i ≠ some j ∧ (q.store j).state = .ready ∧ (q.store j).group = g)) := by
  have := nm_rm hs j
  grind

/-- A successful removal of `i` from one sub-queue leaves it loose. -/
structure Removed (q q' : Q) (i : Nat) : Prop where
  frame : Frame q q'
  inv : InvX q' (some i)
  ready : ReadyOrd q → ReadyOrd q'

theorem removeDelay_ok {q : Q} {i : Nat} (h : Inv q) (hl : live q i) (hs : (q.store i).state = .delay) :
    ∃ q', q.removeDelay i = some q' ∧ Removed q q' i := by
  have hm : i ∈ q.delay.arr := (h.memDelay i).2 ⟨hl, by simp, hs⟩
  obtain ⟨h', hr, w, mem, -, ord⟩ := removeAt_member (less := lessDelay q.store) q.delay h.wfDelay hm
  refine ⟨{ q with delay := h' }, by unfold Q.removeDelay; rw [hr]; rfl, ⟨rfl, rfl, rfl, rfl, rfl⟩, ?_, id⟩
  exact
    { keys := h.keys, keyOf := h.keyOf
      xlive := by intro j e; injection e with e; subst e; exact hl
      wfDelay := w, wfRun := h.wfRun, wfBury := h.wfBury, wfDep := h.wfDep, wfReady := h.wfReady
      memDelay := by
        intro j; rw [mem j, h.memDelay j]; simp only [some_ne]
        constructor
        · rintro ⟨⟨a, _, b⟩, c⟩; exact ⟨a, c, b⟩
        · rintro ⟨a, c, b⟩; exact ⟨⟨a, by simp, b⟩, c⟩
      memRun := fun j => (h.memRun j).trans (nm_rm (by rw [hs]; simp) j)
      memBury := fun j => (h.memBury j).trans (nm_rm (by rw [hs]; simp) j)
      memDep := fun j => (h.memDep j).trans (nm_rm (by rw [hs]; simp) j)
      memReady := fun g j => (h.memReady g j).trans (nm_rm_ready (by rw [hs]; simp) g j)
      notRemoved := fun j hlj _ => h.notRemoved j hlj (by simp)
      dead := h.dead
      ordDelay := ord (swo_delay _) h.ordDelay
      ordRun := h.ordRun }

theorem removeRun_ok {q : Q} {i : Nat} (h : Inv q) (hl : live q i) (hs : (q.store i).state = .run) :
    ∃ q', q.removeRun i = some q' ∧ Removed q q' i := by
  have hm : i ∈ q.run.arr := (h.memRun i).2 ⟨hl, by simp, hs⟩
  obtain ⟨h', hr, w, mem, -, ord⟩ := removeAt_member (less := lessRun q.store) q.run h.wfRun hm
  refine ⟨{ q with run := h' }, by unfold Q.removeRun; rw [hr]; rfl, ⟨rfl, rfl, rfl, rfl, rfl⟩, ?_, id⟩
  exact
    { keys := h.keys, keyOf := h.keyOf
      xlive := by intro j e; injection e with e; subst e; exact hl
      wfDelay := h.wfDelay, wfRun := w, wfBury := h.wfBury, wfDep := h.wfDep, wfReady := h.wfReady
      memRun := by
        intro j; rw [mem j, h.memRun j]; simp only [some_ne]
        constructor
        · rintro ⟨⟨a, _, b⟩, c⟩; exact ⟨a, c, b⟩
        · rintro ⟨a, c, b⟩; exact ⟨⟨a, by simp, b⟩, c⟩
      memDelay := fun j => (h.memDelay j).trans (nm_rm (by rw [hs]; simp) j)
      memBury := fun j => (h.memBury j).trans (nm_rm (by rw [hs]; simp) j)
      memDep := fun j => (h.memDep j).trans (nm_rm (by rw [hs]; simp) j)
      memReady := fun g j => (h.memReady g j).trans (nm_rm_ready (by rw [hs]; simp) g j)
      notRemoved := fun j hlj _ => h.notRemoved j hlj (by simp)
      dead := h.dead
      ordDelay := h.ordDelay
      ordRun := ord (swo_run _) h.ordRun }

theorem removeBury_ok {q : Q} {i : Nat} (h : Inv q) (hl : live q i) (hs : (q.store i).state = .bury) :
    ∃ q', q.removeBury i = some q' ∧ Removed q q' i := by
  have hm : i ∈ q.bury.arr := (h.memBury i).2 ⟨hl, by simp, hs⟩
  obtain ⟨h', hr, w, mem⟩ := slRemove_member q.bury h.wfBury hm
  refine ⟨{ q with bury := h' }, by unfold Q.removeBury; rw [hr]; rfl, ⟨rfl, rfl, rfl, rfl, rfl⟩, ?_, id⟩
  exact
    { keys := h.keys, keyOf := h.keyOf
      xlive := by intro j e; injection e with e; subst e; exact hl
      wfDelay := h.wfDelay, wfRun := h.wfRun, wfBury := w, wfDep := h.wfDep, wfReady := h.wfReady
      memBury := by
        intro j; rw [mem j, h.memBury j]; simp only [some_ne]
        constructor
        · rintro ⟨⟨a, _, b⟩, c⟩; exact ⟨a, c, b⟩
        · rintro ⟨a, c, b⟩; exact ⟨⟨a, by simp, b⟩, c⟩
      memDelay := fun j => (h.memDelay j).trans (nm_rm (by rw [hs]; simp) j)
      memRun := fun j => (h.memRun j).trans (nm_rm (by rw [hs]; simp) j)
      memDep := fun j => (h.memDep j).trans (nm_rm (by rw [hs]; simp) j)
      memReady := fun g j => (h.memReady g j).trans (nm_rm_ready (by rw [hs]; simp) g j)
      notRemoved := fun j hlj _ => h.notRemoved j hlj (by simp)
      dead := h.dead
      ordDelay := h.ordDelay
      ordRun := h.ordRun }

theorem removeDep_ok {q : Q} {i : Nat} (h : Inv q) (hl : live q i) (hs : (q.store i).state = .dependent) :
    ∃ q', q.removeDep i = some q' ∧ Removed q q' i := by
  have hm : i ∈ q.dep.arr := (h.memDep i).2 ⟨hl, by simp, hs⟩
  obtain ⟨h', hr, w, mem⟩ := slRemove_member q.dep h.wfDep hm
  refine ⟨{ q with dep := h' }, by unfold Q.removeDep; rw [hr]; rfl, ⟨rfl, rfl, rfl, rfl, rfl⟩, ?_, id⟩
  exact
    { keys := h.keys, keyOf := h.keyOf
      xlive := by intro j e; injection e with e; subst e; exact hl
      wfDelay := h.wfDelay, wfRun := h.wfRun, wfBury := h.wfBury, wfDep := w, wfReady := h.wfReady
      memDep := by
        intro j; rw [mem j, h.memDep j]; simp only [some_ne]
        constructor
        · rintro ⟨⟨a, _, b⟩, c⟩; exact ⟨a, c, b⟩
        · rintro ⟨a, c, b⟩; exact ⟨⟨a, by simp, b⟩, c⟩
      memDelay := fun j => (h.memDelay j).trans (nm_rm (by rw [hs]; simp) j)
      memRun := fun j => (h.memRun j).trans (nm_rm (by rw [hs]; simp) j)
      memBury := fun j => (h.memBury j).trans (nm_rm (by rw [hs]; simp) j)
      memReady := fun g j => (h.memReady g j).trans (nm_rm_ready (by rw [hs]; simp) g j)
      notRemoved := fun j hlj _ => h.notRemoved j hlj (by simp)
      dead := h.dead
      ordDelay := h.ordDelay
      ordRun := h.ordRun }

/-- replacing the heap of one group of the ready sub-queue -/
theorem setR_wf {q : Q} {g : String} {h' : IHeap} (hw : ∀ g, WF (q.rheap g)) (w : WF h')
    (hdis : ∀ g', g' ≠ g → ∀ i ∈ q.ready g', h'.idx i = q.readyIdx i) : ∀ g', WF ((q.setR g h').rheap g') := by
  intro g'
  by_cases hg : g' = g
  · subst hg; simpa [Q.setR, Q.rheap] using w
  · constructor
    · simpa [Q.setR, Q.rheap, hg] using (hw g').nodup
    · intro p a hp
      simp only [Q.setR, Q.rheap, hg, if_false] at hp ⊢
      rw [hdis g' hg a (List.mem_of_getElem? hp)]
      exact (hw g').idx p a hp

/-- removal of a ready item `i` that is stored under group `g` -/
theorem removeReady_ok {q : Q} {i : Nat} (h : Inv q) (hl : live q i) (hs : (q.store i).state = .ready) :
    ∃ q', q.removeReady i = some q' ∧ Removed q q' i := by
  have hm : i ∈ q.ready (q.store i).group := (h.memReady _ i).2 ⟨hl, by simp, hs, rfl⟩
  obtain ⟨h', hr, w, mem, oth, ord⟩ :=
    removeAt_member (less := lessReady q.store) (q.rheap (q.store i).group) (h.wfReady _) hm
  refine ⟨{ q.setR (q.store i).group h' with cursor := (q.store i).group }, ?_, ⟨rfl, rfl, rfl, rfl, rfl⟩, ?_, ?_⟩
  · unfold Q.removeReady Q.removeReadyFrom
    have hr' : removeAt (lessReady q.store) (q.rheap (q.store i).group) (q.readyIdx i) = some (i, h') := hr
    rw [hr']; rfl
  · exact
      { keys := h.keys, keyOf := h.keyOf
        xlive := by intro j e; injection e with e; subst e; exact hl
        wfDelay := h.wfDelay, wfRun := h.wfRun, wfBury := h.wfBury, wfDep := h.wfDep
        wfReady := setR_wf h.wfReady w (by
          intro g' hg j hj
          apply oth
          intro hj2
          exact hg (((h.memReady _ j).1 hj).2.2.2.symm.trans ((h.memReady _ j).1 hj2).2.2.2))
        memDelay := fun j => (h.memDelay j).trans (nm_rm (by rw [hs]; simp) j)
        memRun := fun j => (h.memRun j).trans (nm_rm (by rw [hs]; simp) j)
        memBury := fun j => (h.memBury j).trans (nm_rm (by rw [hs]; simp) j)
        memDep := fun j => (h.memDep j).trans (nm_rm (by rw [hs]; simp) j)
        memReady := by
          intro g j
          simp only [Q.setR]
          have hmr := h.memReady g j
          by_cases hg : g = (q.store i).group
          · rw [if_pos hg, mem j]
            subst hg
            show j ∈ q.ready _ ∧ _ ↔ _
            rw [hmr]; simp only [some_ne]
            constructor
            · rintro ⟨⟨a, _, b⟩, c⟩; exact ⟨a, c, b⟩
            · rintro ⟨a, c, b⟩; exact ⟨⟨a, by simp, b⟩, c⟩
          · rw [if_neg hg, hmr]; simp only [some_ne]
            constructor
            · rintro ⟨a, _, b, c⟩; exact ⟨a, fun e => hg (by rw [← c, e]), b, c⟩
            · rintro ⟨a, _, b⟩; exact ⟨a, by simp, b⟩
        notRemoved := fun j hlj _ => h.notRemoved j hlj (by simp)
        dead := h.dead
        ordDelay := h.ordDelay
        ordRun := h.ordRun }
  · intro ho g
    simp only [Q.setR]
    by_cases hg : g = (q.store i).group
    · rw [if_pos hg]; exact ord (swo_ready _) (ho _)
    · rw [if_neg hg]; exact ho g

/-! ### Push to a sub-queue -/

structure Pushed (q q' : Q) (i : Nat) : Prop where
  frame : Frame q q'
  inv : Inv q'
  ready : ReadyOrd q → ReadyOrd q'

theorem push_member {less} (h : IHeap) (w : WF h) {i : Nat} (hi : i ∉ h.arr) :
    WF (push less h i) ∧ (∀ j, j ∈ (push less h i).arr ↔ j ∈ h.arr ∨ j = i) ∧
      (∀ y, y ≠ i → y ∉ h.arr → (push less h i).idx y = h.idx y) := by
  obtain ⟨w', p, o⟩ := push_spec (less := less) h i w hi
  refine ⟨w', fun j => ?_, o⟩
  rw [p.mem_iff, List.mem_cons]; exact or_comm

theorem nm_push {q : Q} {i : Nat} {s : State} (hs : (q.store i).state ≠ s) (j : Nat) :
    ((live q j ∧ some i ≠ some j ∧ (q.store j).state = s) ↔ (live q j ∧ none ≠ some j ∧ (q.store j).state = s)) := by
  simp only [some_ne]
  constructor
  · rintro ⟨a, _, b⟩; exact ⟨a, by simp, b⟩
  · rintro ⟨a, _, b⟩; exact ⟨a, fun e => hs (by rw [← b, e]), b⟩

theorem nm_push_self {q : Q} {i : Nat} {s : State} (hl : live q i) (hs : (q.store i).state = s) (j : Nat) :
    ((live q j ∧ some i ≠ some j ∧ (q.store j).state = s) ∨ j = i) ↔
      (live q j ∧ none ≠ some j ∧ (q.store j).state = s) := by
  simp only [some_ne]
  constructor
  · rintro (⟨a, _, b⟩ | rfl)
    · exact ⟨a, by simp, b⟩
    · exact ⟨hl, by simp, hs⟩
  · rintro ⟨a, _, b⟩
    by_cases e : j = i
    · exact Or.inr e
    · exact Or.inl ⟨a, e, b⟩

theorem nm_push_ready {q : Q} {i : Nat} (hs : (q.store i).state ≠ .ready) (g : String) (j : Nat) :
    ((live q j ∧ some i ≠ some j ∧ (q.store j).state = .ready ∧ (q.store j).group = g) ↔
      (live q j ∧ none ≠ some j ∧ (q.store j).state = .ready ∧ (q.store j).group = g)) := by
  have := nm_push hs j
  grind

theorem notRemoved_push {q : Q} {i : Nat} (h : InvX q (some i)) (hs : (q.store i).state ≠ .removed) (j : Nat)
    (hl : live q j) : (q.store j).state ≠ .removed := by
  by_cases e : j = i
  · subst e; exact hs
  · exact h.notRemoved j hl (by simp only [some_ne]; exact e)

theorem pushDelay_ok {q : Q} {i : Nat} (h : InvX q (some i)) (hs : (q.store i).state = .delay) :
    Pushed q (q.pushDelay i) i := by
  have hn : i ∉ q.delay.arr := fun hm => ((h.memDelay i).1 hm).2.1 rfl
  obtain ⟨w, mem, -⟩ := push_member (less := lessDelay q.store) q.delay h.wfDelay hn
  have hl := h.xlive i rfl
  exact ⟨pushDelay_frame q i,
    { keys := h.keys, keyOf := h.keyOf, xlive := by intro j e; simp at e
      wfDelay := w, wfRun := h.wfRun, wfBury := h.wfBury, wfDep := h.wfDep, wfReady := h.wfReady
      memDelay := fun j => (mem j).trans ((or_congr_left (h.memDelay j)).trans (nm_push_self hl hs j))
      memRun := fun j => (h.memRun j).trans (nm_push (by rw [hs]; simp) j)
      memBury := fun j => (h.memBury j).trans (nm_push (by rw [hs]; simp) j)
      memDep := fun j => (h.memDep j).trans (nm_push (by rw [hs]; simp) j)
      memReady := fun g j => (h.memReady g j).trans (nm_push_ready (by rw [hs]; simp) g j)
      notRemoved := fun j hlj _ => notRemoved_push h (by rw [hs]; simp) j hlj
      dead := h.dead
      ordDelay := push_isHeap (swo_delay _) _ _ h.ordDelay
      ordRun := h.ordRun }, id⟩

theorem pushRun_ok {q : Q} {i : Nat} (h : InvX q (some i)) (hs : (q.store i).state = .run) :
    Pushed q (q.pushRun i) i := by
  have hn : i ∉ q.run.arr := fun hm => ((h.memRun i).1 hm).2.1 rfl
  obtain ⟨w, mem, -⟩ := push_member (less := lessRun q.store) q.run h.wfRun hn
  have hl := h.xlive i rfl
  exact ⟨pushRun_frame q i,
    { keys := h.keys, keyOf := h.keyOf, xlive := by intro j e; simp at e
      wfDelay := h.wfDelay, wfRun := w, wfBury := h.wfBury, wfDep := h.wfDep, wfReady := h.wfReady
      memRun := fun j => (mem j).trans ((or_congr_left (h.memRun j)).trans (nm_push_self hl hs j))
      memDelay := fun j => (h.memDelay j).trans (nm_push (by rw [hs]; simp) j)
      memBury := fun j => (h.memBury j).trans (nm_push (by rw [hs]; simp) j)
      memDep := fun j => (h.memDep j).trans (nm_push (by rw [hs]; simp) j)
      memReady := fun g j => (h.memReady g j).trans (nm_push_ready (by rw [hs]; simp) g j)
      notRemoved := fun j hlj _ => notRemoved_push h (by rw [hs]; simp) j hlj
      dead := h.dead
      ordDelay := h.ordDelay
      ordRun := push_isHeap (swo_run _) _ _ h.ordRun }, id⟩

theorem slPush_member (h : IHeap) (w : WF h) {i : Nat} (hi : i ∉ h.arr) :
    WF (slPush h i) ∧ (∀ j, j ∈ (slPush h i).arr ↔ j ∈ h.arr ∨ j = i) :=
  ⟨rawPush_WF h i w hi, fun j => by simp [slPush, IHeap.rawPush]⟩

theorem pushBury_ok {q : Q} {i : Nat} (h : InvX q (some i)) (hs : (q.store i).state = .bury) :
    Pushed q (q.pushBury i) i := by
  have hn : i ∉ q.bury.arr := fun hm => ((h.memBury i).1 hm).2.1 rfl
  obtain ⟨w, mem⟩ := slPush_member q.bury h.wfBury hn
  have hl := h.xlive i rfl
  exact ⟨pushBury_frame q i,
    { keys := h.keys, keyOf := h.keyOf, xlive := by intro j e; simp at e
      wfDelay := h.wfDelay, wfRun := h.wfRun, wfBury := w, wfDep := h.wfDep, wfReady := h.wfReady
      memBury := fun j => (mem j).trans ((or_congr_left (h.memBury j)).trans (nm_push_self hl hs j))
      memDelay := fun j => (h.memDelay j).trans (nm_push (by rw [hs]; simp) j)
      memRun := fun j => (h.memRun j).trans (nm_push (by rw [hs]; simp) j)
      memDep := fun j => (h.memDep j).trans (nm_push (by rw [hs]; simp) j)
      memReady := fun g j => (h.memReady g j).trans (nm_push_ready (by rw [hs]; simp) g j)
      notRemoved := fun j hlj _ => notRemoved_push h (by rw [hs]; simp) j hlj
      dead := h.dead
      ordDelay := h.ordDelay
      ordRun := h.ordRun }, id⟩

theorem pushDep_ok {q : Q} {i : Nat} (h : InvX q (some i)) (hs : (q.store i).state = .dependent) :
    Pushed q (q.pushDep i) i := by
  have hn : i ∉ q.dep.arr := fun hm => ((h.memDep i).1 hm).2.1 rfl
  obtain ⟨w, mem⟩ := slPush_member q.dep h.wfDep hn
  have hl := h.xlive i rfl
  exact ⟨pushDep_frame q i,
    { keys := h.keys, keyOf := h.keyOf, xlive := by intro j e; simp at e
      wfDelay := h.wfDelay, wfRun := h.wfRun, wfBury := h.wfBury, wfDep := w, wfReady := h.wfReady
      memDep := fun j => (mem j).trans ((or_congr_left (h.memDep j)).trans (nm_push_self hl hs j))
      memDelay := fun j => (h.memDelay j).trans (nm_push (by rw [hs]; simp) j)
      memRun := fun j => (h.memRun j).trans (nm_push (by rw [hs]; simp) j)
      memBury := fun j => (h.memBury j).trans (nm_push (by rw [hs]; simp) j)
      memReady := fun g j => (h.memReady g j).trans (nm_push_ready (by rw [hs]; simp) g j)
      notRemoved := fun j hlj _ => notRemoved_push h (by rw [hs]; simp) j hlj
      dead := h.dead
      ordDelay := h.ordDelay
      ordRun := h.ordRun }, id⟩

theorem pushReady_ok {q : Q} {i : Nat} (h : InvX q (some i)) (hs : (q.store i).state = .ready) :
    Pushed q (q.pushReady i) i := by
  have hn : i ∉ (q.rheap (q.store i).group).arr := fun hm => ((h.memReady _ i).1 hm).2.1 rfl
  obtain ⟨w, mem, oth⟩ := push_member (less := lessReady q.store) (q.rheap (q.store i).group) (h.wfReady _) hn
  have hl := h.xlive i rfl
  refine ⟨pushReady_frame q i,
    { keys := h.keys, keyOf := h.keyOf, xlive := by intro j e; simp at e
      wfDelay := h.wfDelay, wfRun := h.wfRun, wfBury := h.wfBury, wfDep := h.wfDep
      wfReady := setR_wf h.wfReady w (by
        intro g' hg j hj
        have hj' := (h.memReady _ j).1 hj
        apply oth
        · intro e; exact hj'.2.1 (by rw [e])
        · intro hj2; exact hg (hj'.2.2.2.symm.trans ((h.memReady _ j).1 hj2).2.2.2))
      memDelay := fun j => (h.memDelay j).trans (nm_push (by rw [hs]; simp) j)
      memRun := fun j => (h.memRun j).trans (nm_push (by rw [hs]; simp) j)
      memBury := fun j => (h.memBury j).trans (nm_push (by rw [hs]; simp) j)
      memDep := fun j => (h.memDep j).trans (nm_push (by rw [hs]; simp) j)
      memReady := ?_
      notRemoved := fun j hlj _ => notRemoved_push h (by rw [hs]; simp) j hlj
      dead := h.dead
      ordDelay := h.ordDelay
      ordRun := h.ordRun }, ?_⟩
  · intro g j
    show j ∈ (if g = (q.store i).group then _ else _) ↔ live q j ∧ _ ∧ (q.store j).state = _ ∧ (q.store j).group = g
    have hmr := h.memReady g j
    have hself := nm_push_self hl hs j
    by_cases hg : g = (q.store i).group
    · rw [if_pos hg, mem j]
      subst hg
      rw [show (j ∈ (q.rheap (q.store i).group).arr) = (j ∈ q.ready (q.store i).group) from rfl, hmr]
      grind
    · rw [if_neg hg, hmr]
      grind
  · intro ho g
    show IsHeap (lessReady q.store) (if g = (q.store i).group then _ else _)
    by_cases hg : g = (q.store i).group
    · rw [if_pos hg]; exact push_isHeap (swo_ready _) _ _ (ho _)
    · rw [if_neg hg]; exact ho g

end Verif.Queue
