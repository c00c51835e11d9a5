import Verif.Queue.Ops
/-! What the operations that add, rename, update and remove items, and the two timers, do. -/
namespace Verif.Queue
open Verif.Heap

/-- the sub-queue a state names -/
def State.sub : State → SubQ
  | .delay => .delay | .ready => .ready | .run => .run | .bury => .bury | .dependent => .dependent | .removed => .removed

/-- only item `i` (and the sub-queues, and the dependants lookup) changed; its key did not -/
structure Touches (q q' : Q) (i : Nat) : Prop where
  items : q'.items = q.items
  next : q'.next = q.next
  closed : q'.closed = q.closed
  other : ∀ j, j ≠ i → q'.store j = q.store j
  key : (q'.store i).key = (q.store i).key

theorem Touches.refl (q i) : Touches q q i := ⟨rfl, rfl, rfl, fun _ _ => rfl, rfl⟩
theorem Touches.trans {a b c : Q} {i} (h : Touches a b i) (h' : Touches b c i) : Touches a c i :=
  ⟨h'.items.trans h.items, h'.next.trans h.next, h'.closed.trans h.closed,
   fun j hj => (h'.other j hj).trans (h.other j hj), h'.key.trans h.key⟩
theorem Touches.find {q q' : Q} {i} (h : Touches q q' i) (k) : q'.find k = q.find k := by unfold Q.find; rw [h.items]
theorem Touches.keyAll {q q' : Q} {i} (h : Touches q q' i) (j) : (q'.store j).key = (q.store j).key := by
  by_cases e : j = i
  · subst e; exact h.key
  · rw [h.other j e]
theorem Touches.live {q q' : Q} {i} (h : Touches q q' i) (j) : live q' j ↔ live q j := by
  unfold Verif.Queue.live; rw [h.find, h.keyAll]
theorem Frame.touches {q q' : Q} {i} (h : Frame q q') : Touches q q' i :=
  ⟨h.items, h.next, h.closed, fun j _ => by rw [h.store], by rw [h.store]⟩
theorem touches_mod (q : Q) (i f) (hk : ∀ it, (f it).key = it.key) : Touches q (q.mod i f) i :=
  ⟨rfl, rfl, rfl, fun j hj => mod_other _ _ _ _ hj, by rw [mod_self, hk]⟩
theorem Moved.touches {q q' : Q} {i f} (h : Moved q q' i f) (hk : ∀ it, (f it).key = it.key) : Touches q q' i :=
  (touches_mod q i f hk).trans h.frame.touches
theorem touches_deps (q : Q) (i m) : Touches q { q with dependants := m } i := ⟨rfl, rfl, rfl, fun _ _ => rfl, rfl⟩

/-! ### Adding -/

theorem create_find (q : Q) (d : Def) (now : Int) (k : String) :
    (q.create d now).find k = if k = d.key then some q.next else q.find k := by
  unfold Q.find Q.create; exact mget_mset _ _ _ _

theorem create_store (q : Q) (d : Def) (now : Int) (j : Nat) :
    (q.create d now).store j = if j = q.next then mkItem d now else q.store j := rfl

theorem create_live {q : Q} {x} (h : InvX q x) (d : Def) (now : Int) (hn : q.find d.key = none) (j : Nat) :
    live (q.create d now) j ↔ j = q.next ∨ live q j := by
  have hnl : ¬ live q q.next := fun hl => absurd (live_lt h hl) (by omega)
  unfold live
  rw [create_find, create_store]
  by_cases e : j = q.next
  · subst e; simp [mkItem]
  · simp only [e, if_false, false_or]
    by_cases hk : (q.store j).key = d.key
    · rw [if_pos hk, hk, hn]
      constructor
      · intro e'; injection e' with e'; exact absurd e'.symm e
      · simp
    · rw [if_neg hk]

theorem create_ok {q : Q} (h : Inv q) (d : Def) (now : Int) (hn : q.find d.key = none) :
    InvX (q.create d now) (some q.next) ∧ (ReadyOrd q → ReadyOrd (q.create d now)) := by
  have hl := create_live h d now hn
  have hnl : ¬ live q q.next := fun hl => absurd (live_lt h hl) (by omega)
  have hst : ∀ j, live q j → (q.create d now).store j = q.store j := by
    intro j hj; rw [create_store, if_neg]; intro e; subst e; exact hnl hj
  have key : ∀ (s : State) (j : Nat), (live q j ∧ none ≠ some j ∧ (q.store j).state = s) ↔
      (live (q.create d now) j ∧ some q.next ≠ some j ∧ ((q.create d now).store j).state = s) := by
    intro s j
    rw [hl]; simp only [some_ne]
    constructor
    · rintro ⟨a, _, b⟩; exact ⟨Or.inr a, fun e => hnl (e ▸ a), by rw [hst j a]; exact b⟩
    · rintro ⟨a | a, b, c⟩
      · exact absurd a b
      · exact ⟨a, by simp, by rw [hst j a] at c; exact c⟩
  refine ⟨?_, ?_⟩
  · exact
      { keys := mset_nodup _ _ _ h.keys
        keyOf := by
          intro k j hk
          rw [create_find] at hk
          by_cases e : k = d.key
          · rw [if_pos e] at hk; injection hk with hk; subst hk
            rw [create_store, if_pos rfl]; exact ⟨e ▸ rfl, Nat.lt_succ_self _⟩
          · rw [if_neg e] at hk
            have := h.keyOf k j hk
            rw [hst j (h.live hk)]; exact ⟨this.1, Nat.lt_succ_of_lt this.2⟩
        xlive := by intro j e; injection e with e; subst e; exact (hl _).2 (Or.inl rfl)
        wfDelay := h.wfDelay, wfRun := h.wfRun, wfBury := h.wfBury, wfDep := h.wfDep, wfReady := h.wfReady
        memDelay := fun j => (h.memDelay j).trans (key _ j)
        memRun := fun j => (h.memRun j).trans (key _ j)
        memBury := fun j => (h.memBury j).trans (key _ j)
        memDep := fun j => (h.memDep j).trans (key _ j)
        memReady := by
          intro g j
          refine (h.memReady g j).trans ?_
          have := key .ready j
          constructor
          · rintro ⟨a, b, c, e⟩
            obtain ⟨a', b', c'⟩ := this.1 ⟨a, b, c⟩
            exact ⟨a', b', c', by rw [hst j a]; exact e⟩
          · rintro ⟨a, b, c, e⟩
            obtain ⟨a', b', c'⟩ := this.2 ⟨a, b, c⟩
            exact ⟨a', b', c', by rw [hst j a'] at e; exact e⟩
        notRemoved := by
          intro j hj hx
          rcases (hl j).1 hj with e | e
          · exact absurd (by rw [e]) hx
          · rw [hst j e]; exact h.notRemoved j e (by simp)
        dead := by
          intro hc j hj
          have : ¬ live q j ∧ j ≠ q.next := by
            constructor
            · exact fun a => hj ((hl j).2 (Or.inr a))
            · exact fun a => hj ((hl j).2 (Or.inl a))
          rw [create_store, if_neg this.2]; exact h.dead hc j this.1
        ordDelay := by
          refine IsHeap.congr h.ordDelay fun a ha b hb => ?_
          unfold lessDelay; rw [hst a ((h.memDelay a).1 ha).1, hst b ((h.memDelay b).1 hb).1]
        ordRun := by
          refine IsHeap.congr h.ordRun fun a ha b hb => ?_
          unfold lessRun; rw [hst a ((h.memRun a).1 ha).1, hst b ((h.memRun b).1 hb).1] }
  · intro ho g
    refine IsHeap.congr (ho g) fun a ha b hb => ?_
    unfold lessReady; rw [hst a ((h.memReady g a).1 ha).1, hst b ((h.memReady g b).1 hb).1]

/-- the fields of a freshly placed item -/
def placed (d : Def) (now : Int) (many : Bool) : Item → Item := fun it =>
  if d.deps ≠ [] then (it.setDependencies d.deps).switchDelayDependent
  else match d.start with
  | some true => ((it.switchDelayReady).touch now).switchReadyRun
  | some false => if many then ((it.switchDelayReady).switchReadyRun).switchRunBury false
      else (it.switchDelayReady).switchRunBury false
  | none => if d.delay = 0 then it.switchDelayReady else it

theorem place_ok {q : Q} {i : Nat} (h : InvX q (some i)) (d : Def) (now : Int) (many : Bool)
    (hs : (q.store i).state = .delay) :
    Inv (q.place i d now many).1 ∧ (ReadyOrd q → ReadyOrd (q.place i d now many).1) ∧
    (q.place i d now many).1.items = q.items ∧ (q.place i d now many).1.next = q.next ∧
    (q.place i d now many).1.closed = q.closed ∧
    (q.place i d now many).1.store = (q.mod i (placed d now many)).store ∧
    (q.place i d now many).1.dependants =
      (if d.deps ≠ [] then setQueueDeps q.dependants d.key i d.deps else q.dependants) ∧
    ((q.place i d now many).1.store i).state.sub = (q.place i d now many).2 := by
  by_cases hd : d.deps ≠ []
  · have e : q.place i d now many =
        ((({ q.mod i (Item.setDependencies d.deps) with
            dependants := setQueueDeps q.dependants d.key i d.deps } : Q).mod i Item.switchDelayDependent).pushDep i,
          .dependent) := by
      unfold Q.place; rw [if_pos hd]; rfl
    rw [e]
    have h1 : InvX ({ q.mod i (Item.setDependencies d.deps) with
        dependants := setQueueDeps q.dependants d.key i d.deps } : Q) (some i) :=
      (modLoose h (Item.setDependencies d.deps) (fun _ => rfl)).deps _
    have h2 := modLoose h1 Item.switchDelayDependent (fun _ => rfl)
    have p := pushDep_ok h2 (by rw [mod_self]; rfl)
    refine ⟨p.inv, fun ho => p.ready (modLoose_ready h1 _ (modLoose_ready h _ ho)), rfl, rfl, rfl, ?_, ?_, ?_⟩
    · rw [p.frame.store]; funext j
      by_cases hj : j = i
      · subst hj; simp [Q.mod, placed, hd]
      · simp [Q.mod, hj]
    · rw [if_pos hd]; rfl
    · rw [p.frame.store, mod_self]; rfl
  · have hd : d.deps = [] := by simpa using hd
    rcases hst : d.start with _ | _ | _
    · by_cases h0 : d.delay = 0
      · have e : q.place i d now many = ((q.mod i Item.switchDelayReady).pushReady i, .ready) := by
          unfold Q.place; simp [hd, hst, h0]
        rw [e]
        have h2 := modLoose h Item.switchDelayReady (fun _ => rfl)
        have p := pushReady_ok h2 (by rw [mod_self]; rfl)
        refine ⟨p.inv, fun ho => p.ready (modLoose_ready h _ ho), rfl, rfl, rfl, ?_, by simp [hd]; rfl, ?_⟩
        · rw [p.frame.store]; funext j
          by_cases hj : j = i
          · subst hj; simp [Q.mod, placed, hd, hst, h0]
          · simp [Q.mod, hj]
        · rw [p.frame.store, mod_self]; rfl
      · have e : q.place i d now many = (q.pushDelay i, .delay) := by
          unfold Q.place; simp [hd, hst, h0]
        rw [e]
        have p := pushDelay_ok h hs
        refine ⟨p.inv, fun ho => p.ready ho, rfl, rfl, rfl, ?_, by simp [hd]; rfl, ?_⟩
        · rw [p.frame.store]; funext j
          by_cases hj : j = i
          · subst hj; simp [Q.mod, placed, hd, hst, h0]
          · simp [Q.mod, hj]
        · rw [p.frame.store, hs]; rfl
    · have e : q.place i d now many = ((q.mod i fun it =>
          if many then ((it.switchDelayReady).switchReadyRun).switchRunBury false
          else (it.switchDelayReady).switchRunBury false).pushBury i, .bury) := by
        unfold Q.place; simp [hd, hst]
      rw [e]
      have h2 := modLoose h (fun it => if many then ((it.switchDelayReady).switchReadyRun).switchRunBury false
          else (it.switchDelayReady).switchRunBury false)
        (fun it => by split <;> (rw [key_switchRunBury]; rfl))
      have hbs : ((q.mod i fun it => if many then ((it.switchDelayReady).switchReadyRun).switchRunBury false
          else (it.switchDelayReady).switchRunBury false).store i).state = .bury := by
        rw [mod_self]; split <;> exact state_switchRunBury _ _
      have p := pushBury_ok h2 hbs
      refine ⟨p.inv, fun ho => p.ready (modLoose_ready h _ ho), rfl, rfl, rfl, ?_, by simp [hd]; rfl, ?_⟩
      · rw [p.frame.store]; funext j
        by_cases hj : j = i
        · subst hj; simp [Q.mod, placed, hd, hst]
        · simp [Q.mod, hj]
      · rw [p.frame.store, hbs]; rfl
    · have e : q.place i d now many =
          ((q.mod i fun it => ((it.switchDelayReady).touch now).switchReadyRun).pushRun i, .run) := by
        unfold Q.place; simp [hd, hst]
      rw [e]
      have h2 := modLoose h (fun it => ((it.switchDelayReady).touch now).switchReadyRun) (fun _ => rfl)
      have p := pushRun_ok h2 (by rw [mod_self]; rfl)
      refine ⟨p.inv, fun ho => p.ready (modLoose_ready h _ ho), rfl, rfl, rfl, ?_, by simp [hd]; rfl, ?_⟩
      · rw [p.frame.store]; funext j
        by_cases hj : j = i
        · subst hj; simp [Q.mod, placed, hd, hst]
        · simp [Q.mod, hj]
      · rw [p.frame.store, mod_self]; rfl

/-- `q'` is `q` with the new item `q.next` described by `d`. -/
structure Added (q q' : Q) (d : Def) (now : Int) (many : Bool) : Prop where
  inv : Inv q'
  ready : ReadyOrd q → ReadyOrd q'
  find : ∀ k, q'.find k = if k = d.key then some q.next else q.find k
  items : q'.items = mset q.items d.key q.next
  next : q'.next = q.next + 1
  closed : q'.closed = q.closed
  store : ∀ j, q'.store j = if j = q.next then placed d now many (mkItem d now) else q.store j
  dependants : q'.dependants = if d.deps ≠ [] then setQueueDeps q.dependants d.key q.next d.deps else q.dependants

theorem add_core {q : Q} (h : Inv q) (d : Def) (now : Int) (many : Bool) (hn : q.find d.key = none) :
    Added q ((q.create d now).place q.next d now many).1 d now many ∧
    (((q.create d now).place q.next d now many).1.store q.next).state.sub = ((q.create d now).place q.next d now many).2 := by
  obtain ⟨hx, ho⟩ := create_ok h d now hn
  obtain ⟨a, b, c, e, f, g, k, l⟩ := place_ok hx d now many (by rw [create_store, if_pos rfl]; rfl)
  refine ⟨⟨a, fun h => b (ho h), ?_, by rw [c]; rfl, by rw [e]; rfl, by rw [f]; rfl, ?_, by rw [k]; rfl⟩, l⟩
  · intro k; unfold Q.find; rw [c]; exact create_find q d now k
  · intro j; rw [g]; by_cases e : j = q.next
    · subst e; rw [mod_self, create_store, if_pos rfl, if_pos rfl]
    · rw [mod_other _ _ _ _ e, create_store, if_neg e, if_neg e]

theorem add_ok {q : Q} (h : Inv q) (d : Def) (now : Int) (hc : q.closed = false) (hn : q.find d.key = none) :
    ∃ q' s, q.add d now = ⟨q', .item q.next, [⟨.new, s, [q.next]⟩], s = .ready⟩ ∧ Added q q' d now false ∧
      (q'.store q.next).state.sub = s := by
  obtain ⟨a, b⟩ := add_core h d now false hn
  refine ⟨_, _, ?_, a, b⟩
  unfold Q.add; simp [hc, hn]

end Verif.Queue
