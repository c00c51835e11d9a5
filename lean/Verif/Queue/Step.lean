import Verif.Queue.Ops5
/-! One step of the queue, as a relation: either it fails with the documented error and changes nothing, or it has the
listed effect. -/
namespace Verif.Queue
open Verif.Heap

/-- C07's table: the error that an operation must return in a given state; `none` means that it must succeed. -/
def expectErr (q : Q) (op : Op) : Option Err :=
  let key (k : String) (ok : State → Option Err) : Option Err :=
    if q.closed then some .queueClosed
    else match q.find k with
      | none => some .notFound
      | some i => ok (q.store i).state
  match op with
  | .add d => if q.closed then some .queueClosed else if (q.find d.key).isSome then some .alreadyExists else none
  | .addMany _ => if q.closed then some .queueClosed else none
  | .update k .. => key k fun _ => none
  | .changeKey o n =>
    if q.closed then some .queueClosed
    else if (q.find n).isSome then some .alreadyExists
    else if (q.find o).isSome then none else some .notFound
  | .setDelay k _ => key k fun _ => none
  | .setReserveGroup k _ => key k fun _ => none
  | .reserve g => if q.closed then some .queueClosed else if q.ready g = [] then some .nothingReady else none
  | .touch k => key k fun s => if s = .run then none else some .notRunning
  | .release k => key k fun s => if s = .run then none else some .notRunning
  | .bury k => key k fun s => if s = .run then none else some .notRunning
  | .kick k => key k fun s => if s = .bury then none else some .notBuried
  | .remove k _ => key k fun _ => none
  | .delayTick => none
  | .ttrTick _ => none
  | .destroy => if q.closed then some .queueClosed else none

theorem step_fail {q : Q} {now : Int} {op : Op} {e : Err} (h : expectErr q op = some e) :
    step q now op = some ⟨q, .err e, [], false⟩ := by
  cases op <;> simp only [expectErr, step] at h ⊢
  case add d => unfold Q.add; split at h <;> simp_all
  case addMany ds => unfold Q.addMany; split at h <;> simp_all
  case update k g d p dl t ds => unfold Q.update; cases hc : q.closed <;> cases hf : q.find k <;> simp_all
  case changeKey o n => unfold Q.changeKey; cases hc : q.closed <;> cases hn : q.find n <;> cases ho : q.find o <;> simp_all
  case setDelay k d => unfold Q.setDelay; cases hc : q.closed <;> cases hf : q.find k <;> simp_all
  case setReserveGroup k g => unfold Q.setReserveGroup; cases hc : q.closed <;> cases hf : q.find k <;> simp_all
  case reserve g => unfold Q.reserve; cases hc : q.closed <;> by_cases hr : q.ready g = [] <;> simp_all
  case touch k => unfold Q.touch; cases hc : q.closed <;> cases hf : q.find k <;> simp_all
  case release k => unfold Q.release; cases hc : q.closed <;> cases hf : q.find k <;> simp_all
  case bury k => unfold Q.buryItem; cases hc : q.closed <;> cases hf : q.find k <;> simp_all
  case kick k => unfold Q.kick; cases hc : q.closed <;> cases hf : q.find k <;> simp_all
  case remove k o => unfold Q.remove; cases hc : q.closed <;> cases hf : q.find k <;> simp_all
  case delayTick => simp at h
  case ttrTick cb => simp at h
  case destroy => unfold Q.destroy; split at h <;> simp_all

/-- The operations that change one item and move it between sub-queues: operation, item, change, events, whether
`readyAdded` is called, result. -/
inductive Move (q : Q) (now : Int) : Op → Nat → (Item → Item) → List Ev → Bool → Res → Prop
  | touch {k i} : q.find k = some i → (q.store i).state = .run →
      Move q now (.touch k) i (Item.touch now) [] false .ok
  | releaseReady {k i} : q.find k = some i → (q.store i).state = .run → (q.store i).delay = 0 →
      Move q now (.release k) i Item.switchRunReady [⟨.run, .ready, [i]⟩] true .ok
  | releaseDelay {k i} : q.find k = some i → (q.store i).state = .run → (q.store i).delay ≠ 0 →
      Move q now (.release k) i (fun it => (it.restart now).switchRunDelay false) [⟨.run, .delay, [i]⟩] false .ok
  | bury {k i} : q.find k = some i → (q.store i).state = .run →
      Move q now (.bury k) i (Item.switchRunBury false) [⟨.run, .bury, [i]⟩] false .ok
  | kickDep {k i} : q.find k = some i → (q.store i).state = .bury → q.hasDeps i = true →
      Move q now (.kick k) i Item.switchBuryDependent [⟨.bury, .dependent, [i]⟩] false .ok
  | kickReady {k i} : q.find k = some i → (q.store i).state = .bury → q.hasDeps i = false →
      Move q now (.kick k) i Item.switchBuryReady [⟨.bury, .ready, [i]⟩] true .ok
  | reserve {g i} : live q i → (q.store i).state = .ready → (q.store i).group = g → (q.ready g)[0]? = some i →
      Move q now (.reserve g) i (fun it => (it.touch now).switchReadyRun) [⟨.ready, .run, [i]⟩] false (.item i)
  | setDelay {k i d} : q.find k = some i →
      Move q now (.setDelay k d) i (fun it => if it.delay = d then it
        else if it.state = .delay then { it with delay := d, readyAt := some (now + d) } else { it with delay := d })
        [] false .ok
  | setReserveGroup {k i g} : q.find k = some i →
      Move q now (.setReserveGroup k g) i (fun it => { it with group := g }) [] false .ok

/-- what `AddMany` does -/
structure ManyAdded (q q' : Q) (ds : List Def) (now : Int) (n : Nat) (l : List (Nat × SubQ)) : Prop where
  le : n ≤ ds.length
  len : l.length = n
  inv : Inv q'
  ready : ReadyOrd q → ReadyOrd q'
  next : q'.next = q.next + n
  closed : q'.closed = q.closed
  old : ∀ j, j < q.next → q'.store j = q.store j
  keep : ∀ k i, q.find k = some i → q'.find k = some i
  absent : ∀ k, q.find k = none → (q'.find k = none ↔ ∀ d ∈ ds, d.key ≠ k)
  new : ∀ k i, q.find k = none → q'.find k = some i →
    ∃ d, ds.find? (fun d => d.key = k) = some d ∧ q'.store i = placed d now true (mkItem d now) ∧ q.next ≤ i
  listed : ∀ p ∈ l, q.next ≤ p.1 ∧ p.1 < q'.next ∧ live q' p.1 ∧ (q'.store p.1).state.sub = p.2
  cover : ∀ j, q.next ≤ j → j < q'.next → j ∈ l.map (·.1)
  nodup : (l.map (·.1)).Nodup

/-- what `Remove` does -/
structure RemovedKey (q q' : Q) (key : String) (order : List Nat) (i : Nat) (added : List Nat) (s : SubQ) : Prop where
  inv : Inv q'
  ready : ReadyOrd q → ReadyOrd q'
  find : ∀ k, q'.find k = if k = key then none else q.find k
  next : q'.next = q.next
  closed : q'.closed = q.closed
  other : ∀ j, j ≠ i → q'.store j = if j ∈ q.visit key order then (q.store j).settleDep key else q.store j
  self : q'.store i = Item.removalCleanup (if i ∈ q.visit key order then (q.store i).settleDep key else q.store i)
  dependants : q'.dependants = unlinkParents (mdel q.dependants key) key (q.store i).dependencies
  nodup : added.Nodup
  mem : ∀ j, j ∈ added ↔ j ∈ q.visit key order ∧ (q.store j).state = .dependent ∧ ((q.store j).resolve key).remaining = []
  src : s = (if i ∈ q.visit key order then (q.store i).settleDep key else q.store i).state.sub

/-- a batch of items changed by `f` -/
structure Batch (q q' : Q) (l : List Nat) (f : Item → Item) : Prop where
  inv : Inv q'
  ready : ReadyOrd q → ReadyOrd q'
  items : q'.items = q.items
  next : q'.next = q.next
  closed : q'.closed = q.closed
  dependants : q'.dependants = q.dependants
  store : ∀ j, q'.store j = if j ∈ l then f (q.store j) else q.store j
  nodup : l.Nodup

/-- The effect of one step from a state satisfying the invariant. -/
inductive Eff (q : Q) (now : Int) : Op → Out → Prop
  | fail {op e} : expectErr q op = some e → Eff q now op ⟨q, .err e, [], false⟩
  | add {d q' s} : q.closed = false → q.find d.key = none → Added q q' d now false → (q'.store q.next).state.sub = s →
      Eff q now (.add d) ⟨q', .item q.next, [⟨.new, s, [q.next]⟩], s = .ready⟩
  | addMany {ds q' n l} : q.closed = false → ManyAdded q q' (ds.map fun d => { d with size := 0 }) now n l →
      Eff q now (.addMany ds) ⟨q', .counts n (ds.length - n), manyEvs l, l.any (fun p => p.2 = .ready)⟩
  | move {op i f evs ra res q'} : q.closed = false → Move q now op i f evs ra res → Moved q q' i f →
      Eff q now op ⟨q', res, evs, ra⟩
  | update {key group data priority delay ttr deps i q' ra} : q.closed = false → q.find key = some i →
      Updated q q' i (Item.updated group data priority delay ttr deps now) →
      (ra = true ↔ deps = some [] ∧ (q.store i).depsChange [] = true) →
      (¬ StaleFix q i group priority delay → ReadyOrd q → ReadyOrd q') →
      q'.dependants = updDependants q key i deps →
      Eff q now (.update key group data priority delay ttr deps) ⟨q', .ok, updateEvs i (q.store i) deps, ra⟩
  | changeKey {old new i q'} : q.closed = false → q.find new = none → q.find old = some i → Renamed q q' old new i →
      Eff q now (.changeKey old new) ⟨q', .ok, [], false⟩
  | remove {key order i added s q'} : q.closed = false → q.find key = some i → RemovedKey q q' key order i added s →
      Eff q now (.remove key order) ⟨q', .ok,
        ⟨s, .removed, [i]⟩ :: (if added = [] then [] else [⟨.dependent, .ready, added⟩]), added ≠ []⟩
  | delayTick {l q'} : Batch q q' l Item.switchDelayReady →
      (∀ j, j ∈ l ↔ live q j ∧ (q.store j).state = .delay ∧ (q.store j).isready now = true) →
      Eff q now .delayTick ⟨q', .ok, if l = [] then [] else [⟨.delay, .ready, l⟩], l ≠ []⟩
  | ttrTick {cb : Nat → Target} {l q'} :
      Batch q q' (l.map (·.1)) (fun it => it.timeout now (cb it.data)) →
      (∀ p ∈ l, p.2 = cb (q.store p.1).data) →
      (∀ j, j ∈ l.map (·.1) ↔ live q j ∧ (q.store j).state = .run ∧ (q.store j).releasable now = true) →
      Eff q now (.ttrTick cb) ⟨q', .ok, ttrEv l .delay .delay ++ ttrEv l .bury .bury ++ ttrEv l .ready .ready,
        l.any (fun p => p.2 = .ready)⟩
  | destroy {q'} : q.closed = false → q'.closed = true → q'.items = [] → q'.store = q.store → q'.next = q.next →
      Inv q' → (ReadyOrd q → ReadyOrd q') → Eff q now .destroy ⟨q', .ok, [], false⟩

/-- running items have a release time -/
def Timed (q : Q) : Prop := ∀ j, (q.store j).state = .run → (q.store j).releaseAt ≠ none

/-- the step does not hit the defect of `Update` with an empty list of dependencies -/
def Safe (q : Q) : Op → Prop
  | .update k _ _ _ _ _ ds => ∀ i, q.find k = some i → ¬ BadDeps q i ds
  | _ => True

/-- the step does not re-sort the wrong group of the ready sub-queue -/
def Fresh (q : Q) : Op → Prop
  | .update k g _ p d _ _ => ∀ i, q.find k = some i → ¬ StaleFix q i g p d
  | _ => True

theorem keyOk {q : Q} {k : String} {ok : State → Option Err}
    (h : (if q.closed then some Err.queueClosed else match q.find k with
      | none => some .notFound
      | some i => ok (q.store i).state) = none) :
    q.closed = false ∧ ∃ i, q.find k = some i ∧ ok (q.store i).state = none := by
  split at h
  · simp at h
  · rename_i hc
    split at h
    · simp at h
    · rename_i i e; exact ⟨by simpa using hc, i, e, h⟩

theorem step_eff {q : Q} {now : Int} {op : Op} (h : Inv q) (ht : Timed q) (hs : Safe q op) :
    (∀ o, step q now op = some o → Eff q now op o) ∧ (Fresh q op → ∃ o, step q now op = some o) := by
  cases he : expectErr q op with
  | some e =>
    have := step_fail (now := now) he
    rw [this]
    exact ⟨fun o ho => by injection ho with ho; subst ho; exact .fail he, fun _ => ⟨_, rfl⟩⟩
  | none =>
    have ok1 : ∀ o0, step q now op = some o0 → Eff q now op o0 →
        (∀ o, step q now op = some o → Eff q now op o) ∧ (Fresh q op → ∃ o, step q now op = some o) := by
      intro o0 e1 e2
      exact ⟨fun o ho => by rw [e1] at ho; injection ho with ho; subst ho; exact e2, fun _ => ⟨_, e1⟩⟩
    cases op <;> simp only [expectErr] at he
    case add d =>
      split at he
      · simp at he
      · rename_i hc
        split at he
        · simp at he
        · rename_i hf
          obtain ⟨q', s, e, a, b⟩ := add_ok h d now (by simpa using hc) (by simpa using hf)
          exact ok1 _ (by simp only [step]; rw [e]) (.add (by simpa using hc) (by simpa using hf) a b)
    case addMany ds =>
      split at he
      · simp at he
      · rename_i hc
        obtain ⟨q', n, l', e, a1, a2, a3, a4, a5, a6, a7, a8, a9, a10, a11, a12, a13⟩ :=
          addLoop_ok now (ds.map fun d => { d with size := 0 }) q 0 0 [] h
        refine ok1 ⟨q', .counts n (ds.length - n), manyEvs l', l'.any (fun p => p.2 = .ready)⟩ ?_
          (.addMany (by simpa using hc) ⟨a1, a2, a3, a4, a5, a6, a7, a8, a9, a10, a11, a12, a13⟩)
        simp only [step]; unfold Q.addMany
        rw [if_neg hc]; simp only [e]; simp
    case update k g d p dl t ds =>
      obtain ⟨hc, i, hf, -⟩ := keyOk (ok := fun _ => none) he
      obtain ⟨a, b⟩ := update_spec (group := g) (data := d) (priority := p) (delay := dl) (ttr := t) (now := now) h hc hf (hs i hf)
      refine ⟨?_, fun hfr => b (hfr i hf)⟩
      intro o ho
      obtain ⟨ra, e, u, h1, h2, h3⟩ := a o ho
      rw [e]
      exact .update hc hf u h1 h2 h3
    case changeKey o n =>
      split at he
      · simp at he
      · rename_i hc
        split at he
        · simp at he
        · rename_i hn
          split at he
          · rename_i ho
            obtain ⟨i, ho⟩ := Option.isSome_iff_exists.1 ho
            obtain ⟨q', e, r⟩ := changeKey_ok h (by simpa using hc) (by simpa using hn) ho
            exact ok1 _ (by simp only [step]; rw [e]) (.changeKey (by simpa using hc) (by simpa using hn) ho r)
          · simp at he
    case setDelay k d =>
      obtain ⟨hc, i, hf, -⟩ := keyOk (ok := fun _ => none) he
      obtain ⟨q', e, m⟩ := setDelay_ok (d := d) (now := now) h hc hf
      exact ok1 _ e (.move hc (.setDelay hf) m)
    case setReserveGroup k g =>
      obtain ⟨hc, i, hf, -⟩ := keyOk (ok := fun _ => none) he
      obtain ⟨q', e, m⟩ := setReserveGroup_ok (g := g) h hc hf
      exact ok1 _ e (.move hc (.setReserveGroup hf) m)
    case reserve g =>
      split at he
      · simp at he
      · rename_i hc
        split at he
        · simp at he
        · rename_i hne
          obtain ⟨i, q', e, h0, hl, hst, hg, m⟩ := reserve_ok (now := now) h (by simpa using hc) hne
          exact ok1 _ e (.move (by simpa using hc) (.reserve hl hst hg h0) m)
    case touch k =>
      obtain ⟨hc, i, hf, hst⟩ := keyOk (ok := fun s => if s = .run then none else some .notRunning) he
      have hst : (q.store i).state = .run := by split at hst <;> simp_all
      obtain ⟨q', e, m⟩ := touch_ok (now := now) h hc hf hst
      exact ok1 _ e (.move hc (.touch hf hst) m)
    case release k =>
      obtain ⟨hc, i, hf, hst⟩ := keyOk (ok := fun s => if s = .run then none else some .notRunning) he
      have hst : (q.store i).state = .run := by split at hst <;> simp_all
      obtain ⟨a, b⟩ := release_ok (now := now) h hc hf hst
      by_cases hd : (q.store i).delay = 0
      · obtain ⟨q', e, m⟩ := a hd
        exact ok1 _ e (.move hc (.releaseReady hf hst hd) m)
      · obtain ⟨q', e, m⟩ := b hd
        exact ok1 _ e (.move hc (.releaseDelay hf hst hd) m)
    case bury k =>
      obtain ⟨hc, i, hf, hst⟩ := keyOk (ok := fun s => if s = .run then none else some .notRunning) he
      have hst : (q.store i).state = .run := by split at hst <;> simp_all
      obtain ⟨q', e, m⟩ := bury_ok h hc hf hst
      exact ok1 _ e (.move hc (.bury hf hst) m)
    case kick k =>
      obtain ⟨hc, i, hf, hst⟩ := keyOk (ok := fun s => if s = .bury then none else some .notBuried) he
      have hst : (q.store i).state = .bury := by split at hst <;> simp_all
      obtain ⟨a, b⟩ := kick_ok h hc hf hst
      cases hd : q.hasDeps i
      · obtain ⟨q', e, m⟩ := b hd
        exact ok1 _ e (.move hc (.kickReady hf hst hd) m)
      · obtain ⟨q', e, m⟩ := a hd
        exact ok1 _ e (.move hc (.kickDep hf hst hd) m)
    case remove k order =>
      obtain ⟨hc, i, hf, -⟩ := keyOk (ok := fun _ => none) he
      obtain ⟨q', added, s, e, a1, a2, a3, a4, a5, a6, a7, a8, a9, a10, a11⟩ := remove_ok order h hc hf
      exact ok1 _ e (.remove hc hf ⟨a1, a2, a3, a4, a5, a6, a7, a8, a9, a10, a11⟩)
    case delayTick =>
      obtain ⟨q', l', e, a1, a2, a3, a4, a5, a6, a7, a8, a9⟩ := delayLoop_ok now q.delay.arr.length q [] h rfl
      refine ok1 ⟨q', .ok, if l' = [] then [] else [⟨.delay, .ready, l'⟩], l' ≠ []⟩ ?_
        (.delayTick ⟨a1, a2, a3, a4, a5, a6, a7, a8⟩ ?_)
      · simp only [step, Q.delayTick, e, Option.map_some, List.nil_append]
      · intro j; rw [a9, h.memDelay]; simp [and_assoc]
    case ttrTick cb =>
      have hd : dueRun q now ≤ q.run.arr.length := List.length_filter_le _ _
      obtain ⟨q', l', e, a1, a2, a3, a4, a5, a6, a7, a8, a9, a10⟩ := ttrLoop_ok now cb q.run.arr.length q [] h
        (fun j hj => ht j ((h.memRun j).1 hj).2.2) hd (Nat.le_refl _)
      refine ok1 ⟨q', .ok, ttrEv l' .delay .delay ++ ttrEv l' .bury .bury ++ ttrEv l' .ready .ready,
        l'.any (fun p => p.2 = .ready)⟩ ?_ (.ttrTick ⟨a1, a2, a3, a4, a5, a6, a7, a8⟩ a9 ?_)
      · simp only [step, Q.ttrTick, e, Option.map_some, List.nil_append]
      · intro j; rw [a10, h.memRun]; simp [and_assoc]
    case destroy =>
      split at he
      · simp at he
      · rename_i hc
        have hi := destroy_inv h
        refine ok1 _ rfl ?_
        have : q.destroy = ⟨q.destroy.q, .ok, [], false⟩ := by unfold Q.destroy; simp [hc]
        rw [this]
        have hc' : q.closed = false := by simpa using hc
        exact .destroy hc' (by simp [Q.destroy, hc']) (by simp [Q.destroy, hc']) (by simp [Q.destroy, hc']) (by simp [Q.destroy, hc']) hi.1 hi.2

theorem Eff.inv {q : Q} {now op o} (h : Inv q) (e : Eff q now op o) : Inv o.q := by
  cases e with
  | fail _ => exact h
  | add _ _ a _ => exact a.inv
  | addMany _ a => exact a.inv
  | move _ _ m => exact m.inv
  | update _ _ u _ _ _ => exact u.inv
  | changeKey _ _ _ r => exact r.inv
  | remove _ _ r => exact r.inv
  | delayTick b _ => exact b.inv
  | ttrTick b _ _ => exact b.inv
  | destroy _ _ _ _ _ h _ => exact h

theorem Eff.readyOrd {q : Q} {now op o} (e : Eff q now op o) (hf : Fresh q op) (ho : ReadyOrd q) : ReadyOrd o.q := by
  cases e with
  | fail _ => exact ho
  | add _ _ a _ => exact a.ready ho
  | addMany _ a => exact a.ready ho
  | move _ _ m => exact m.ready ho
  | update _ hk _ _ r _ => exact r (hf _ hk) ho
  | changeKey _ _ _ r => exact r.ready ho
  | remove _ _ r => exact r.ready ho
  | delayTick b _ => exact b.ready ho
  | ttrTick b _ _ => exact b.ready ho
  | destroy _ _ _ _ _ _ r => exact r ho

end Verif.Queue
