import Verif.Queue.StatsLemmas
/-! Property C140: what an item's statistics tell is what happened to it. -/
namespace Verif.Queue
open Verif.Heap

/-- the call listed the item as added -/
def AddedBy (o : Out) (i : Nat) : Prop := ∃ e ∈ o.evs, e.src = .new ∧ i ∈ e.who

/-- what happened in one step -/
def Out.happened (o : Out) (now : Int) (op : Op) : List Happened := o.evs.map fun e => ⟨now, op, e⟩

theorem some_of_any {α} {x : Option α} {P : α → Bool} (h : x.any P = true) : ∃ a, x = some a ∧ P a = true := by
  cases x with
  | none => simp at h
  | some a => exact ⟨a, rfl, by simpa using h⟩

/-! ### Counters -/

/-- **C140** From the moment an item is added, and through every history of calls (whatever was done before), its five counters are the numbers
    of its moves told to the changed callback: Reserves is how often it entered the run sub-queue (and one if AddMany added it buried), Buries how often it
    entered the bury sub-queue, Kicks how often it left that to wait again, Timeouts how often its time to run ended (and how often
    Release made it ready at once), Releases how often Release delayed it or Update made it wait for other items while it ran. -/
theorem C140_counted {q q' : Q} {now op o h tr i} (hs : step q now op = some o) (ha : AddedBy o i) (ht : traceFrom o.q h = some (q', tr)) (t : Int) :
    ((q'.store i).stats t).reserves = times (fun op e => e.dst = .run || (op.isMany && e.src = .new && e.dst = .bury)) (o.happened now op ++ tr) i ∧
    ((q'.store i).stats t).buries = times (fun _ e => e.dst = .bury) (o.happened now op ++ tr) i ∧
    ((q'.store i).stats t).kicks = times (fun _ e => e.src = .bury && (e.dst = .ready || e.dst = .dependent)) (o.happened now op ++ tr) i ∧
    ((q'.store i).stats t).timeouts = times (fun op e => e.src = .run && (op.isTtr || (op.isRelease && e.dst = .ready))) (o.happened now op ++ tr) i ∧
    ((q'.store i).stats t).releases = times (fun op e => e.src = .run && ((op.isRelease && e.dst = .delay) || e.dst = .dependent)) (o.happened now op ++ tr) i := by
  have a := step_acc hs
  obtain ⟨e, he, hn, hi⟩ := ha
  have hb := a.listed e he hn i hi
  have hc : ∀ k, Kind.of k (q'.store i) = tally k (o.happened now op ++ tr) i := fun k => by
    rw [(trace_cnt h ht i hb.2).1, (a.new i hb.1 hb.2).1, tally_append, Out.happened, tally_step]
  exact ⟨hc .reserve, hc .bury, hc .kick, hc .timeout, hc .release⟩

theorem times_congr {p p' : Op → Ev → Bool} {tr : List Happened} {i} (h : ∀ x ∈ tr, i ∈ x.ev.who → p x.op x.ev = p' x.op x.ev) : times p tr i = times p' tr i := by
  induction tr with
  | nil => rfl
  | cons x tr ih =>
    simp only [times]
    rw [ih fun y hy => h y (List.mem_cons_of_mem _ hy)]
    congr 1
    by_cases hi : i ∈ x.ev.who
    · rw [h x (List.mem_cons_self ..) hi]
    · rw [List.count_eq_zero_of_not_mem hi]; simp

/-- **C140** As long as Release never finds the item without a delay, Timeouts is how often the item's time to run ended and nothing else, and Releases is how often
    Release was called for it, and Update made it wait. -/
theorem C140_timeouts_partial {q q' : Q} {now op o h tr i} (hs : step q now op = some o) (ha : AddedBy o i) (ht : traceFrom o.q h = some (q', tr)) (t : Int)
    (hr : ∀ x ∈ tr, i ∈ x.ev.who → x.op.isRelease = true → x.ev.dst ≠ .ready) (hop : op.isRelease = false) :
    ((q'.store i).stats t).timeouts = times (fun op e => e.src = .run && op.isTtr) (o.happened now op ++ tr) i ∧
    ((q'.store i).stats t).releases = times (fun op e => e.src = .run && ((op.isRelease && (e.dst = .delay || e.dst = .ready)) || e.dst = .dependent)) (o.happened now op ++ tr) i := by
  obtain ⟨_, _, _, h1, h2⟩ := C140_counted hs ha ht t
  have hh : ∀ x ∈ o.happened now op ++ tr, i ∈ x.ev.who → x.op.isRelease = true → x.ev.dst ≠ .ready := by
    intro x hx hi hre
    rcases List.mem_append.1 hx with hx | hx
    · obtain ⟨e, _, rfl⟩ := List.mem_map.1 hx
      simp [hop] at hre
    · exact hr x hx hi hre
  constructor
  · rw [h1]; refine times_congr fun x hx hi => ?_
    have := hh x hx hi
    cases hre : x.op.isRelease <;> simp_all
  · rw [h2]; refine times_congr fun x hx hi => ?_
    have := hh x hx hi
    cases hre : x.op.isRelease <;> simp_all

/-- **C140** The age told is the time since the item was added. -/
theorem C140_age {q q' : Q} {now op o h tr i} (hs : step q now op = some o) (ha : AddedBy o i) (ht : traceFrom o.q h = some (q', tr)) (t : Int) :
    ((q'.store i).stats t).age = t - now := by
  have a := step_acc hs
  obtain ⟨e, he, hn, hi⟩ := ha
  have hb := a.listed e he hn i hi
  show t - (q'.store i).creation = _
  rw [(trace_cnt h ht i hb.2).2, (a.new i hb.1 hb.2).2]

/-- an item that was reserved, ran out of time and was buried, was kicked, reserved, and given back with a delay -/
def sampleHistory : List (Int × Op) :=
  [(1, .reserve ""), (9, .ttrTick fun _ => .bury), (10, .kick "a"), (11, .reserve ""), (12, .setDelay "a" 5), (13, .release "a")]

def sampleAdd : Op := .add { key := "a", ttr := 3 }

example : (step new 0 sampleAdd).map (fun o => o.evs) = some [⟨.new, .ready, [0]⟩] := by decide +kernel

/-- the hypotheses of C140 are met, and the counters then are these -/
example : ((step new 0 sampleAdd).bind fun o => traceFrom o.q sampleHistory).map (fun r => (r.1.store 0).stats 20) =
    some ⟨.delay, 20, -2, 5, 3, 2, 1, 1, 1, 1, 0, 0⟩ := by decide +kernel

/-! ### Times -/

/-- an item has a time at which it is taken away just when it runs, and a time at which it becomes ready just when it is delayed -/
structure ItemClean (it : Item) : Prop where
  run : it.releaseAt ≠ none → it.state = .run
  delay : it.readyAt ≠ none → it.state = .delay
  delayed : it.state = .delay → it.readyAt ≠ none

theorem clean_placed (d : Def) (now : Int) (many : Bool) : ItemClean (placed d now many (mkItem d now)) := by
  unfold placed
  split
  · constructor <;> simp [Item.switchDelayDependent, Item.setDependencies, mkItem]
  · split
    · constructor <;> simp [Item.switchReadyRun, Item.touch, Item.switchDelayReady]
    · cases many <;> constructor <;> simp [Item.switchRunBury, Item.switchDelayReady, Item.switchReadyRun]
    · split
      · constructor <;> simp [Item.switchDelayReady, mkItem]
      · constructor <;> simp [mkItem]

theorem clean_withFields (g p d t a n) (it : Item) (h : ItemClean it) : ItemClean (it.withFields g p d t a n) := by
  unfold Item.withFields
  have := h.run; have := h.delay; have := h.delayed
  repeat' split
  all_goals constructor <;> simp_all

theorem clean_withDeps (ds) (it : Item) (h : ItemClean it) (hb : ds = [] → it.state = .dependent) : ItemClean (it.withDeps ds) := by
  unfold Item.withDeps
  have h1 := h.run; have h2 := h.delay; have h3 := h.delayed
  repeat' split
  all_goals constructor <;> simp_all [Item.setDependencies, Item.switchDelayDependent, Item.switchReadyDependent, Item.switchRunDependent, Item.switchDependentReady]

theorem clean_updated (g d p dl t ds n) (it : Item) (h : ItemClean it) (hb : ¬ (ds = some [] ∧ it.state ≠ .dependent ∧ it.remaining ≠ [])) :
    ItemClean (it.updated g d p dl t ds n) := by
  unfold Item.updated
  have hd : ItemClean { it with data := d } := ⟨h.run, h.delay, h.delayed⟩
  split
  · exact clean_withFields _ _ _ _ _ _ _ hd
  · rename_i ds
    apply clean_withFields
    split
    · rename_i hc
      refine clean_withDeps _ _ hd fun e => ?_
      subst e
      have : it.remaining ≠ [] := by simpa [Item.depsChange, depDiff] using hc
      exact Classical.byContradiction fun hn => hb ⟨rfl, hn, this⟩
    · exact hd

theorem clean_settleDep (k) (it : Item) (h : ItemClean it) : ItemClean (it.settleDep k) := by
  unfold Item.settleDep
  have h1 := h.run; have h2 := h.delay; have h3 := h.delayed
  split
  all_goals constructor <;> simp_all [Item.switchDependentReady, Item.resolve]

theorem clean_timeout (now t) (it : Item) (h : ItemClean it) (hr : it.state = .run) : ItemClean (it.timeout now t) := by
  have h2 := h.delay
  unfold Item.timeout
  split
  all_goals constructor <;> simp_all [Item.tempDisableTTR, Item.switchRunDelay, Item.switchRunBury, Item.switchRunReady, Item.restart]

theorem clean_move {q : Q} {now op i f evs ra res} (m : Move q now op i f evs ra res) (h : ItemClean (q.store i)) : ItemClean (f (q.store i)) := by
  have h1 := h.run; have h2 := h.delay; have h3 := h.delayed
  cases m
  case touch => constructor <;> simp_all [Item.touch]
  case releaseReady => constructor <;> simp_all [Item.switchRunReady]
  case releaseDelay => constructor <;> simp_all [Item.switchRunDelay, Item.restart]
  case bury => constructor <;> simp_all [Item.switchRunBury]
  case kickDep => constructor <;> simp_all [Item.switchBuryDependent]
  case kickReady => constructor <;> simp_all [Item.switchBuryReady]
  case reserve => constructor <;> simp_all [Item.switchReadyRun, Item.touch]
  case setDelay => show ItemClean (if _ then _ else _); split; exact h; split <;> constructor <;> simp_all
  case setReserveGroup => exact ⟨h.run, h.delay, h.delayed⟩

theorem clean_mod {q : Q} {i : Nat} {f : Item → Item} (h : ∀ j, j < q.next → ItemClean (q.store j)) (hf : ItemClean (q.store i) → ItemClean (f (q.store i)))
    (j : Nat) (hj : j < q.next) : ItemClean ((q.mod i f).store j) := by
  by_cases e : j = i
  · subst e; rw [mod_self]; exact hf (h _ hj)
  · rw [mod_other _ _ _ _ e]; exact h j hj

theorem Eff.clean {q : Q} {now op o} (e : Eff q now op o) (hi : Inv q) (hs : Safe q op) (h : ∀ j, j < q.next → ItemClean (q.store j)) :
    ∀ j, j < o.q.next → ItemClean (o.q.store j) := by
  intro j hj
  cases e with
  | fail _ => exact h j hj
  | add _ _ a _ =>
    simp only [a.next] at hj
    rw [a.store]; split
    · exact clean_placed _ _ _
    · exact h j (by omega)
  | addMany hc a =>
    rcases a.cases hi j with ⟨h1, e, _⟩ | ⟨_, _, _, _, d, _, _, e⟩ | ⟨h1, _⟩
    · rw [e]; exact h j h1
    · rw [e]; exact clean_placed _ _ _
    · exact absurd hj (Nat.not_lt.2 h1)
  | move _ m mv =>
    simp only [mv.frame.next] at hj
    rw [mv.frame.store]; exact clean_mod h (clean_move m) j hj
  | update _ hf u _ _ _ =>
    simp only [u.next] at hj
    rw [u.store]; exact clean_mod h (fun hc => clean_updated _ _ _ _ _ _ _ _ hc (hs _ hf)) j hj
  | changeKey _ _ _ r =>
    simp only [r.next] at hj
    have := h j hj
    rcases r.store j with ⟨e, _⟩ | ⟨_, e⟩
    · rw [e]; exact this
    · rw [e]
      constructor <;> simp only [changedKey_state, changedKey_releaseAt, changedKey_readyAt]
      · exact this.run
      · exact this.delay
      · exact this.delayed
  | @remove key order i added s q' _ _ r =>
    simp only [r.next] at hj
    by_cases e : j = i
    · subst e; rw [r.self]; constructor <;> simp [Item.removalCleanup]
    · rw [r.other j e]; split
      · exact clean_settleDep _ _ (h j hj)
      · exact h j hj
  | delayTick b hl =>
    simp only [b.next] at hj
    have h1 := (h j hj).run
    rw [b.store]; split
    · rename_i hm
      have h2 := ((hl j).1 hm).2.1
      constructor <;> simp_all [Item.switchDelayReady]
    · exact h j hj
  | ttrTick b _ hl =>
    simp only [b.next] at hj
    rw [b.store]; split
    · rename_i hm; exact clean_timeout _ _ _ (h j hj) ((hl j).1 hm).2.1
    · exact h j hj
  | destroy _ _ _ he hn _ _ => simp only [hn] at hj; simp only [he]; exact h j hj

theorem run_clean (h : List (Int × Op)) : ∀ {q q' : Q}, Inv q → Timed q → (∀ j, j < q.next → ItemClean (q.store j)) → Along Safe q h → runFrom q h = some q' →
    ∀ j, j < q'.next → ItemClean (q'.store j) := by
  induction h with
  | nil => intro q q' _ _ hc _ e; simp [runFrom] at e; subst e; exact hc
  | cons a h ih =>
    obtain ⟨now, op⟩ := a
    intro q q' hi ht hc hs e
    simp only [runFrom] at e
    cases hst : step q now op with
    | none => rw [hst] at e; simp at e
    | some o =>
      rw [hst] at e
      have ef := (step_eff hi ht hs.1).1 o hst
      exact ih (ef.inv hi) (ef.timed hi ht) (ef.clean hi hs.1 hc) (hs.2 o hst) e

/-- **C140** After every history (that avoids the defect of Update recorded with C01), an item that was added has a release time just when it is running, and a time at which it becomes ready just
    when it is delayed; so ReleaseAt and ReadyAt tell nothing stale, and the Remaining of a running or delayed item comes from a time that is set. -/
theorem C140_times_partial {h q} (hr : runFrom new h = some q) (hs : Along Safe new h) {i : Nat} (hi : i < q.next) :
    ((q.store i).releaseAt ≠ none ↔ (q.store i).state = .run) ∧ ((q.store i).readyAt ≠ none ↔ (q.store i).state = .delay) := by
  have c := run_clean h inv_new timed_new (fun j hj => absurd hj (Nat.not_lt_zero j)) hs hr i hi
  exact ⟨⟨c.run, (run_inv h inv_new timed_new hs hr).2 i⟩, c.delay, c.delayed⟩

example : ∃ q, runFrom new [(0, sampleAdd), (1, .reserve "")] = some q ∧ (q.store 0).releaseAt = some 4 ∧ (q.store 0).readyAt = none := by
  obtain ⟨q, h1, h2⟩ := some_of_any (x := runFrom new [(0, sampleAdd), (1, .reserve "")]) (P := fun q => (q.store 0).releaseAt = some 4 && (q.store 0).readyAt = none) (by decide +kernel)
  simp only [Bool.and_eq_true, decide_eq_true_eq] at h2
  exact ⟨q, h1, h2.1, h2.2⟩

theorem placed_times (d : Def) (now : Int) (many : Bool) :
    ((placed d now many (mkItem d now)).state = .run → (placed d now many (mkItem d now)).releaseAt = some (now + (placed d now many (mkItem d now)).ttr)) ∧
    ((placed d now many (mkItem d now)).state = .delay → (placed d now many (mkItem d now)).readyAt = some (now + (placed d now many (mkItem d now)).delay)) := by
  unfold placed
  split
  · constructor <;> simp [Item.switchDelayDependent]
  · split
    · constructor <;> simp [Item.switchReadyRun, Item.touch]
    · cases many <;> constructor <;> simp [Item.switchRunBury]
    · split
      · constructor <;> simp [Item.switchDelayReady]
      · constructor <;> simp [mkItem]

theorem sub_run {s : State} (h : s.sub = .run) : s = .run := by cases s <;> simp_all [State.sub]
theorem sub_delay {s : State} (h : s.sub = .delay) : s = .delay := by cases s <;> simp_all [State.sub]

/-- the times of an item that just entered the sub-queue -/
structure Fresh' (it : Item) (dst : SubQ) (now : Int) : Prop where
  run : dst = .run → it.state = .run ∧ it.releaseAt = some (now + it.ttr)
  delay : dst = .delay → it.state = .delay ∧ it.readyAt = some (now + it.delay)

theorem fresh_other {it dst now} (h1 : dst ≠ .run) (h2 : dst ≠ .delay) : Fresh' it dst now := ⟨fun h => absurd h h1, fun h => absurd h h2⟩

theorem fresh_placed (d : Def) (now : Int) (many : Bool) {s} (h : (placed d now many (mkItem d now)).state.sub = s) : Fresh' (placed d now many (mkItem d now)) s now := by
  subst h
  have := placed_times d now many
  exact ⟨fun h => ⟨sub_run h, this.1 (sub_run h)⟩, fun h => ⟨sub_delay h, this.2 (sub_delay h)⟩⟩

theorem Eff.fresh {q : Q} {now op o} (e : Eff q now op o) (hi : Inv q) : ∀ ev ∈ o.evs, ∀ i ∈ ev.who, Fresh' (o.q.store i) ev.dst now := by
  intro ev hev i hw
  cases e with
  | fail _ => cases hev
  | add _ _ a hs =>
    have hev := List.mem_singleton.1 hev; subst hev
    have hw := List.mem_singleton.1 hw; subst hw
    have e := a.store q.next
    rw [if_pos rfl] at e
    rw [e] at hs ⊢
    exact fresh_placed _ _ _ hs
  | @addMany ds q' n l hc a =>
    unfold manyEvs at hev
    obtain ⟨s, _, hs⟩ := List.mem_filterMap.1 hev
    simp only [] at hs
    split at hs
    · simp at hs
    · simp only [Option.some.injEq] at hs; subst hs
      obtain ⟨p, hp, e⟩ := List.mem_map.1 hw
      have hp2 := List.mem_filter.1 hp
      have e : p.1 = i := e
      have hl := a.listed p hp2.1
      have hd : p.2 = s := by simpa using hp2.2
      rw [e] at hl
      rcases a.cases hi i with ⟨h1, _⟩ | ⟨_, _, _, _, d, _, _, e2⟩ | ⟨h1, _⟩
      · omega
      · show Fresh' (q'.store i) s now
        rw [e2] at hl ⊢
        exact fresh_placed _ _ _ (by rw [hl.2.2.2, hd])
      · omega
  | move _ m mv =>
    rw [mv.frame.store]
    cases m
    case touch => cases hev
    case setDelay => cases hev
    case setReserveGroup => cases hev
    case releaseDelay =>
      have hev := List.mem_singleton.1 hev; subst hev
      have hw := List.mem_singleton.1 hw; subst hw
      rw [mod_self]
      exact ⟨fun h => by simp at h, fun _ => by simp [Item.switchRunDelay, Item.restart]⟩
    case reserve =>
      have hev := List.mem_singleton.1 hev; subst hev
      have hw := List.mem_singleton.1 hw; subst hw
      rw [mod_self]
      exact ⟨fun _ => by simp [Item.switchReadyRun, Item.touch], fun h => by simp at h⟩
    all_goals
      have hev := List.mem_singleton.1 hev; subst hev
      exact fresh_other (by simp) (by simp)
  | update _ _ _ _ _ _ =>
    unfold updateEvs at hev
    simp only [] at hev
    repeat' split at hev
    all_goals first
      | cases hev; done
      | (have hev := List.mem_singleton.1 hev; subst hev; exact fresh_other (by simp) (by simp))
  | changeKey _ _ _ r => cases hev
  | @remove key order i added s q' _ _ r =>
    rcases List.mem_cons.1 hev with hev | hev
    · subst hev; exact fresh_other (by simp) (by simp)
    · split at hev
      · cases hev
      · have hev := List.mem_singleton.1 hev; subst hev; exact fresh_other (by simp) (by simp)
  | delayTick b hl =>
    simp only [] at hev
    split at hev
    · cases hev
    · have hev := List.mem_singleton.1 hev; subst hev; exact fresh_other (by simp) (by simp)
  | @ttrTick cb l q' b hcb hl =>
    simp only [List.mem_append] at hev
    have key : ∀ t s, ev ∈ ttrEv l t s → ev.dst = s ∧ ∃ p ∈ l, p.1 = i ∧ p.2 = t := by
      intro t s he
      unfold ttrEv at he
      simp only [] at he
      split at he
      · cases he
      · have he := List.mem_singleton.1 he; subst he
        obtain ⟨p, hp, e⟩ := List.mem_map.1 hw
        have hp2 := List.mem_filter.1 hp
        exact ⟨rfl, p, hp2.1, e, by simpa using hp2.2⟩
    rcases hev with (he | he) | he
    · obtain ⟨hd, p, hp, e1, e2⟩ := key _ _ he
      show Fresh' (q'.store i) ev.dst now
      have hm : i ∈ l.map (·.1) := List.mem_map.2 ⟨p, hp, e1⟩
      rw [hd, b.store, if_pos hm]
      have : cb (q.store i).data = .delay := by rw [← e1, ← hcb p hp, e2]
      simp only [this]
      exact ⟨fun h => by simp at h, fun _ => by simp [Item.timeout, Item.switchRunDelay, Item.restart]⟩
    · rw [(key _ _ he).1]; exact fresh_other (by simp) (by simp)
    · rw [(key _ _ he).1]; exact fresh_other (by simp) (by simp)
  | destroy _ _ _ he hn _ _ => cases hev

/-- **C140** An item that is told to enter the run sub-queue then has its whole time to run remaining, and one told to enter the delay sub-queue its whole delay;
    as time passes Remaining falls by just that much. -/
theorem C140_remaining_partial {h q} (hr : runFrom new h = some q) (hs : Along Safe new h) {now op o} (hst : step q now op = some o) (hop : Safe q op)
    {e i} (he : e ∈ o.evs) (hi : i ∈ e.who) (t : Int) :
    (e.dst = .run → ((o.q.store i).stats t).state = .run ∧ ((o.q.store i).stats t).remaining = ((o.q.store i).stats t).ttr - (t - now)) ∧
    (e.dst = .delay → ((o.q.store i).stats t).state = .delay ∧ ((o.q.store i).stats t).remaining = ((o.q.store i).stats t).delay - (t - now)) := by
  obtain ⟨h1, h2⟩ := run_inv h inv_new timed_new hs hr
  have f := ((step_eff h1 h2 hop).1 o hst).fresh h1 e he i hi
  refine ⟨fun hd => ?_, fun hd => ?_⟩
  · obtain ⟨a, b⟩ := f.run hd
    refine ⟨a, ?_⟩
    simp only [Item.stats, a, b, Option.getD_some]; omega
  · obtain ⟨a, b⟩ := f.delay hd
    refine ⟨a, ?_⟩
    simp only [Item.stats, a, b, Option.getD_some]; omega

example : ∃ q o, runFrom new [(0, sampleAdd)] = some q ∧ step q 2 (.reserve "") = some o ∧ o.evs = [⟨.ready, .run, [0]⟩] ∧
    ((o.q.store 0).stats 4).remaining = 1 := by
  obtain ⟨q, h1, h2⟩ := some_of_any (x := runFrom new [(0, sampleAdd)])
    (P := fun q => (step q 2 (.reserve "")).any fun o => o.evs = [⟨.ready, .run, [0]⟩] && ((o.q.store 0).stats 4).remaining = 1) (by decide +kernel)
  obtain ⟨o, h3, h4⟩ := some_of_any h2
  simp only [Bool.and_eq_true, decide_eq_true_eq] at h4
  exact ⟨q, o, h1, h3, h4.1, h4.2⟩

/-- **C140** Touch gives a running item its whole time to run again. -/
theorem C140_touched_partial {h q} (hr : runFrom new h = some q) (hs : Along Safe new h) {now o k i} (hst : step q now (.touch k) = some o) (hk : q.find k = some i)
    (ho : o.res = .ok) (t : Int) : ((o.q.store i).stats t).remaining = ((o.q.store i).stats t).ttr - (t - now) := by
  obtain ⟨h1, h2⟩ := run_inv h inv_new timed_new hs hr
  have ef := (step_eff h1 h2 (op := .touch k) trivial).1 o hst
  cases ef with
  | fail _ => simp at ho
  | move _ m mv =>
    cases m
    case touch hrun hf =>
      rw [hk] at hf
      injection hf with hf; subst hf
      show ((Q.store _ i).stats t).remaining = ((Q.store _ i).stats t).ttr - (t - now)
      rw [mv.frame.store, mod_self]
      simp only [Item.stats, Item.touch, hrun, Option.getD_some]; omega

/-! ### Where the counters mislead -/

/-- **C140, violated** Release of an item without a delay counts as a timeout, not as a release, although its time to run did not end. -/
theorem C140_violated_release : ∃ q q' tr, runFrom new [(0, sampleAdd)] = some q ∧ traceFrom q [(1, .reserve ""), (2, .release "a")] = some (q', tr) ∧
    tr.all (fun x => !x.op.isTtr) = true ∧ ((q'.store 0).stats 2).timeouts = 1 ∧ ((q'.store 0).stats 2).releases = 0 := by
  obtain ⟨q, h1, h2⟩ := some_of_any (x := runFrom new [(0, sampleAdd)])
    (P := fun q => (traceFrom q [(1, .reserve ""), (2, .release "a")]).any fun r =>
      r.2.all (fun x => !x.op.isTtr) && (((r.1.store 0).stats 2).timeouts = 1 && ((r.1.store 0).stats 2).releases = 0)) (by decide +kernel)
  obtain ⟨⟨q', tr⟩, h3, h4⟩ := some_of_any h2
  simp only [Bool.and_eq_true, decide_eq_true_eq] at h4
  exact ⟨q, q', tr, h1, h3, h4.1, h4.2.1, h4.2.2⟩

/-- **C140, violated** The same item added in the bury sub-queue has been reserved once according to AddMany, and never according to Add, although nobody reserved it. -/
theorem C140_violated_buried (d : Def) (hb : d.start = some false) (hd : d.deps = []) : ∃ o o', step new 0 (.add d) = some o ∧ step new 0 (.addMany [d]) = some o' ∧
    o.evs = [⟨.new, .bury, [0]⟩] ∧ o'.evs = [⟨.new, .bury, [0]⟩] ∧ ((o.q.store 0).stats 0).reserves = 0 ∧ ((o'.q.store 0).stats 0).reserves = 1 := by
  refine ⟨_, _, rfl, rfl, ?_, ?_, ?_, ?_⟩ <;>
    simp [Q.add, Q.addMany, Q.addLoop, manyEvs, new, Q.find, mget, Q.place, hb, hd, Q.create, Q.mod, Q.pushBury, Item.stats, Item.switchDelayReady, Item.switchReadyRun, Item.switchRunBury, mkItem]

example : ({ key := "a", start := some false } : Def).start = some false := rfl

/-- a running item whose outstanding dependencies an Update takes away, while one other item waits for its own -/
def leftHistory : List (Int × Op) :=
  [(0, sampleAdd), (1, .reserve ""), (2, .bury "a"), (3, .update "a" "" 0 0 0 3 (some ["z"])), (4, .kick "a"), (5, .reserve ""),
   (6, .add { key := "c", deps := ["y"] }), (7, .update "a" "" 0 0 0 3 (some []))]

/-- **C140, violated** By the defect of Update recorded with C01, an item can be ready and still have a release time. -/
theorem C140_violated_stale : ∃ q, runFrom new leftHistory = some q ∧ (q.store 0).state = .ready ∧ (q.store 0).releaseAt = some 8 := by
  obtain ⟨q, h1, h2⟩ := some_of_any (x := runFrom new leftHistory) (P := fun q => (q.store 0).state = .ready && (q.store 0).releaseAt = some 8) (by decide +kernel)
  simp only [Bool.and_eq_true, decide_eq_true_eq] at h2
  exact ⟨q, h1, h2.1, h2.2⟩

end Verif.Queue
