import Verif.Queue.Ops4
/-! Update. -/
namespace Verif.Queue
open Verif.Heap

/-- the effect of new dependencies on an item -/
def Item.withDeps (ds : List String) (it : Item) : Item :=
  if ds ≠ [] ∧ it.state ≠ .dependent then
    match it.state with
    | .delay => (it.setDependencies ds).switchDelayDependent
    | .ready => (it.setDependencies ds).switchReadyDependent
    | .run => (it.setDependencies ds).switchRunDependent
    | _ => it.setDependencies ds
  else if ds = [] then (it.setDependencies ds).switchDependentReady
  else it.setDependencies ds

/-- does `Update` see a difference between the outstanding and the given dependencies? -/
def Item.depsChange (ds : List String) (it : Item) : Bool :=
  decide ((depDiff it.remaining ds).1 ≠ [] ∨ 0 < (depDiff it.remaining ds).2)

theorem withDeps_key (ds) (it : Item) : (it.withDeps ds).key = it.key := by
  unfold Item.withDeps; split
  · split <;> rfl
  · split <;> rfl

theorem plain_setDeps (ds) : Plain (Item.setDependencies ds) := by constructor <;> intro _ <;> rfl

/-- dependency part of a successful `Update` -/
structure DepsDone (q q' : Q) (i : Nat) (key : String) (ds : List String) (src : Option SubQ) (ar : Bool) : Prop where
  inv : Inv q'
  ready : ReadyOrd q → ReadyOrd q'
  items : q'.items = q.items
  next : q'.next = q.next
  closed : q'.closed = q.closed
  store : q'.store = (q.mod i fun it => if it.depsChange ds then it.withDeps ds else it).store
  arEq : ar = ((q.store i).depsChange ds && decide (ds = []))
  cursor : ar = true → q'.cursor = (q'.store i).group
  srcEq : src = if (q.store i).depsChange ds = true ∧ ds ≠ [] ∧
      ((q.store i).state = .delay ∨ (q.store i).state = .ready ∨ (q.store i).state = .run)
    then some (q.store i).state.sub else none
  dependants : q'.dependants = if (q.store i).depsChange ds then
      setQueueDeps (dropDependants q key (depDiff (q.store i).remaining ds).1) (q.store i).key i ds else q.dependants
  same : (q.store i).depsChange ds = false → q' = q

theorem updateDeps_ok {q : Q} {i : Nat} (key : String) (ds : List String) (h : Inv q) (hl : live q i)
    (hgood : ds = [] → (q.store i).state ≠ .dependent → (q.store i).remaining = []) :
    ∃ q' src ar, q.updateDeps i key ds = some (q', src, ar) ∧ DepsDone q q' i key ds src ar := by
  by_cases hch : (q.store i).depsChange ds = true
  · have hch' : (depDiff (q.store i).remaining ds).1 ≠ [] ∨ 0 < (depDiff (q.store i).remaining ds).2 := by
      unfold Item.depsChange at hch; simpa using hch
    -- the state on which updateMove works
    obtain ⟨m, hmk⟩ : ∃ m, m = setQueueDeps (dropDependants q key (depDiff (q.store i).remaining ds).1) (q.store i).key i ds := ⟨_, rfl⟩
    have hU : q.updateDeps i key ds = ({ q.mod i (Item.setDependencies ds) with dependants := m } : Q).updateMove i ds := by
      unfold Q.updateDeps
      simp only [if_pos hch', mod_self]
      rw [hmk]; rfl
    rw [hU]
    have h1 : Inv { q.mod i (Item.setDependencies ds) with dependants := m } :=
      (modPlain h i _ (plain_setDeps ds)).deps m
    have ho1 : ReadyOrd q → ReadyOrd { q.mod i (Item.setDependencies ds) with dependants := m } :=
      modPlain_ready i _ (plain_setDeps ds)
    have hl1 : live { q.mod i (Item.setDependencies ds) with dependants := m } i :=
      (mod_live q i (Item.setDependencies ds) (fun _ => rfl) i).2 hl
    have hs1 : (({ q.mod i (Item.setDependencies ds) with dependants := m } : Q).store i) = (q.store i).setDependencies ds := mod_self _ _ _
    have hss : ((q.store i).setDependencies ds).state = (q.store i).state := rfl
    -- packaging
    have pack : ∀ (q' : Q) (f : Item → Item) (src : Option SubQ) (ar : Bool),
        Frame (({ q.mod i (Item.setDependencies ds) with dependants := m } : Q).mod i f) q' → Inv q' →
        (ReadyOrd { q.mod i (Item.setDependencies ds) with dependants := m } → ReadyOrd q') →
        f ((q.store i).setDependencies ds) = (q.store i).withDeps ds → ar = decide (ds = []) →
        (ar = true → q'.cursor = (q'.store i).group) →
        src = (if ds ≠ [] ∧ ((q.store i).state = .delay ∨ (q.store i).state = .ready ∨ (q.store i).state = .run)
          then some (q.store i).state.sub else none) →
        DepsDone q q' i key ds src ar := by
      intro q' f src ar fr inv ro hf har hcur hsrc
      refine ⟨inv, fun ho => ro (ho1 ho), fr.items, fr.next, fr.closed, ?_, by rw [har, hch]; simp, hcur, ?_, ?_, ?_⟩
      · rw [fr.store]; funext j; by_cases e : j = i
        · subst e; rw [mod_self, hs1, hf, mod_self]; simp [hch]
        · rw [mod_other _ _ _ _ e]; rw [show (({ q.mod i (Item.setDependencies ds) with dependants := m } : Q).store j) = q.store j from mod_other _ _ _ _ e]; exact (mod_other _ _ _ _ e).symm
      · rw [hsrc]; simp [hch]
      · rw [fr.dependants, hch]; simp only [if_true]; rw [← hmk]; rfl
      · intro e; rw [hch] at e; simp at e
    by_cases hA : ds ≠ [] ∧ (q.store i).state ≠ .dependent
    · have hwd : (q.store i).withDeps ds = (match (q.store i).state with
        | .delay => ((q.store i).setDependencies ds).switchDelayDependent
        | .ready => ((q.store i).setDependencies ds).switchReadyDependent
        | .run => ((q.store i).setDependencies ds).switchRunDependent
        | _ => (q.store i).setDependencies ds) := by
        unfold Item.withDeps; rw [if_pos hA]
      unfold Q.updateMove
      rw [hs1, hss, if_pos hA]
      have hne : decide (ds = []) = false := by simp [hA.1]
      rcases hs : (q.store i).state with _ | _ | _ | _ | _ | _
      · obtain ⟨q1, e, r⟩ := removeDelay_ok h1 hl1 (by rw [hs1, hss]; exact hs)
        have mv := r.toDep (f := Item.switchDelayDependent) (fun _ => rfl) rfl
        simp only [e]
        exact ⟨_, _, _, rfl, pack _ _ _ _ mv.frame mv.inv mv.ready (by rw [hwd, hs]) hne.symm (by simp) (by simp [hA.1, hs, State.sub])⟩
      · obtain ⟨q1, e, r⟩ := removeReady_ok h1 hl1 (by rw [hs1, hss]; exact hs)
        have mv := r.toDep (f := Item.switchReadyDependent) (fun _ => rfl) rfl
        simp only [e]
        exact ⟨_, _, _, rfl, pack _ _ _ _ mv.frame mv.inv mv.ready (by rw [hwd, hs]) hne.symm (by simp) (by simp [hA.1, hs, State.sub])⟩
      · obtain ⟨q1, e, r⟩ := removeRun_ok h1 hl1 (by rw [hs1, hss]; exact hs)
        have mv := r.toDep (f := Item.switchRunDependent) (fun _ => rfl) rfl
        simp only [e]
        exact ⟨_, _, _, rfl, pack _ _ _ _ mv.frame mv.inv mv.ready (by rw [hwd, hs]) hne.symm (by simp) (by simp [hA.1, hs, State.sub])⟩
      · have mv := Moved.same h1 i
        exact ⟨_, _, _, rfl, pack _ _ _ _ mv.frame mv.inv mv.ready (by rw [hwd, hs]; rfl) hne.symm (by simp) (by simp [hs])⟩
      · exact absurd hs hA.2
      · exact absurd hs (h.notRemoved i hl (by simp))
    · by_cases hB : ds = []
      · have hs : (q.store i).state = .dependent := by
          by_cases hs : (q.store i).state = .dependent
          · exact hs
          · have hr := hgood hB hs
            rw [hr, hB] at hch'
            simp [depDiff] at hch'
        have hwd : (q.store i).withDeps ds = ((q.store i).setDependencies ds).switchDependentReady := by
          unfold Item.withDeps; rw [if_neg hA, if_pos hB]
        unfold Q.updateMove
        rw [hs1, hss, if_neg hA, if_pos hB]
        obtain ⟨q1, e, r⟩ := removeDep_ok h1 hl1 (by rw [hs1, hss]; exact hs)
        have mv := r.toReady (f := Item.switchDependentReady) (fun _ => rfl) rfl
        simp only [e]
        exact ⟨_, _, _, rfl, pack _ _ _ _ mv.frame mv.inv mv.ready hwd.symm (by simp [hB]) (fun _ => rfl) (by simp [hB])⟩
      · have hs : (q.store i).state = .dependent := by
          by_cases hs : (q.store i).state = .dependent
          · exact hs
          · exact absurd ⟨hB, hs⟩ hA
        have hwd : (q.store i).withDeps ds = (q.store i).setDependencies ds := by
          unfold Item.withDeps; rw [if_neg hA, if_neg hB]
        unfold Q.updateMove
        rw [hs1, hss, if_neg hA, if_neg hB]
        have mv := Moved.same h1 i
        exact ⟨_, _, _, rfl, pack _ _ _ _ mv.frame mv.inv mv.ready (by rw [hwd]; rfl) (by simp [hB]) (by simp) (by simp [hs])⟩
  · have hch0 : (q.store i).depsChange ds = false := by simpa using hch
    have hch' : ¬ ((depDiff (q.store i).remaining ds).1 ≠ [] ∨ 0 < (depDiff (q.store i).remaining ds).2) := by
      unfold Item.depsChange at hch; simpa using hch
    refine ⟨q, none, false, by unfold Q.updateDeps; simp only [if_neg hch'], h, id, rfl, rfl, rfl, ?_, by simp [hch0], by simp, by simp [hch0],
      by simp [hch0], fun _ => rfl⟩
    funext j; by_cases e : j = i
    · subst e; rw [mod_self]; simp [hch0]
    · rw [mod_other _ _ _ _ e]

/-- the effect of the other arguments of `Update` on an item -/
def Item.withFields (group : String) (priority : Nat) (delay ttr : Int) (addedReady : Bool) (now : Int) (it : Item) : Item :=
  if it.delay ≠ delay then
    if it.state = .delay then { it with delay := delay, readyAt := some (now + delay) } else { it with delay := delay }
  else if it.priority ≠ priority ∨ it.group ≠ group ∨ addedReady = true then
    { it with priority := priority, group := group }
  else if it.ttr ≠ ttr then
    if it.state = .run then { it with ttr := ttr, releaseAt := some (now + ttr) } else { it with ttr := ttr }
  else it

theorem withFields_key (g p d t a n) (it : Item) : (it.withFields g p d t a n).key = it.key := by
  unfold Item.withFields; repeat (first | split | rfl)
theorem withFields_state (g p d t a n) (it : Item) : (it.withFields g p d t a n).state = it.state := by
  unfold Item.withFields; repeat (first | split | rfl)

theorem updateFields_inv {q q' : Q} {i : Nat} (group : String) (priority : Nat) (delay ttr : Int) (ar : Bool) (now : Int)
    (h : Inv q) (hl : live q i) (hu : q.updateFields i group priority delay ttr ar now = some q') :
    Inv q' ∧ Frame (q.mod i (Item.withFields group priority delay ttr ar now)) q' ∧
    ((q.store i).state = .ready → (q.store i).delay = delay →
      (q.store i).priority ≠ priority ∨ (q.store i).group ≠ group ∨ ar = true →
      (group ≠ (q.store i).group ∨ q.cursor = (q.store i).group) → (ReadyOrd q → ReadyOrd q')) ∧
    (¬ ((q.store i).state = .ready ∧ (q.store i).delay = delay ∧
      ((q.store i).priority ≠ priority ∨ (q.store i).group ≠ group ∨ ar = true)) → (ReadyOrd q → ReadyOrd q')) := by
  have stc : ∀ (f : Item → Item) (q' : Q), Frame (q.mod i f) q' → f (q.store i) = (q.store i).withFields group priority delay ttr ar now →
      Frame (q.mod i (Item.withFields group priority delay ttr ar now)) q' := by
    intro f q' fr hf
    refine ⟨?_, fr.items, fr.next, fr.closed, fr.dependants⟩
    rw [fr.store]; funext j; by_cases e : j = i
    · subst e; rw [mod_self, mod_self, hf]
    · rw [mod_other _ _ _ _ e, mod_other _ _ _ _ e]
  unfold Q.updateFields at hu
  simp only at hu
  by_cases hd : (q.store i).delay ≠ delay
  · rw [if_pos hd] at hu
    by_cases hs : (q.store i).state = .delay
    · rw [if_pos hs] at hu
      obtain ⟨q1, e, fr, inv, ro⟩ := fixDelay_ok h hl hs (fun it => Item.restart now { it with delay := delay })
        (fun _ => rfl) (fun _ => rfl)
      rw [mod_mod, e] at hu; injection hu with hu; subst hu
      exact ⟨inv, stc _ _ fr (by unfold Item.withFields; rw [if_pos hd, if_pos hs]; rfl), fun a => by rw [hs] at a; simp at a, fun _ => ro⟩
    · rw [if_neg hs] at hu; injection hu with hu; subst hu
      have hp : Plain (fun it : Item => { it with delay := delay }) := by constructor <;> intro _ <;> rfl
      exact ⟨modPlain h i _ hp, stc _ _ (Frame.refl _) (by unfold Item.withFields; rw [if_pos hd, if_neg hs]), fun _ a => absurd a hd, fun _ => modPlain_ready i _ hp⟩
  · rw [if_neg hd] at hu
    by_cases hp : (q.store i).priority ≠ priority ∨ (q.store i).group ≠ group ∨ ar = true
    · rw [if_pos hp] at hu
      have hrg : Regroup (fun it : Item => { it with priority := priority, group := group }) := by
        constructor <;> intro _ <;> rfl
      by_cases hs : (q.store i).state = .ready
      · rw [if_pos hs] at hu
        obtain ⟨inv, fr⟩ := updateReady_inv h hl hs _ hrg hu
        refine ⟨inv, stc _ _ fr (by unfold Item.withFields; rw [if_neg hd, if_pos hp]), ?_, ?_⟩
        · intro _ _ _ hcur
          obtain ⟨q2, e2, ro⟩ := updateReady_ok h hl hs _ hrg hcur
          rw [hu] at e2; injection e2 with e2; subst e2; exact ro
        · intro hn; exact absurd ⟨hs, by simpa using hd, hp⟩ hn
      · rw [if_neg hs] at hu; injection hu with hu; subst hu
        exact ⟨modGroup_notReady h i _ hrg.key hrg.state hs hrg.readyAt hrg.releaseAt,
          stc _ _ (Frame.refl _) (by unfold Item.withFields; rw [if_neg hd, if_pos hp]), fun a => absurd a hs, fun _ => mod_notReady_ready h i _ hs⟩
    · rw [if_neg hp] at hu
      have nr : ∀ P : Prop, (q.store i).priority ≠ priority ∨ (q.store i).group ≠ group ∨ ar = true → P := fun P a => absurd a hp
      by_cases ht : (q.store i).ttr ≠ ttr
      · rw [if_pos ht] at hu
        by_cases hs : (q.store i).state = .run
        · rw [if_pos hs] at hu
          obtain ⟨q1, e, fr, inv, ro⟩ := fixRun_ok h hl hs (fun it => Item.touch now { it with ttr := ttr })
            (fun _ => rfl) (fun _ => rfl)
          rw [mod_mod, e] at hu; injection hu with hu; subst hu
          exact ⟨inv, stc _ _ fr (by unfold Item.withFields; rw [if_neg hd, if_neg hp, if_pos ht, if_pos hs]; rfl), fun _ _ => nr _, fun _ => ro⟩
        · rw [if_neg hs] at hu; injection hu with hu; subst hu
          have hpl : Plain (fun it : Item => { it with ttr := ttr }) := by constructor <;> intro _ <;> rfl
          exact ⟨modPlain h i _ hpl, stc _ _ (Frame.refl _) (by unfold Item.withFields; rw [if_neg hd, if_neg hp, if_pos ht, if_neg hs]), fun _ _ => nr _, fun _ => modPlain_ready i _ hpl⟩
      · rw [if_neg ht] at hu; injection hu with hu; subst hu
        have mv := Moved.same h i
        exact ⟨h, stc _ _ mv.frame (by unfold Item.withFields; rw [if_neg hd, if_neg hp, if_neg ht]; rfl), fun _ _ => nr _, fun _ => id⟩

theorem updateFields_some {q : Q} {i : Nat} (group : String) (priority : Nat) (delay ttr : Int) (ar : Bool) (now : Int)
    (h : Inv q) (hl : live q i)
    (hcur : (q.store i).state = .ready → (q.store i).delay = delay →
      (q.store i).priority ≠ priority ∨ (q.store i).group ≠ group ∨ ar = true →
      (group ≠ (q.store i).group ∨ q.cursor = (q.store i).group)) :
    ∃ q', q.updateFields i group priority delay ttr ar now = some q' := by
  unfold Q.updateFields
  simp only
  by_cases hd : (q.store i).delay ≠ delay
  · rw [if_pos hd]
    by_cases hs : (q.store i).state = .delay
    · rw [if_pos hs]
      obtain ⟨q1, e, -⟩ := fixDelay_ok h hl hs (fun it => Item.restart now { it with delay := delay })
        (fun _ => rfl) (fun _ => rfl)
      rw [mod_mod, e]; exact ⟨_, rfl⟩
    · rw [if_neg hs]; exact ⟨_, rfl⟩
  · rw [if_neg hd]
    by_cases hp : (q.store i).priority ≠ priority ∨ (q.store i).group ≠ group ∨ ar = true
    · rw [if_pos hp]
      have hrg : Regroup (fun it : Item => { it with priority := priority, group := group }) := by
        constructor <;> intro _ <;> rfl
      by_cases hs : (q.store i).state = .ready
      · rw [if_pos hs]
        obtain ⟨q1, e, -⟩ := updateReady_ok h hl hs _ hrg (hcur hs (by simpa using hd) hp)
        exact ⟨q1, e⟩
      · rw [if_neg hs]; exact ⟨_, rfl⟩
    · rw [if_neg hp]
      by_cases ht : (q.store i).ttr ≠ ttr
      · rw [if_pos ht]
        by_cases hs : (q.store i).state = .run
        · rw [if_pos hs]
          obtain ⟨q1, e, -⟩ := fixRun_ok h hl hs (fun it => Item.touch now { it with ttr := ttr })
            (fun _ => rfl) (fun _ => rfl)
          rw [mod_mod, e]; exact ⟨_, rfl⟩
        · rw [if_neg hs]; exact ⟨_, rfl⟩
      · rw [if_neg ht]; exact ⟨_, rfl⟩

/-- the whole effect of `Update` on the item -/
def Item.updated (group : String) (data priority : Nat) (delay ttr : Int) (deps : Option (List String)) (now : Int)
    (it : Item) : Item :=
  match deps with
  | none => ({ it with data := data } : Item).withFields group priority delay ttr false now
  | some ds =>
    (if it.depsChange ds then ({ it with data := data } : Item).withDeps ds else { it with data := data }).withFields
      group priority delay ttr (it.depsChange ds && decide (ds = [])) now

/-- `Update` would corrupt the sub-queues: it is given an empty list of dependencies for an item that has outstanding
ones but is not in the dependent sub-queue. -/
def BadDeps (q : Q) (i : Nat) (deps : Option (List String)) : Prop :=
  deps = some [] ∧ (q.store i).state ≠ .dependent ∧ (q.store i).remaining ≠ []

/-- `Update` re-sorts the wrong group: the item is ready, only its priority changes, and another group was used last. -/
def StaleFix (q : Q) (i : Nat) (group : String) (priority : Nat) (delay : Int) : Prop :=
  (q.store i).state = .ready ∧ (q.store i).delay = delay ∧ (q.store i).priority ≠ priority ∧
    (q.store i).group = group ∧ q.cursor ≠ group

/-- events of a successful update -/
def updateEvs (i : Nat) (it : Item) (deps : Option (List String)) : List Ev :=
  match deps with
  | none => []
  | some ds =>
    if it.depsChange ds then
      if ds = [] then [⟨.dependent, .ready, [i]⟩]
      else match it.state with
        | .delay => [⟨.delay, .dependent, [i]⟩]
        | .ready => [⟨.ready, .dependent, [i]⟩]
        | .run => [⟨.run, .dependent, [i]⟩]
        | _ => []
    else []

/-- the dependants lookup after a successful update -/
def updDependants (q : Q) (key : String) (i : Nat) (deps : Option (List String)) : List (String × List (String × Nat)) :=
  match deps with
  | none => q.dependants
  | some ds => if (q.store i).depsChange ds then
      setQueueDeps (dropDependants q key (depDiff (q.store i).remaining ds).1) key i ds else q.dependants

structure Updated (q q' : Q) (i : Nat) (f : Item → Item) : Prop where
  inv : Inv q'
  items : q'.items = q.items
  next : q'.next = q.next
  closed : q'.closed = q.closed
  store : q'.store = (q.mod i f).store

theorem update_spec {q : Q} {key group : String} {data priority : Nat} {delay ttr : Int} {deps : Option (List String)}
    {now : Int} {i : Nat} (h : Inv q) (hc : q.closed = false) (hf : q.find key = some i) (hb : ¬ BadDeps q i deps) :
    (∀ o, q.update key group data priority delay ttr deps now = some o →
      ∃ ra, o = ⟨o.q, .ok, updateEvs i (q.store i) deps, ra⟩ ∧
        Updated q o.q i (Item.updated group data priority delay ttr deps now) ∧
        (ra = true ↔ deps = some [] ∧ (q.store i).depsChange [] = true) ∧
        (¬ StaleFix q i group priority delay → ReadyOrd q → ReadyOrd o.q) ∧
        o.q.dependants = updDependants q key i deps) ∧
    (¬ StaleFix q i group priority delay → ∃ o, q.update key group data priority delay ttr deps now = some o) := by
  have hl : live q i := h.live hf
  have hkey : (q.store i).key = key := (h.keyOf _ _ hf).1
  have hp0 : Plain (fun it : Item => { it with data := data }) := by constructor <;> intro _ <;> rfl
  have h0 := modPlain h i _ hp0
  have ro0 := modPlain_ready (q := q) i _ hp0
  have hl0 : live (q.mod i fun it => { it with data := data }) i := (mod_live q i (fun it => { it with data := data }) hp0.key i).2 hl
  have hs0 : (q.mod i fun it => { it with data := data }).store i = { q.store i with data := data } := mod_self _ _ _
  have hch0 : ∀ ds, Item.depsChange ds { q.store i with data := data } = (q.store i).depsChange ds := fun _ => rfl
  cases deps with
  | none =>
    refine ⟨?_, ?_⟩
    · intro o ho
      unfold Q.update at ho
      simp only [hc, hf, Bool.false_eq_true, if_false] at ho
      cases hu : (q.mod i fun it => { it with data := data }).updateFields i group priority delay ttr false now with
      | none => rw [hu] at ho; simp at ho
      | some q' =>
        rw [hu] at ho; simp at ho
        obtain ⟨inv, fr, ro1, ro2⟩ := updateFields_inv group priority delay ttr false now h0 hl0 hu
        subst ho
        refine ⟨false, by simp [updateEvs], ⟨inv, fr.items, fr.next, fr.closed, ?_⟩, by simp, ?_, fr.dependants⟩
        · simp only; rw [fr.store, mod_mod]; rfl
        · intro hns ho
          by_cases hX : ((q.store i).state = .ready ∧ (q.store i).delay = delay ∧
            ((q.store i).priority ≠ priority ∨ (q.store i).group ≠ group ∨ false = true))
          · refine ro1 (by rw [hs0]; exact hX.1) (by rw [hs0]; exact hX.2.1) (by rw [hs0]; exact hX.2.2) ?_ (ro0 ho)
            rw [hs0]; show group ≠ (q.store i).group ∨ q.cursor = (q.store i).group
            by_cases hg : group = (q.store i).group
            · right
              by_cases hcur : q.cursor = (q.store i).group
              · exact hcur
              · exfalso; apply hns
                refine ⟨hX.1, hX.2.1, ?_, hg.symm, by rw [hg]; exact hcur⟩
                rcases hX.2.2 with a | a | a
                · exact a
                · exact absurd hg.symm a
                · simp at a
            · exact Or.inl hg
          · exact ro2 (by rw [hs0]; exact hX) (ro0 ho)
    · intro hns
      obtain ⟨q', e⟩ := updateFields_some group priority delay ttr false now h0 hl0 (by
        rw [hs0]; intro a b c
        show group ≠ (q.store i).group ∨ q.cursor = (q.store i).group
        by_cases hg : group = (q.store i).group
        · right
          by_cases hcur : q.cursor = (q.store i).group
          · exact hcur
          · exfalso; apply hns
            refine ⟨a, b, ?_, hg.symm, by rw [hg]; exact hcur⟩
            rcases c with c | c | c
            · exact c
            · exact absurd hg.symm c
            · simp at c
        · exact Or.inl hg)
      unfold Q.update
      simp only [hc, hf, Bool.false_eq_true, if_false, e]
      exact ⟨_, rfl⟩
  | some ds =>
    have hgood : ds = [] → ((q.mod i fun it => { it with data := data }).store i).state ≠ .dependent →
        ((q.mod i fun it => { it with data := data }).store i).remaining = [] := by
      rw [hs0]; intro a b
      by_cases hr : (q.store i).remaining = []
      · exact hr
      · exact absurd ⟨by rw [a], b, hr⟩ hb
    obtain ⟨q1, src, ar, e1, dd⟩ := updateDeps_ok key ds h0 hl0 hgood
    have hl1 : live q1 i := by
      have hk1 : (q1.store i).key = (q.store i).key := by
        rw [dd.store, mod_self, hs0]; split
        · rw [withDeps_key]
        · rfl
      unfold live Q.find; rw [hk1, dd.items]; exact hl
    have hs1 : q1.store i = if (q.store i).depsChange ds then ({ q.store i with data := data } : Item).withDeps ds
        else { q.store i with data := data } := by
      rw [dd.store, mod_self, hs0]; rfl
    have har : ar = ((q.store i).depsChange ds && decide (ds = [])) := by have := dd.arEq; rw [hs0] at this; exact this
    have hsrc : src = if (q.store i).depsChange ds = true ∧ ds ≠ [] ∧
        ((q.store i).state = .delay ∨ (q.store i).state = .ready ∨ (q.store i).state = .run)
      then some (q.store i).state.sub else none := by have := dd.srcEq; rw [hs0] at this; exact this
    have cur : ¬ StaleFix q i group priority delay → (q1.store i).state = .ready → (q1.store i).delay = delay →
        (q1.store i).priority ≠ priority ∨ (q1.store i).group ≠ group ∨ ar = true →
        (group ≠ (q1.store i).group ∨ q1.cursor = (q1.store i).group) := by
      intro hns a b c
      cases hch : (q.store i).depsChange ds
      · have e' := dd.same (by rw [hs0]; exact hch)
        rw [e', hs0] at a b c ⊢
        have har' : ar = false := by rw [har, hch]; simp
        by_cases hg : group = (q.store i).group
        · right
          by_cases hcur : q.cursor = (q.store i).group
          · exact hcur
          · exfalso; apply hns
            refine ⟨a, b, ?_, hg.symm, by rw [hg]; exact hcur⟩
            rcases c with c | c | c
            · exact c
            · exact absurd hg.symm c
            · rw [har'] at c; simp at c
        · exact Or.inl hg
      · rw [hs1, hch] at a
        simp only [if_true] at a
        by_cases hds : ds = []
        · exact Or.inr (dd.cursor (by rw [har, hch, hds]; rfl))
        · exfalso
          unfold Item.withDeps at a
          have hnr := h.notRemoved i hl (by simp)
          by_cases hA : ds ≠ [] ∧ (q.store i).state ≠ .dependent
          · rw [if_pos (by exact hA)] at a
            rcases hst : (q.store i).state with _ | _ | _ | _ | _ | _ <;>
              simp [hst, Item.switchDelayDependent, Item.switchReadyDependent, Item.switchRunDependent, Item.setDependencies] at a
          · rw [if_neg (by exact hA), if_neg hds] at a
            have : (q.store i).state = .ready := a
            exact hA ⟨hds, by rw [this]; simp⟩
    have hupd : ∀ x, ((q.mod i fun it => { it with data := data }).updateDeps i key ds = some x) →
        x = (q1, src, ar) := by intro x hx; rw [e1] at hx; injection hx with hx; exact hx.symm
    refine ⟨?_, ?_⟩
    · intro o ho
      unfold Q.update at ho
      simp only [hc, hf, Bool.false_eq_true, if_false, e1] at ho
      cases hu : q1.updateFields i group priority delay ttr ar now with
      | none => rw [hu] at ho; simp at ho
      | some q' =>
        rw [hu] at ho; simp only [Option.some.injEq] at ho
        obtain ⟨inv, fr, ro1, ro2⟩ := updateFields_inv group priority delay ttr ar now dd.inv hl1 hu
        subst ho
        refine ⟨ar, ?_, ⟨inv, ?_, ?_, ?_, ?_⟩, ?_, ?_, ?_⟩
        · congr 1
          rw [har, hsrc]
          unfold updateEvs
          cases hch : (q.store i).depsChange ds
          · simp [hch]
          · by_cases hds : ds = []
            · subst hds; simp [hch]
            · rcases hst : (q.store i).state with _ | _ | _ | _ | _ | _ <;> simp [hch, hds, State.sub]
        · simp only; rw [fr.items]; exact dd.items
        · simp only; rw [fr.next]; exact dd.next
        · simp only; rw [fr.closed]; exact dd.closed
        · simp only; rw [fr.store]; funext j; by_cases e : j = i
          · subst e; rw [mod_self, mod_self, hs1, har]; rfl
          · rw [mod_other _ _ _ _ e, mod_other _ _ _ _ e, dd.store, mod_other _ _ _ _ e, mod_other _ _ _ _ e]
        · rw [har]; constructor
          · intro a; simp at a; obtain ⟨a, b⟩ := a; subst b; exact ⟨rfl, a⟩
          · rintro ⟨a, b⟩; injection a with a; subst a; simp [b]
        · intro hns ho
          have ho1 := dd.ready (ro0 ho)
          by_cases hX : ((q1.store i).state = .ready ∧ (q1.store i).delay = delay ∧
            ((q1.store i).priority ≠ priority ∨ (q1.store i).group ≠ group ∨ ar = true))
          · exact ro1 hX.1 hX.2.1 hX.2.2 (cur hns hX.1 hX.2.1 hX.2.2) ho1
          · exact ro2 hX ho1
        · simp only; rw [fr.dependants]
          show q1.dependants = _
          unfold updDependants
          rw [dd.dependants, hs0]
          simp only [hch0]
          rw [show ({ q.store i with data := data } : Item).key = key from hkey]; rfl
    · intro hns
      obtain ⟨q', e⟩ := updateFields_some group priority delay ttr ar now dd.inv hl1 (cur hns)
      unfold Q.update
      simp only [hc, hf, Bool.false_eq_true, if_false, e1, e]
      exact ⟨_, rfl⟩

end Verif.Queue
