import Verif.Queue.Fate
import Verif.Queue.Props
/-!
# Properties C03, C09, C11 and C54 of the queue package
-/
namespace Verif.Queue
open Verif.Heap

/-! ## C03 -/

/-- specification: the operation, done in state `q` at time `now`, takes the running item `i` off its reserver: it is
released, buried, removed or given dependencies by key, or its time to release is past and the TTR callback does not
say "run". -/
def Leaves (q : Q) (now : Int) (op : Op) (i : Nat) : Prop :=
  match op with
  | .release k => q.find k = some i
  | .bury k => q.find k = some i
  | .remove k _ => q.find k = some i
  | .update k _ _ _ _ _ deps => q.find k = some i ∧ ∃ ds, deps = some ds ∧ ds ≠ []
  | .ttrTick cb => (∃ t, (q.store i).releaseAt = some t ∧ t < now) ∧ cb (q.store i).data ≠ .run
  | _ => False

theorem withFields_running (g p d t a n) (it : Item) : (it.withFields g p d t a n).state = it.state := withFields_state ..

theorem updated_run {g d p dl t ds n} {it : Item} (h : it.state = .run) (hb : ds = some [] → it.remaining = [])
    (hn : (it.updated g d p dl t ds n).state ≠ .run) : ∃ l, ds = some l ∧ l ≠ [] := by
  unfold Item.updated at hn
  cases ds with
  | none => simp only [withFields_state] at hn; exact absurd h hn
  | some l =>
    simp only [withFields_state] at hn
    refine ⟨l, rfl, ?_⟩
    intro e; subst e
    have hr := hb rfl
    have hd : it.depsChange [] = false := by simp [Item.depsChange, depDiff, hr]
    rw [hd] at hn; simp at hn; exact hn h

theorem run_leaves {q : Q} {now op o i} (e : Eff q now op o) (hi : Inv q) (hs : Safe q op) (hr : inSub q .run i) (hn : ¬ inSub o.q .run i) :
    Leaves q now op i ∨ o.q.closed = true := by
  obtain ⟨hl, hst⟩ := (inSub_iff hi .run i).1 hr
  rw [inSub_iff (e.inv hi)] at hn
  cases e.fate hi i hl with
  | same h1 h2 => exact absurd ⟨h1, by rw [h2]; exact hst⟩ hn
  | move m h1 h2 =>
    have h3 : (o.q.store i).state ≠ .run := fun h => hn ⟨h1, h⟩
    rw [h2] at h3
    cases m
    case touch => exact absurd hst h3
    case releaseReady h _ _ => exact Or.inl h
    case releaseDelay h _ _ => exact Or.inl h
    case bury h _ => exact Or.inl h
    case kickDep h _ => rw [hst] at h; simp at h
    case kickReady h _ => rw [hst] at h; simp at h
    case reserve h _ _ => rw [hst] at h; simp at h
    case setDelay => exfalso; apply h3; simp only; split; exact hst; split <;> exact hst
    case setReserveGroup => exact absurd hst h3
  | update h1 h2 h3 h4 =>
    subst h1
    have h5 : (o.q.store i).state ≠ .run := fun h => hn ⟨h3, h⟩
    rw [h4] at h5
    left
    refine ⟨h2, updated_run hst ?_ h5⟩
    intro hd
    have := hs i h2
    unfold BadDeps at this
    cases hrem : (q.store i).remaining with
    | nil => rfl
    | cons a l => exact absurd ⟨hd, by rw [hst]; simp, by rw [hrem]; simp⟩ this
  | rename _ _ _ h1 h2 => exact absurd ⟨h1, by rw [h2, changedKey_state]; exact hst⟩ hn
  | settle _ _ _ h1 h2 =>
    refine absurd ⟨h1, ?_⟩ hn
    rw [h2]; unfold Item.settleDep; rw [if_neg (by simp [hst])]; exact hst
  | removed h1 h2 _ => subst h1; exact Or.inl h2
  | due _ h _ _ _ => rw [hst] at h; simp at h
  | @timeout cb h1 _ h3 h4 h5 =>
    subst h1
    left
    refine ⟨?_, ?_⟩
    · unfold Item.releasable at h3
      cases hra : (q.store i).releaseAt with
      | none => rw [hra] at h3; simp at h3
      | some t => rw [hra] at h3; exact ⟨t, rfl, by simpa using h3⟩
    · intro hc
      refine absurd ⟨h4, ?_⟩ hn
      rw [h5, hc]; exact hst
  | destroyed h1 h2 _ => exact Or.inr h2

/-- what a successful `Reserve` says about its item -/
theorem reserve_eff {q : Q} {now g o i} (e : Eff q now (.reserve g) o) (hi : Inv q) (hres : o.res = .item i) :
    inSub q .ready i ∧ inSub o.q .run i ∧ q.closed = false := by
  cases e with
  | fail h => simp at hres
  | @move _ i' f evs ra res q' hc m mv =>
    cases m with
    | reserve hl hst hg h0 =>
      have hres : Res.item i' = .item i := hres
      injection hres with hres; subst hres
      refine ⟨(inSub_iff hi _ _).2 ⟨hl, hst⟩, ?_, hc⟩
      rw [inSub_iff mv.inv]
      refine ⟨(mv.frame.live _).2 ((mod_live q i' (fun it => (it.touch now).switchReadyRun) (fun _ => rfl) i').2 hl), ?_⟩
      rw [mv.frame.store, mod_self]; rfl

/-- C03: if two `Reserve` calls of a history return the same item, then between them there is an operation that takes
the item off its first reserver (the item is in the run sub-queue until then). -/
theorem C03 (h1 h2 : List (Int × Op)) (t1 t2 : Int) (g1 g2 : String) (q1 q2 : Q) (o1 o2 : Out) (i : Nat)
    (hs : Along Safe new (h1 ++ (t1, .reserve g1) :: h2))
    (r1 : runFrom new h1 = some q1) (s1 : step q1 t1 (.reserve g1) = some o1) (e1 : o1.res = .item i)
    (r2 : runFrom o1.q h2 = some q2) (s2 : step q2 t2 (.reserve g2) = some o2) (e2 : o2.res = .item i) :
    ∃ a t op b qa o, h2 = a ++ (t, op) :: b ∧ runFrom o1.q a = some qa ∧ step qa t op = some o ∧
      inSub qa .run i ∧ ¬ inSub o.q .run i ∧ Leaves qa t op i := by
  obtain ⟨hs1, hs2⟩ := along_append h1 _ new hs
  obtain ⟨i1, tm1⟩ := run_inv h1 inv_new timed_new hs1 r1
  have hs2 := hs2 q1 r1
  have ef1 := (step_eff (now := t1) i1 tm1 hs2.1).1 o1 s1
  have hs3 := hs2.2 o1 s1
  have io1 := ef1.inv i1
  have to1 := ef1.timed i1 tm1
  obtain ⟨i2, tm2⟩ := run_inv h2 io1 to1 hs3 r2
  have ef2 := (step_eff (now := t2) (op := .reserve g2) i2 tm2 trivial).1 o2 s2
  have hrun := (reserve_eff ef1 i1 e1).2.1
  have hready := reserve_eff ef2 i2 e2
  have hnrun : ¬ inSub q2 .run i := by
    intro h; have a := ((inSub_iff i2 _ _).1 h).2; have b := ((inSub_iff i2 _ _).1 hready.1).2
    rw [a] at b; simp at b
  obtain ⟨a, t, op, b, qa, o, x1, x2, x3, x4, x5, x6⟩ := exists_change (fun q => inSub q .run i) h2 o1.q q2 hrun hnrun r2
  refine ⟨a, t, op, b, qa, o, x1, x2, x3, x4, x5, ?_⟩
  subst x1
  obtain ⟨hsa, hsb⟩ := along_append a _ o1.q hs3
  obtain ⟨ia, ta⟩ := run_inv a io1 to1 hsa x2
  have hsb := hsb qa x2
  have efa := (step_eff (now := t) ia ta hsb.1).1 o x3
  rcases run_leaves efa ia hsb.1 x4 x5 with h | h
  · exact h
  · have := run_closed b (efa.inv ia) (efa.timed ia ta) (hsb.2 o x3) x6 h
    rw [hready.2.2] at this; simp at this

/-- a history with two reserves of the same item -/
example : ((runFrom new [(0, .add { key := "a" }), (1, .reserve ""), (2, .release "a")]).bind fun q =>
    (step q 3 (.reserve "")).map fun o => o.res) = some (.item 0) := by decide +kernel

/-! ## C09 -/

/-- C09: TTR processing at time `now` takes exactly the running items whose release time is before `now`; each goes to
the sub-queue that the callback names (a "run" answer leaves it running, its release time a year ahead); all other
items are unchanged. -/
theorem C09 (h : List (Int × Op)) (q : Q) (hs : Along Safe new h) (hr : runFrom new h = some q) (now : Int)
    (cb : Nat → Target) :
    ∃ o, step q now (.ttrTick cb) = some o ∧
      (∀ i, (inSub q .run i ∧ ∃ t, (q.store i).releaseAt = some t ∧ t < now) →
        match cb (q.store i).data with
        | .run => inSub o.q .run i ∧ (o.q.store i).releaseAt = some (now + year)
        | .delay => inSub o.q .delay i ∧ (o.q.store i).readyAt = some (now + (q.store i).delay)
        | .bury => inSub o.q .bury i
        | .ready => inSub o.q .ready i) ∧
      (∀ i, ¬ (inSub q .run i ∧ ∃ t, (q.store i).releaseAt = some t ∧ t < now) →
        o.q.store i = q.store i ∧ ∀ s, inSub o.q s i ↔ inSub q s i) := by
  obtain ⟨hi, ht⟩ := run_inv h inv_new timed_new hs hr
  obtain ⟨se, so⟩ := step_eff (now := now) (op := .ttrTick cb) hi ht trivial
  obtain ⟨o, ho⟩ := so trivial
  have ef := se o ho
  refine ⟨o, ho, ?_⟩
  cases ef with
  | fail he => simp [expectErr] at he
  | move _ m _ => cases m
  | @ttrTick _ l q' b _ hm =>
    have hlv : ∀ i, live q' i ↔ live q i := by
      intro i; unfold live Q.find; rw [b.items, b.store]; split
      · rw [timeout_key]
      · rfl
    have hmem : ∀ i, i ∈ l.map (·.1) ↔ (inSub q .run i ∧ ∃ t, (q.store i).releaseAt = some t ∧ t < now) := by
      intro i; rw [hm, inSub_iff hi]; unfold Item.releasable
      cases hra : (q.store i).releaseAt <;> simp [and_assoc]
    constructor
    · intro i hdue
      have him := (hmem i).2 hdue
      have hl := ((hm i).1 him).1
      have hst : q'.store i = (q.store i).timeout now (cb (q.store i).data) := by rw [b.store, if_pos him]
      cases hc : cb (q.store i).data <;> rw [hc] at hst <;> simp only [inSub_iff b.inv, hlv, hst]
      · exact ⟨⟨hl, hdue.1 |> fun x => ((inSub_iff hi _ _).1 x).2⟩, rfl⟩
      · exact ⟨⟨hl, rfl⟩, rfl⟩
      · exact ⟨hl, rfl⟩
      · exact ⟨hl, rfl⟩
    · intro i hnd
      have him : i ∉ l.map (·.1) := fun h => hnd ((hmem i).1 h)
      have hst : q'.store i = q.store i := by rw [b.store, if_neg him]
      exact ⟨hst, fun s => by rw [inSub_iff b.inv, inSub_iff hi, hlv, hst]⟩

/-- C09, the release time: a successful `Touch` or `Reserve` at time `t` sets it to `t` plus the item's TTR. -/
theorem C09_renewed (h : List (Int × Op)) (q : Q) (hs : Along Safe new h) (hr : runFrom new h = some q) (t : Int)
    (op : Op) (o : Out) (i : Nat) (ho : step q t op = some o)
    (hop : (∃ k, op = .touch k ∧ q.find k = some i ∧ o.res = .ok) ∨ (∃ g, op = .reserve g ∧ o.res = .item i)) :
    (o.q.store i).releaseAt = some (t + (q.store i).ttr) ∧ inSub o.q .run i := by
  obtain ⟨hi, ht⟩ := run_inv h inv_new timed_new hs hr
  rcases hop with ⟨k, rfl, hk, hres⟩ | ⟨g, rfl, hres⟩
  · have ef := (step_eff (now := t) (op := .touch k) hi ht trivial).1 o ho
    have hio := ef.inv hi
    cases ef with
    | fail he => simp at hres
    | @move _ i' f evs ra res q' _ m mv =>
      cases m with
      | touch h1 h2 =>
        rw [hk] at h1; injection h1 with h1; subst h1
        have e : q'.store i = (q.store i).touch t := by rw [mv.frame.store, mod_self]
        refine ⟨by show (q'.store i).releaseAt = _; rw [e]; rfl, ?_⟩
        show inSub q' .run i
        rw [inSub_iff hio]
        refine ⟨(mv.frame.live i).2 ((mod_live q i (Item.touch t) (fun _ => rfl) i).2 (hi.live hk)), ?_⟩
        show (q'.store i).state = _; rw [e]; exact h2
  · have ef := (step_eff (now := t) (op := .reserve g) hi ht trivial).1 o ho
    refine ⟨?_, (reserve_eff ef hi hres).2.1⟩
    cases ef with
    | fail he => simp at hres
    | @move _ i' f evs ra res q' _ m mv =>
      cases m with
      | reserve h1 h2 =>
        have hres : Res.item i' = .item i := hres
        injection hres with hres; subst hres
        show (q'.store i').releaseAt = _
        rw [mv.frame.store, mod_self]; rfl

/-- C09, nothing else changes the release time of an item that stays running: only `Touch`, an `Update` that changes the
TTR, and TTR processing of the due item itself. -/
theorem C09_lease (h : List (Int × Op)) (q : Q) (hs : Along Safe new h) (hr : runFrom new h = some q) (t : Int)
    (op : Op) (hop : Safe q op) (o : Out) (ho : step q t op = some o) (i : Nat) (h1 : inSub q .run i) (h2 : inSub o.q .run i)
    (hne : (o.q.store i).releaseAt ≠ (q.store i).releaseAt) :
    (∃ k, op = .touch k ∧ q.find k = some i) ∨
    (∃ k g d p dl ttr ds, op = .update k g d p dl ttr ds ∧ q.find k = some i ∧ (q.store i).ttr ≠ ttr ∧
      (o.q.store i).ttr = ttr ∧ (o.q.store i).releaseAt = some (t + ttr)) ∨
    (∃ cb, op = .ttrTick cb ∧ (∃ u, (q.store i).releaseAt = some u ∧ u < t) ∧ cb (q.store i).data = .run) := by
  obtain ⟨hi, ht⟩ := run_inv h inv_new timed_new hs hr
  have ef := (step_eff (now := t) hi ht hop).1 o ho
  obtain ⟨hl, hst⟩ := (inSub_iff hi _ _).1 h1
  have hst' := ((inSub_iff (ef.inv hi) _ _).1 h2).2
  cases ef.fate hi i hl with
  | same _ e => exact absurd (by rw [e]) hne
  | move m _ e =>
    rw [e] at hst' hne
    cases m
    case touch k hk hr => exact Or.inl ⟨k, rfl, hk⟩
    case releaseReady => simp [Item.switchRunReady] at hst'
    case releaseDelay => simp [state_switchRunDelay] at hst'
    case bury => simp [state_switchRunBury] at hst'
    case kickDep => simp [Item.switchBuryDependent] at hst'
    case kickReady => simp [Item.switchBuryReady] at hst'
    case reserve h _ _ => rw [hst] at h; simp at h
    case setDelay => exfalso; apply hne; simp only; split; rfl; split <;> rfl
    case setReserveGroup => exact absurd rfl hne
  | @update k g d p dl ttr ds h3 hk _ e =>
    subst h3
    refine Or.inr (Or.inl ⟨k, g, d, p, dl, ttr, ds, rfl, hk, ?_⟩)
    have core : ∀ it : Item, it.state = .run → ∀ a, (it.withFields g p dl ttr a t).releaseAt ≠ it.releaseAt →
        it.ttr ≠ ttr ∧ (it.withFields g p dl ttr a t).ttr = ttr ∧ (it.withFields g p dl ttr a t).releaseAt = some (t + ttr) := by
      intro it hrun a hw
      unfold Item.withFields at hw ⊢
      split
      · rename_i hd; rw [if_pos hd, if_neg (by simp [hrun])] at hw; exact absurd rfl hw
      · rename_i hd; rw [if_neg hd] at hw
        split
        · rename_i hp; rw [if_pos hp] at hw; exact absurd rfl hw
        · rename_i hp; rw [if_neg hp] at hw
          split
          · rename_i htt; exact ⟨htt, rfl, rfl⟩
          · rename_i htt; rw [if_neg htt] at hw; exact absurd rfl hw
    rw [e] at hne hst' ⊢
    unfold Item.updated at hne hst' ⊢
    cases ds with
    | none => exact core { (q.store i) with data := d } hst _ hne
    | some l =>
      simp only at hne hst' ⊢
      cases hd : (q.store i).depsChange l with
      | false =>
        rw [hd] at hne
        exact core { (q.store i) with data := d } hst _ hne
      | true =>
        exfalso
        rw [hd, withFields_state] at hst'
        simp only [if_true, Item.withDeps] at hst'
        split at hst'
        · simp [hst, Item.setDependencies, Item.switchRunDependent] at hst'
        · rename_i hc
          split at hst'
          · simp [Item.switchDependentReady] at hst'
          · rename_i hc2; exact hc ⟨hc2, by simp [hst]⟩
  | rename _ _ _ _ e => exact absurd (by rw [e, changedKey_releaseAt]) hne
  | settle _ _ _ _ e =>
    exfalso; apply hne; rw [e]; unfold Item.settleDep; rw [if_neg (by simp [hst])]; rfl
  | removed _ _ h3 => exact absurd ((inSub_iff (ef.inv hi) _ _).1 h2).1 h3
  | due _ h _ _ _ => rw [hst] at h; simp at h
  | @timeout cb h3 _ h4 _ e =>
    subst h3
    refine Or.inr (Or.inr ⟨cb, rfl, ?_, ?_⟩)
    · unfold Item.releasable at h4
      cases hra : (q.store i).releaseAt with
      | none => rw [hra] at h4; simp at h4
      | some u => rw [hra] at h4; exact ⟨u, rfl, by simpa using h4⟩
    · rw [e] at hst'
      unfold Item.timeout at hst'
      split at hst'
      · rename_i hc; exact hc
      · simp [state_switchRunDelay] at hst'
      · simp [state_switchRunBury] at hst'
      · simp [Item.switchRunReady] at hst'
  | destroyed _ _ h3 => exact absurd ((inSub_iff (ef.inv hi) _ _).1 h2).1 h3

/-- two running items, one due and one not; the due one is buried -/
example : ((runFrom new [(0, .add { key := "a", ttr := 5 }), (0, .add { key := "b", ttr := 50 }), (1, .reserve ""),
    (2, .reserve "")]).bind fun q => (step q 30 (.ttrTick fun _ => .bury)).map fun o =>
      ((o.q.store 0).state, (o.q.store 1).state)) = some (.bury, .run) := by decide +kernel

/-! ## C11 -/

/-- C11, the part that holds: `Update` always stores the data; and it stores everything if at most one of (delay),
(priority, group), (TTR) differs from what the item has and the update does not also clear the item's last
dependencies. (`C11_violated` shows what happens otherwise.) -/
theorem C11_partial (h : List (Int × Op)) (q : Q) (hs : Along Safe new h) (hr : runFrom new h = some q) (now : Int)
    (key group : String) (data priority : Nat) (delay ttr : Int) (deps : Option (List String)) (i : Nat)
    (hop : Safe q (.update key group data priority delay ttr deps)) (o : Out)
    (ho : step q now (.update key group data priority delay ttr deps) = some o) (hres : o.res = .ok)
    (hk : q.find key = some i) :
    (o.q.store i).data = data ∧ o.q.find key = some i ∧
    ((q.store i).delay = delay ∧ (q.store i).priority = priority ∧ (q.store i).group = group ∧ deps ≠ some [] ∨
     (q.store i).delay = delay ∧ (q.store i).ttr = ttr ∨
     (q.store i).priority = priority ∧ (q.store i).group = group ∧ (q.store i).ttr = ttr →
      (o.q.store i).delay = delay ∧ (o.q.store i).priority = priority ∧ (o.q.store i).group = group ∧
      (o.q.store i).ttr = ttr) := by
  obtain ⟨hi, ht⟩ := run_inv h inv_new timed_new hs hr
  have ef := (step_eff (now := now) hi ht hop).1 o ho
  have hc : q.closed = false := by
    cases ef with
    | fail he => simp at hres
    | update hc _ _ _ _ _ => exact hc
    | move _ m _ => cases m
  cases ef with
  | fail he => simp at hres
  | move _ m _ => cases m
  | @update _ _ _ _ _ _ _ i' q' ra _ hf u _ _ _ =>
    rw [hk] at hf; injection hf with hf; subst hf
    have hst : q'.store i = (q.store i).updated group data priority delay ttr deps now := by rw [u.store, mod_self]
    refine ⟨?_, ?_, ?_⟩
    · show (q'.store i).data = _
      rw [hst]
      have hwf : ∀ it : Item, ∀ a, (it.withFields group priority delay ttr a now).data = it.data := by
        intro it a; unfold Item.withFields; repeat (first | split | rfl)
      have hwd : ∀ it : Item, ∀ l, (it.withDeps l).data = it.data := by
        intro it l; unfold Item.withDeps; repeat' split
        all_goals rfl
      unfold Item.updated
      split
      · rw [hwf]
      · rw [hwf]; split
        · rw [hwd]
        · rfl
    · show q'.find key = _; unfold Q.find; rw [u.items]; exact hk
    · intro hcase
      show (q'.store i).delay = _ ∧ (q'.store i).priority = _ ∧ (q'.store i).group = _ ∧ (q'.store i).ttr = _
      rw [hst]
      have core : ∀ (it : Item) (a : Bool), it.delay = (q.store i).delay → it.priority = (q.store i).priority →
          it.group = (q.store i).group → it.ttr = (q.store i).ttr → (a = true → deps = some []) →
          (it.withFields group priority delay ttr a now).delay = delay ∧
          (it.withFields group priority delay ttr a now).priority = priority ∧
          (it.withFields group priority delay ttr a now).group = group ∧
          (it.withFields group priority delay ttr a now).ttr = ttr := by
        intro it a e1 e2 e3 e4 ha
        unfold Item.withFields
        rcases hcase with ⟨a1, a2, a3, a4⟩ | ⟨a1, a2⟩ | ⟨a1, a2, a3⟩
        · have haf : a = false := by cases a; rfl; exact absurd (ha rfl) a4
          subst haf
          rw [if_neg (by simp [e1, a1]), if_neg (by simp [e2, e3, a2, a3])]
          split
          · split <;> simp [e1, e2, e3, a1, a2, a3]
          · rename_i h; simp only [ne_eq, Decidable.not_not] at h; simp [e1, e2, e3, a1, a2, a3, h]
        · rw [if_neg (by simp [e1, a1])]
          split
          · simp [e1, e4, a1, a2]
          · rename_i h; simp only [not_or, ne_eq, Decidable.not_not] at h
            rw [if_neg (by simp [e4, a2])]; simp [e1, e4, a1, a2, h.1, h.2.1]
        · split
          · split <;> simp [e2, e3, e4, a1, a2, a3]
          · rename_i h; simp only [ne_eq, Decidable.not_not] at h
            split
            · simp [e4, a3, h]
            · rw [if_neg (by simp [e4, a3])]; simp [e2, e3, e4, a1, a2, a3, h]
      have hwd : ∀ it : Item, ∀ l, (it.withDeps l).delay = it.delay ∧ (it.withDeps l).priority = it.priority ∧
          (it.withDeps l).group = it.group ∧ (it.withDeps l).ttr = it.ttr := by
        intro it l; unfold Item.withDeps; repeat' split
        all_goals exact ⟨rfl, rfl, rfl, rfl⟩
      unfold Item.updated
      cases deps with
      | none => exact core _ _ rfl rfl rfl rfl (by simp)
      | some l =>
        apply core
        · split
          · exact (hwd _ _).1
          · rfl
        · split
          · exact (hwd _ _).2.1
          · rfl
        · split
          · exact (hwd _ _).2.2.1
          · rfl
        · split
          · exact (hwd _ _).2.2.2
          · rfl
        · intro ha; simp at ha; rw [ha.2]

example : ((runFrom new [(0, .add { key := "a", priority := 1, ttr := 5 }), (1, .update "a" "g" 7 3 0 5 none)]).map fun q =>
    ((q.store 0).data, (q.store 0).priority, (q.store 0).group, q.ready "g")) = some (7, 3, "g", [0]) := by decide +kernel

/-- C11 fails when two of them differ: the delay is stored, the new priority, group and TTR are silently dropped. -/
theorem C11_violated : ∃ q o, runFrom new [(0, .add { key := "a" })] = some q ∧
    step q 1 (.update "a" "g" 7 3 10 5 none) = some o ∧ o.res = .ok ∧ (o.q.store 0).delay = 10 ∧
    (o.q.store 0).priority = 0 ∧ (o.q.store 0).group = "" ∧ (o.q.store 0).ttr = 0 := by
  have hq : ((runFrom new [(0, .add { key := "a" })]).bind fun q =>
      (step q 1 (.update "a" "g" 7 3 10 5 none)).map fun o =>
      (o.res, (o.q.store 0).delay, (o.q.store 0).priority, (o.q.store 0).group, (o.q.store 0).ttr)) =
      some (.ok, 10, 0, "", 0) := by decide +kernel
  obtain ⟨q, e, hq⟩ := Option.bind_eq_some_iff.1 hq
  obtain ⟨o, ho, hq⟩ := Option.map_eq_some_iff.1 hq
  simp only [Prod.mk.injEq] at hq
  exact ⟨q, o, e, ho, hq.1, hq.2.1, hq.2.2.1, hq.2.2.2.1, hq.2.2.2.2⟩

/-! ## C54: what the change callback is told is what happened -/

open Classical in
/-- specification: where an observer should believe item `i` to be -/
noncomputable def place (q : Q) (i : Nat) : SubQ :=
  if held q i then (q.store i).state.sub else if i < q.next then .removed else .new

/-- 1 if the two are the same, else 0 -/
def ind (a b : SubQ) : Int := if a = b then 1 else 0

/-- specification: the net number of times that the callbacks report item `i` as entering sub-queue `s` -/
def net (evs : List Ev) (i : Nat) (s : SubQ) : Int :=
  (evs.map fun e => if i ∈ e.who then ind e.dst s - ind e.src s else 0).sum

theorem net_nil (i s) : net [] i s = 0 := rfl
theorem net_cons (e : Ev) (evs i s) : net (e :: evs) i s = (if i ∈ e.who then ind e.dst s - ind e.src s else 0) + net evs i s := by
  simp [net]
theorem net_append (a b i s) : net (a ++ b) i s = net a i s + net b i s := by simp [net]

theorem place_live {q : Q} (hi : Inv q) {i} (hl : live q i) : place q i = (q.store i).state.sub := by
  unfold place; rw [if_pos ((held_iff hi i).2 hl)]
theorem place_dead {q : Q} (hi : Inv q) {i} (hl : ¬ live q i) (hlt : i < q.next) : place q i = .removed := by
  unfold place; rw [if_neg (fun h => hl ((held_iff hi i).1 h)), if_pos hlt]
theorem place_new {q : Q} (hi : Inv q) {i} (hl : ¬ i < q.next) : place q i = .new := by
  unfold place; rw [if_neg (fun h => hl (live_lt hi ((held_iff hi i).1 h))), if_neg hl]

/-- a step that only changes fields of items keeps unknown and removed items unknown and removed -/
theorem place_dead_same {q q' : Q} (hi : Inv q) (hi' : Inv q') {i} (hl : ¬ live q i) (hl' : ¬ live q' i) (hn : q'.next = q.next) :
    place q' i = place q i := by
  by_cases h : i < q.next
  · rw [place_dead hi hl h, place_dead hi' hl' (by omega)]
  · rw [place_new hi h, place_new hi' (by omega)]

theorem net_single (src dst : SubQ) (who i s) : net [⟨src, dst, who⟩] i s = if i ∈ who then ind dst s - ind src s else 0 := by
  simp [net]

theorem net_ttrEv (l : List (Nat × Target)) (t : Target) (x : SubQ) (i s) :
    net (ttrEv l t x) i s = if (i, t) ∈ l then ind x s - ind .run s else 0 := by
  have hmem : i ∈ (l.filter (fun p => p.2 = t)).map (·.1) ↔ (i, t) ∈ l := by
    simp only [List.mem_map, List.mem_filter, decide_eq_true_eq]
    constructor
    · rintro ⟨⟨a, b⟩, ⟨h1, h2⟩, h3⟩; simp only at h2 h3; subst h2; subst h3; exact h1
    · intro h; exact ⟨_, ⟨h, rfl⟩, rfl⟩
  unfold ttrEv; simp only
  split
  · rename_i he
    rw [he] at hmem
    rw [if_neg (fun h => by simp at hmem; exact hmem h)]; rfl
  · rw [net_single]
    by_cases h : (i, t) ∈ l
    · rw [if_pos (hmem.2 h), if_pos h]
    · rw [if_neg (fun x => h (hmem.1 x)), if_neg h]

theorem net_manyEvs (l : List (Nat × SubQ)) (hn : (l.map (·.1)).Nodup) (i : Nat) (s : SubQ)
    (hs : ∀ p ∈ l, p.2 = .ready ∨ p.2 = .delay ∨ p.2 = .dependent ∨ p.2 = .run ∨ p.2 = .bury) :
    (∀ x, (i, x) ∈ l → net (manyEvs l) i s = ind x s - ind .new s) ∧ (i ∉ l.map (·.1) → net (manyEvs l) i s = 0) := by
  have key : ∀ x : SubQ, net ([x].filterMap fun s => let who := (l.filter (fun p => p.2 = s)).map (·.1)
      if who = [] then none else some ⟨.new, s, who⟩) i s = if (i, x) ∈ l then ind x s - ind .new s else 0 := by
    intro x
    have hmem : i ∈ (l.filter (fun p => p.2 = x)).map (·.1) ↔ (i, x) ∈ l := by
      simp only [List.mem_map, List.mem_filter, decide_eq_true_eq]
      constructor
      · rintro ⟨⟨a, b⟩, ⟨h1, h2⟩, h3⟩; simp only at h2 h3; subst h2; subst h3; exact h1
      · intro h; exact ⟨_, ⟨h, rfl⟩, rfl⟩
    simp only [List.filterMap_cons, List.filterMap_nil]
    by_cases he : (l.filter (fun p => p.2 = x)).map (·.1) = []
    · rw [if_pos he]
      rw [he] at hmem
      rw [if_neg (fun h => by simp at hmem; exact hmem h)]; rfl
    · rw [if_neg he]; simp only
      rw [net_single]
      by_cases h : (i, x) ∈ l
      · rw [if_pos (hmem.2 h), if_pos h]
      · rw [if_neg (fun x => h (hmem.1 x)), if_neg h]
  have hsum : net (manyEvs l) i s = (if (i, SubQ.ready) ∈ l then ind .ready s - ind .new s else 0) +
      ((if (i, SubQ.delay) ∈ l then ind .delay s - ind .new s else 0) +
      ((if (i, SubQ.dependent) ∈ l then ind .dependent s - ind .new s else 0) +
      ((if (i, SubQ.run) ∈ l then ind .run s - ind .new s else 0) +
      (if (i, SubQ.bury) ∈ l then ind .bury s - ind .new s else 0)))) := by
    rw [← key, ← key, ← key, ← key, ← key, ← net_append, ← net_append, ← net_append, ← net_append]
    unfold manyEvs
    rw [← List.filterMap_append, ← List.filterMap_append, ← List.filterMap_append, ← List.filterMap_append]
    rfl
  have uniq : ∀ x y, (i, x) ∈ l → (i, y) ∈ l → x = y := by
    intro x y h1 h2
    clear hsum key hs
    induction l with
    | nil => simp at h1
    | cons p l ih =>
      simp only [List.map_cons, List.nodup_cons] at hn
      rcases List.mem_cons.1 h1 with e1 | e1 <;> rcases List.mem_cons.1 h2 with e2 | e2
      · rw [← e1] at e2; injection e2 with _ e2; exact e2.symm
      · exact absurd (List.mem_map.2 ⟨_, e2, rfl⟩) (by rw [← e1] at hn; exact hn.1)
      · exact absurd (List.mem_map.2 ⟨_, e1, rfl⟩) (by rw [← e2] at hn; exact hn.1)
      · exact ih hn.2 e1 e2
  constructor
  · intro x hx
    rw [hsum]
    have hno : ∀ y, y ≠ x → ¬ (i, y) ∈ l := fun y hne h => hne (uniq _ _ h hx)
    have hx5 := hs _ hx
    simp only at hx5
    rcases hx5 with h | h | h | h | h <;> subst h <;> simp [hx, hno]
  · intro hx
    have hno : ∀ y, ¬ (i, y) ∈ l := fun y h => hx (List.mem_map.2 ⟨_, h, rfl⟩)
    rw [hsum]; simp [hno]

theorem net_none {evs : List Ev} {i s} (h : ∀ e ∈ evs, i ∉ e.who) : net evs i s = 0 := by
  induction evs with
  | nil => rfl
  | cons e evs ih => rw [net_cons, if_neg (h e (by simp)), ih (fun x hx => h x (List.mem_cons_of_mem _ hx))]; rfl

theorem sub_five {q : Q} (hi : Inv q) {i} (hl : live q i) : (q.store i).state.sub = .ready ∨ (q.store i).state.sub = .delay ∨
    (q.store i).state.sub = .dependent ∨ (q.store i).state.sub = .run ∨ (q.store i).state.sub = .bury := by
  have := hi.notRemoved i hl (by simp)
  cases h : (q.store i).state <;> simp [State.sub, h] at this ⊢

/-- C54: for every operation other than `Destroy`, the events passed to the change callback account exactly for where
every item was before and is after the operation; no event names an item twice. -/
theorem C54_partial (h : List (Int × Op)) (q : Q) (hs : Along Safe new h) (hr : runFrom new h = some q) (now : Int)
    (op : Op) (hop : Safe q op) (hnd : op ≠ .destroy) (o : Out) (ho : step q now op = some o) :
    (∀ i s, net o.evs i s = ind (place o.q i) s - ind (place q i) s) ∧ (∀ e ∈ o.evs, e.who.Nodup) := by
  obtain ⟨hi, ht⟩ := run_inv h inv_new timed_new hs hr
  have ef := (step_eff (now := now) hi ht hop).1 o ho
  have hio := ef.inv hi
  cases ef with
  | fail he => exact ⟨fun i s => by simp [net_nil], by simp⟩
  | @add d q' s hc hf a hsub =>
    refine ⟨?_, by simp⟩
    intro i x
    simp only [net_single, List.mem_singleton]
    by_cases he : i = q.next
    · subst he
      rw [if_pos rfl, place_new hi (Nat.lt_irrefl _)]
      have hl : live q' q.next := by
        unfold live; rw [a.find]
        have : (q'.store q.next).key = d.key := by
          rw [a.store, if_pos rfl]; unfold placed; repeat' split
          all_goals rfl
        rw [if_pos this]
      rw [place_live hio hl, hsub]
    · rw [if_neg he]
      have hst : q'.store i = q.store i := by rw [a.store, if_neg he]
      have hlv : live q' i ↔ live q i := by
        unfold live; rw [hst, a.find]
        split
        · rename_i hk
          constructor
          · intro h; injection h with h; exact absurd h.symm he
          · intro h; rw [hk, hf] at h; simp at h
        · rfl
      by_cases hl : live q i
      · rw [place_live hi hl, place_live hio (hlv.2 hl)]; simp only [hst]; omega
      · by_cases hlt : i < q.next
        · rw [place_dead hi hl hlt, place_dead hio (fun h => hl (hlv.1 h)) (by have := a.next; simp only; omega)]; omega
        · rw [place_new hi hlt, place_new hio (by have := a.next; simp only; omega)]; omega
  | @addMany ds q' n l hc a =>
    constructor
    · intro i s
      have hm := net_manyEvs l a.nodup i s (fun p hp => by
        have := a.listed p hp
        rw [← this.2.2.2]; exact sub_five a.inv this.2.2.1)
      rcases a.cases hi i with ⟨h1, h2, h3⟩ | ⟨h1, h2, h3, _⟩ | ⟨h1, h2⟩
      · rw [hm.2 (by
          intro hx; obtain ⟨p, hp, e⟩ := List.mem_map.1 hx
          have := (a.listed p hp).1; have e : p.1 = i := e; omega)]
        by_cases hl : live q i
        · rw [place_live hi hl, place_live hio (h3.2 hl)]; simp only [h2]; omega
        · rw [place_dead hi hl h1, place_dead hio (fun h => hl (h3.1 h)) (by have := a.next; simp only; omega)]; omega
      · obtain ⟨p, hp, e⟩ := List.mem_map.1 (a.cover i h1 h2)
        have hli := a.listed p hp
        have hp' : (i, (q'.store i).state.sub) ∈ l := by
          have e : p.1 = i := e
          rw [e] at hli; rw [hli.2.2.2, ← e]; exact hp
        rw [hm.1 _ hp', place_live hio h3, place_new hi (by omega)]
      · rw [hm.2 (by
          intro hx; obtain ⟨p, hp, e⟩ := List.mem_map.1 hx
          have := (a.listed p hp).2.1; have e : p.1 = i := e; omega)]
        rw [place_new hi (by have := a.next; omega), place_new hio (by simp only; omega)]; omega
    · intro e he
      simp only [manyEvs, List.mem_filterMap] at he
      obtain ⟨s, _, he⟩ := he
      split at he
      · simp at he
      · injection he with he; subst he
        exact List.Sublist.nodup (List.Sublist.map _ List.filter_sublist) a.nodup
  | @move _ i' f evs ra res q' hc m mv =>
    have hfs : q'.store = (q.mod i' f).store := mv.frame.store
    have hlv : ∀ i, live q' i ↔ live q i := fun i => (mv.frame.live i).trans (mod_live q i' f m.key i)
    have hnx : q'.next = q.next := mv.frame.next
    have hli' : live q i' := by
      cases m <;> first | assumption | (exact hi.live (by assumption))
    have hev : (∀ e ∈ evs, e.who = [i']) ∧ ∀ s, net evs i' s = ind ((f (q.store i')).state.sub) s - ind ((q.store i').state.sub) s := by
      cases m
      case touch h => exact ⟨by simp, fun s => by simp [net_nil, Item.touch]⟩
      case releaseReady h _ => exact ⟨by simp, fun s => by simp [net_single, h, Item.switchRunReady, State.sub]⟩
      case releaseDelay h _ => exact ⟨by simp, fun s => by simp [net_single, h, state_switchRunDelay, State.sub]⟩
      case bury h => exact ⟨by simp, fun s => by simp [net_single, h, state_switchRunBury, State.sub]⟩
      case kickDep h _ => exact ⟨by simp, fun s => by simp [net_single, h, Item.switchBuryDependent, State.sub]⟩
      case kickReady h _ => exact ⟨by simp, fun s => by simp [net_single, h, Item.switchBuryReady, State.sub]⟩
      case reserve h _ _ => exact ⟨by simp, fun s => by simp [net_single, h, Item.switchReadyRun, State.sub]⟩
      case setDelay => exact ⟨by simp, fun s => by simp only [net_nil]; split; omega; split <;> simp only <;> omega⟩
      case setReserveGroup => exact ⟨by simp, fun s => by simp [net_nil]⟩
    refine ⟨?_, fun e he => by rw [hev.1 e he]; simp⟩
    intro i s
    simp only
    by_cases he : i = i'
    · subst he
      rw [place_live hi hli', place_live hio ((hlv i).2 hli')]; simp only [hfs, mod_self]
      exact hev.2 s
    · rw [net_none (fun e h => by rw [hev.1 e h]; simpa using he)]
      by_cases hl : live q i
      · rw [place_live hi hl, place_live hio ((hlv i).2 hl)]; simp only [hfs, mod_other _ _ _ _ he]; omega
      · rw [place_dead_same hi hio hl (fun h => hl ((hlv i).1 h)) hnx]; omega
  | @update key group data priority delay ttr deps i' q' ra hc hf u hra _ _ =>
    have hfs : q'.store = _ := u.store
    have hlv : ∀ i, live q' i ↔ live q i := by
      intro i; unfold live Q.find; rw [u.items, u.store, mod_key _ _ _ (fun it => updated_key _ _ _ _ _ _ _ it)]
    have hli' := hi.live hf
    have hev : (∀ e ∈ updateEvs i' (q.store i') deps, e.who = [i']) ∧ ∀ s, net (updateEvs i' (q.store i') deps) i' s =
        ind (((q.store i').updated group data priority delay ttr deps now).state.sub) s - ind ((q.store i').state.sub) s := by
      unfold updateEvs Item.updated
      cases deps with
      | none => exact ⟨by simp, fun s => by simp only [net_nil, withFields_state]; omega⟩
      | some ds =>
        simp only [withFields_state]
        cases hd : (q.store i').depsChange ds with
        | false => exact ⟨by simp, fun s => by simp [net_nil]⟩
        | true =>
          simp only [if_true]
          by_cases hds : ds = []
          · subst hds
            have hsd : (q.store i').state = .dependent := by
              have hb := hop i' hf
              unfold BadDeps at hb
              cases hst : decide ((q.store i').state = .dependent) with
              | true => simpa using hst
              | false =>
                have hst : (q.store i').state ≠ .dependent := by simpa using hst
                exfalso; apply hb
                refine ⟨rfl, hst, ?_⟩
                intro hrem; rw [Item.depsChange, hrem] at hd; simp [depDiff] at hd
            exact ⟨by simp, fun s => by simp [net_single, Item.withDeps, Item.switchDependentReady, State.sub, hsd]⟩
          · simp only [if_neg hds]
            have hnr := hi.notRemoved i' hli' (by simp)
            cases hst : (q.store i').state <;>
              simp_all [net_single, net_nil, Item.withDeps, Item.setDependencies, Item.switchDelayDependent,
                Item.switchReadyDependent, Item.switchRunDependent, State.sub]
    refine ⟨?_, fun e he => by rw [hev.1 e he]; simp⟩
    intro i s
    simp only
    by_cases he : i = i'
    · subst he
      rw [place_live hi hli', place_live hio ((hlv i).2 hli')]; simp only [hfs, mod_self]
      exact hev.2 s
    · rw [net_none (fun e h => by rw [hev.1 e h]; simpa using he)]
      by_cases hl : live q i
      · rw [place_live hi hl, place_live hio ((hlv i).2 hl)]; simp only [hfs, mod_other _ _ _ _ he]; omega
      · rw [place_dead_same hi hio hl (fun h => hl ((hlv i).1 h)) u.next]; omega
  | @changeKey old new i' q' hc _ _ r =>
    refine ⟨?_, by simp⟩
    intro i s
    simp only [net_nil]
    by_cases hl : live q i
    · rw [place_live hi hl, place_live hio ((r.live i).2 hl)]
      rcases r.store i with ⟨_, e⟩ | ⟨_, e⟩
      · exact absurd hl e
      · simp only [e, changedKey_state]; omega
    · rw [place_dead_same hi hio hl (fun h => hl ((r.live i).1 h)) r.next]; omega
  | @remove key order i' added s' q' hc hf r =>
    have hli' := hi.live hf
    have hdead : ¬ live q' i' := by
      cases (Eff.remove (now := now) hc hf r).fate hi i' hli' with
      | removed _ _ h => exact h
      | settle h _ h2 _ _ => injection h with h3 _; subst h3; exact absurd hf h2
      | same h1 h2 =>
        exfalso
        have : (q'.store i').state = .removed := by rw [r.self]; rfl
        exact hio.notRemoved i' h1 (by simp) this
      | move m _ _ => cases m
      | update h => simp at h
      | rename h => simp at h
      | due h => simp at h
      | timeout h => simp at h
      | destroyed h => simp at h
    constructor
    · intro i x
      simp only [net_cons]
      have hadd : net (if added = [] then [] else [⟨.dependent, .ready, added⟩]) i x =
          if i ∈ added then ind .ready x - ind .dependent x else 0 := by
        split
        · rename_i h; subst h; simp [net_nil]
        · rw [net_single]
      rw [hadd]
      simp only [List.mem_singleton]
      by_cases he : i = i'
      · subst he
        rw [if_pos rfl, place_live hi hli', place_dead hio hdead (by have := live_lt hi hli'; have := r.next; simp only; omega)]
        rw [r.src]
        by_cases hv : i ∈ q.visit key order
        · rw [if_pos hv]
          by_cases ha : i ∈ added
          · have h2 := (r.mem i).1 ha
            rw [if_pos ha]
            simp only [Item.settleDep, h2.2.1, h2.2.2, and_self, if_true, Item.switchDependentReady, State.sub]; omega
          · rw [if_neg ha]
            have : ¬ ((q.store i).state = .dependent ∧ ((q.store i).resolve key).remaining = []) := fun h => ha ((r.mem i).2 ⟨hv, h⟩)
            simp only [Item.settleDep]; rw [if_neg this]; simp only [Item.resolve]; omega
        · rw [if_neg hv, if_neg (fun ha => hv ((r.mem i).1 ha).1)]; omega
      · rw [if_neg he]
        have hst := r.other i he
        by_cases hl : live q i
        · have hl' : live q' i := by
            cases (Eff.remove (now := now) hc hf r).fate hi i hl with
            | removed h h2 _ => injection h with h3 _; subst h3; rw [hf] at h2; injection h2 with h2; exact absurd h2.symm he
            | settle _ _ _ h _ => exact h
            | same h1 _ => exact h1
            | move m _ _ => cases m
            | update h => simp at h
            | rename h => simp at h
            | due h => simp at h
            | timeout h => simp at h
            | destroyed h => simp at h
          rw [place_live hi hl, place_live hio hl']
          simp only [hst]
          by_cases hv : i ∈ q.visit key order
          · rw [if_pos hv]
            by_cases ha : i ∈ added
            · have h2 := (r.mem i).1 ha
              rw [if_pos ha]
              simp only [Item.settleDep, h2.2.1, h2.2.2, and_self, if_true, Item.switchDependentReady, State.sub]; omega
            · rw [if_neg ha]
              have : ¬ ((q.store i).state = .dependent ∧ ((q.store i).resolve key).remaining = []) := fun h => ha ((r.mem i).2 ⟨hv, h⟩)
              simp only [Item.settleDep]; rw [if_neg this]; simp only [Item.resolve]; omega
          · rw [if_neg hv, if_neg (fun ha => hv ((r.mem i).1 ha).1)]; omega
        · have hl' : ¬ live q' i := fun h => by
            have := (Eff.remove (now := now) hc hf r).born hi i hl h
            rcases this.2 with ⟨d, h, _⟩ | ⟨d, h, _⟩ <;> simp at h
          rw [place_dead_same hi hio hl hl' r.next, if_neg]
          · omega
          · intro ha
            have h2 := (r.mem i).1 ha
            have := hi.dead hc i hl
            rw [h2.2.1] at this; simp at this
    · intro e he
      rcases List.mem_cons.1 he with he | he
      · subst he; simp
      · split at he
        · simp at he
        · simp at he; subst he; exact r.nodup
  | @delayTick l q' b hm =>
    have hlv : ∀ i, live q' i ↔ live q i := by
      intro i; unfold live Q.find; rw [b.items, b.store]; split <;> rfl
    constructor
    · intro i s
      have hn : net (if l = [] then [] else [⟨.delay, .ready, l⟩]) i s = if i ∈ l then ind .ready s - ind .delay s else 0 := by
        split
        · rename_i h; subst h; simp [net_nil]
        · rw [net_single]
      simp only [hn]
      have hst := b.store i
      by_cases hv : i ∈ l
      · rw [if_pos hv] at hst ⊢
        have h2 := (hm i).1 hv
        rw [place_live hi h2.1, place_live hio ((hlv i).2 h2.1)]
        simp only [hst, h2.2.1, Item.switchDelayReady, State.sub]
      · rw [if_neg hv] at hst ⊢
        by_cases hl : live q i
        · rw [place_live hi hl, place_live hio ((hlv i).2 hl)]; simp only [hst]; omega
        · rw [place_dead_same hi hio hl (fun h => hl ((hlv i).1 h)) b.next]; omega
    · intro e he
      simp only at he
      split at he
      · simp at he
      · simp at he; subst he; exact b.nodup
  | @ttrTick cb l q' b h1 h2 =>
    have hlv : ∀ i, live q' i ↔ live q i := by
      intro i; unfold live Q.find; rw [b.items, b.store]; split
      · rw [timeout_key]
      · rfl
    constructor
    · intro i s
      simp only [net_append, net_ttrEv]
      have hst := b.store i
      by_cases hv : i ∈ l.map (·.1)
      · rw [if_pos hv] at hst
        have h3 := (h2 i).1 hv
        rw [place_live hi h3.1, place_live hio ((hlv i).2 h3.1)]
        obtain ⟨p, hp, e⟩ := List.mem_map.1 hv
        have e : p.1 = i := e
        have hpe : (i, cb (q.store i).data) ∈ l := by
          have := h1 p hp; rw [e] at this; rw [← this, ← e]; exact hp
        have huniq : ∀ t, (i, t) ∈ l ↔ t = cb (q.store i).data := by
          intro t
          constructor
          · intro h; exact h1 _ h
          · intro h; rw [h]; exact hpe
        simp only [hst, h3.2.1, huniq]
        cases hcb : cb (q.store i).data <;>
          simp [Item.timeout, Item.tempDisableTTR, h3.2.1, state_switchRunDelay, state_switchRunBury, Item.switchRunReady, State.sub]
      · rw [if_neg hv] at hst
        have hno : ∀ t, ¬ (i, t) ∈ l := fun t h => hv (List.mem_map.2 ⟨_, h, rfl⟩)
        simp only [hno, if_false]
        by_cases hl : live q i
        · rw [place_live hi hl, place_live hio ((hlv i).2 hl)]; simp only [hst]; omega
        · rw [place_dead_same hi hio hl (fun h => hl ((hlv i).1 h)) b.next]; omega
    · intro e he
      have aux : ∀ t x, e ∈ ttrEv l t x → e.who.Nodup := by
        intro t x h
        unfold ttrEv at h; simp only at h
        split at h
        · simp at h
        · simp at h; subst h; exact List.Sublist.nodup (List.Sublist.map _ List.filter_sublist) b.nodup
      simp only [List.mem_append] at he
      rcases he with (he | he) | he <;> exact aux _ _ he
  | destroy => exact absurd rfl hnd

/-- C54 is not met by `Destroy`: the items disappear without any event. -/
theorem C54_violated_destroy : ∃ q o, runFrom new [(0, .add { key := "a" })] = some q ∧ step q 1 .destroy = some o ∧
    o.evs = [] ∧ q.find "a" = some 0 ∧ o.q.find "a" = none := by
  have hq : ((runFrom new [(0, .add { key := "a" })]).bind fun q => (step q 1 .destroy).map fun o =>
      (o.evs.length, q.find "a", o.q.find "a")) = some (0, some 0, none) := by decide +kernel
  obtain ⟨q, e, hq⟩ := Option.bind_eq_some_iff.1 hq
  obtain ⟨o, ho, hq⟩ := Option.map_eq_some_iff.1 hq
  simp only [Prod.mk.injEq] at hq
  exact ⟨q, o, e, ho, List.length_eq_zero_iff.1 hq.1, hq.2.1, hq.2.2⟩

example : ((runFrom new [(0, .add { key := "a" }), (0, .add { key := "b", deps := ["a"] }), (0, .add { key := "c", deps := ["a", "z"] })]).bind fun q =>
    (step q 1 (.remove "a" [])).map fun o => o.evs.map fun e => (e.src, e.dst, e.who)) =
    some [(.ready, .removed, [0]), (.dependent, .ready, [1])] := by decide +kernel

/-! ## C12, the queue's part: nothing becomes ready unnoticed -/

/-- Whenever an operation puts an item in the ready sub-queue that was not there before, it calls `readyAdded`. -/
theorem C12_noticed (h : List (Int × Op)) (q : Q) (hs : Along Safe new h) (hr : runFrom new h = some q) (now : Int)
    (op : Op) (hop : Safe q op) (o : Out) (ho : step q now op = some o) (i : Nat)
    (h1 : ¬ inSub q .ready i) (h2 : inSub o.q .ready i) : o.readyAdded = true := by
  obtain ⟨hi, ht⟩ := run_inv h inv_new timed_new hs hr
  have ef := (step_eff (now := now) hi ht hop).1 o ho
  have hio := ef.inv hi
  rw [inSub_iff hi] at h1
  rw [inSub_iff hio] at h2
  obtain ⟨hl', hst'⟩ := h2
  have ef0 := ef
  cases ef with
  | fail he => exact absurd ⟨hl', hst'⟩ h1
  | @add d q' s hc hf a hsub =>
    by_cases hl : live q i
    · cases ef0.fate hi i hl with
      | same _ e => exact absurd ⟨hl, by rw [e] at hst'; exact hst'⟩ h1
      | move m => cases m
      | update h => simp at h
      | rename h => simp at h
      | settle h => simp at h
      | removed h => simp at h
      | due h => simp at h
      | timeout h => simp at h
      | destroyed h => simp at h
    · obtain ⟨_, ⟨_, _, e, _⟩ | ⟨_, e, _⟩⟩ := ef0.born hi i hl hl'
      · subst e; have hst' : (q'.store q.next).state = .ready := hst'
        rw [hst'] at hsub; simp [← hsub, State.sub]
      · simp at e
  | @addMany ds q' n l hc a =>
    rcases a.cases hi i with ⟨_, e, h3⟩ | ⟨h3, h4, _⟩ | ⟨_, h3⟩
    · exact absurd ⟨h3.1 hl', by have hst' : (q'.store i).state = .ready := hst'; rw [e] at hst'; exact hst'⟩ h1
    · obtain ⟨p, hp, e⟩ := List.mem_map.1 (a.cover i h3 h4)
      simp only [List.any_eq_true]
      refine ⟨p, hp, ?_⟩
      have := (a.listed p hp).2.2.2
      have e : p.1 = i := e
      rw [e] at this; have hst' : (q'.store i).state = .ready := hst'
      rw [hst'] at this; simp [← this, State.sub]
    · exact absurd hl' h3
  | @move _ i' f evs ra res q' hc m mv =>
    by_cases he : i = i'
    · subst he
      have hst2 : (f (q.store i)).state = .ready := by
        have : (q'.store i).state = .ready := hst'
        rw [mv.frame.store, mod_self] at this; exact this
      have hl : live q i := (mod_live q i f m.key i).1 ((mv.frame.live i).1 hl')
      have hnr : (q.store i).state ≠ .ready := fun h => h1 ⟨hl, h⟩
      cases m
      case touch => exact absurd hst2 hnr
      case releaseReady => rfl
      case releaseDelay => simp [state_switchRunDelay] at hst2
      case bury => simp [state_switchRunBury] at hst2
      case kickDep => simp [Item.switchBuryDependent] at hst2
      case kickReady => rfl
      case reserve => simp [Item.switchReadyRun] at hst2
      case setDelay => exfalso; apply hnr; simp only at hst2; split at hst2; exact hst2; split at hst2 <;> exact hst2
      case setReserveGroup => exact absurd hst2 hnr
    · exfalso; apply h1
      refine ⟨(mod_live q i' f m.key i).1 ((mv.frame.live i).1 hl'), ?_⟩
      have : (q'.store i).state = .ready := hst'
      rw [mv.frame.store, mod_other _ _ _ _ he] at this; exact this
  | @update key group data priority delay ttr deps i' q' ra hc hf u hra _ _ =>
    have hlq : live q i := by
      have hl' : live q' i := hl'
      unfold live Q.find at hl' ⊢; rw [u.items, u.store, mod_key _ _ _ (fun it => updated_key _ _ _ _ _ _ _ it)] at hl'; exact hl'
    have hst2 : (q'.store i).state = .ready := hst'
    rw [u.store] at hst2
    by_cases he : i = i'
    · subst he
      rw [mod_self] at hst2
      have hnr : (q.store i).state ≠ .ready := fun h => h1 ⟨hlq, h⟩
      show ra = true
      rw [hra]
      unfold Item.updated at hst2
      cases deps with
      | none => simp only [withFields_state] at hst2; exact absurd hst2 hnr
      | some ds =>
        simp only [withFields_state] at hst2
        cases hd : (q.store i).depsChange ds with
        | false => rw [hd] at hst2; simp at hst2; exact absurd hst2 hnr
        | true =>
          rw [hd] at hst2
          by_cases hds : ds = []
          · subst hds; exact ⟨rfl, hd⟩
          · exfalso
            simp only [if_true, Item.withDeps] at hst2
            cases hq : (q.store i).state <;>
              simp_all [Item.setDependencies, Item.switchDelayDependent, Item.switchRunDependent]
    · rw [mod_other _ _ _ _ he] at hst2; exact absurd ⟨hlq, hst2⟩ h1
  | @changeKey old new i' q' hc _ _ r =>
    exfalso; apply h1
    have hl := (r.live i).1 hl'
    rcases r.store i with ⟨_, e⟩ | ⟨_, e⟩
    · exact absurd hl e
    · have : (q'.store i).state = .ready := hst'
      rw [e, changedKey_state] at this; exact ⟨hl, this⟩
  | @remove key order i' added s' q' hc hf r =>
    by_cases hl : live q i
    · cases ef0.fate hi i hl with
      | same _ e => exact absurd ⟨hl, by rw [e] at hst'; exact hst'⟩ h1
      | @settle k ord h2 hv hne hx e =>
        injection h2 with h2a h2b; subst h2a; subst h2b
        have hne' : i ≠ i' := fun e => hne (by rw [e]; exact hf)
        have hst2 : (q'.store i).state = .ready := hst'
        have e : q'.store i = _ := e
        rw [e] at hst2
        unfold Item.settleDep at hst2
        split at hst2
        · rename_i hcond
          have := (r.mem i).2 ⟨hv, hcond⟩
          simp only [ne_eq, decide_eq_true_eq]
          intro hnil; rw [hnil] at this; simp at this
        · exact absurd ⟨hl, hst2⟩ h1
      | removed _ _ h => exact absurd hl' h
      | move m => cases m
      | update h => simp at h
      | rename h => simp at h
      | due h => simp at h
      | timeout h => simp at h
      | destroyed h => simp at h
    · obtain ⟨_, ⟨_, e, _⟩ | ⟨_, e, _⟩⟩ := ef0.born hi i hl hl' <;> simp at e
  | @delayTick l q' b hm =>
    have hst2 : (q'.store i).state = .ready := hst'
    rw [b.store] at hst2
    split at hst2
    · rename_i hv
      simp only [ne_eq, decide_eq_true_eq]
      intro hnil; rw [hnil] at hv; simp at hv
    · rename_i hv
      exfalso; apply h1; refine ⟨?_, hst2⟩
      have hl' : live q' i := hl'
      unfold live Q.find at hl' ⊢; rw [b.items, b.store, if_neg hv] at hl'; exact hl'
  | @ttrTick cb l q' b h3 h4 =>
    have hst2 : (q'.store i).state = .ready := hst'
    rw [b.store] at hst2
    split at hst2
    · rename_i hv
      obtain ⟨p, hp, e⟩ := List.mem_map.1 hv
      have e : p.1 = i := e
      simp only [List.any_eq_true]
      refine ⟨p, hp, ?_⟩
      have h5 := h3 p hp
      rw [e] at h5
      rw [h5]
      unfold Item.timeout at hst2
      split at hst2
      · have := ((h4 i).1 hv).2.1; simp [Item.tempDisableTTR] at hst2; rw [this] at hst2; simp at hst2
      · simp [state_switchRunDelay] at hst2
      · simp [state_switchRunBury] at hst2
      · rename_i hcb; simp [hcb]
    · rename_i hv
      exfalso; apply h1; refine ⟨?_, hst2⟩
      have hl' : live q' i := hl'
      unfold live Q.find at hl' ⊢; rw [b.items, b.store, if_neg hv] at hl'; exact hl'
  | destroy _ _ hit _ _ _ _ =>
    exfalso; unfold live Q.find at hl'; simp only [hit, mget] at hl'; simp at hl'

end Verif.Queue
