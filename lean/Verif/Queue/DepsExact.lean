import Verif.Queue.Deps
/-! The dependants lookup is sound: whatever is registered there is an item in the queue with that outstanding
dependency (as long as no key is changed, and no item is given new dependencies while an old one is not in the queue). -/
namespace Verif.Queue
open Verif.Heap

def NonEmpty (m : List (String × List (String × Nat))) : Prop := ∀ k inner, mget m k = some inner → inner ≠ []

theorem has_iff {m : List (String × List (String × Nat))} (h : NonEmpty m) (k : String) :
    (mget m k).isSome = true ↔ ∃ x j, reg m k x = some j := by
  constructor
  · intro hs
    obtain ⟨inner, hi⟩ := Option.isSome_iff_exists.1 hs
    obtain ⟨p, ps, rfl⟩ := List.exists_cons_of_ne_nil (h k inner hi)
    refine ⟨p.1, p.2, ?_⟩
    unfold reg; rw [hi]; simp [mget, List.lookup]
  · rintro ⟨x, j, hr⟩
    unfold reg at hr
    cases hm : mget m k with
    | none => rw [hm] at hr; simp [mget] at hr
    | some v => rfl

theorem nonEmpty_mdel {m : List (String × List (String × Nat))} (h : NonEmpty m) (k : String) : NonEmpty (mdel m k) := by
  intro k' inner e
  rw [mget_mdel] at e
  split at e
  · cases e
  · exact h k' inner e

theorem nonEmpty_mset {m : List (String × List (String × Nat))} (h : NonEmpty m) (k : String) {v} (hv : v ≠ []) :
    NonEmpty (mset m k v) := by
  intro k' inner e
  rw [mget_mset] at e
  split at e
  · simp at e; rw [← e]; exact hv
  · exact h k' inner e

theorem nonEmpty_setQueueDeps (key : String) (i : Nat) (deps : List String) : ∀ {m : List (String × List (String × Nat))},
    NonEmpty m → NonEmpty (setQueueDeps m key i deps) := by
  induction deps with
  | nil => intro m h; exact h
  | cons d ds ih =>
    intro m h
    exact ih (nonEmpty_mset h d (by unfold mset; simp))

theorem nonEmpty_unlink (key : String) (ps : List String) : ∀ {m : List (String × List (String × Nat))},
    NonEmpty m → NonEmpty (unlinkParents m key ps) := by
  induction ps with
  | nil => intro m h; exact h
  | cons p ps ih =>
    intro m h
    unfold unlinkParents
    rw [List.foldl_cons]
    cases hm : mget m p with
    | none => exact ih h
    | some inner =>
      simp only
      split
      · exact ih (nonEmpty_mdel h p)
      · rename_i hne; exact ih (nonEmpty_mset h p hne)

theorem nonEmpty_drop (q : Q) (key : String) (l : List String) (h : NonEmpty q.dependants) : NonEmpty (dropDependants q key l) := by
  unfold dropDependants
  revert h
  generalize q.dependants = m
  intro h
  induction l generalizing m with
  | nil => exact h
  | cons d l ih =>
    rw [List.foldl_cons]
    apply ih
    split
    · simp only
      split
      · exact nonEmpty_mdel h d
      · rename_i hne
        split
        · exact nonEmpty_mset h d hne
        · exact h
    · exact h

theorem unlink_mono (key : String) (ps : List String) : ∀ (m : List (String × List (String × Nat))) (k x : String) (j : Nat),
    reg (unlinkParents m key ps) k x = some j → reg m k x = some j := by
  intro m k x j h
  by_cases hx : x = key
  · subst hx
    induction ps generalizing m with
    | nil => exact h
    | cons p ps ih =>
      unfold unlinkParents at h
      rw [List.foldl_cons] at h
      cases hm : mget m p with
      | none => rw [hm] at h; exact ih m h
      | some inner =>
        rw [hm] at h
        simp only at h
        split at h
        · have := ih _ h
          rw [reg_mdel] at this
          split at this
          · cases this
          · exact this
        · have := ih _ h
          rw [reg_mset] at this
          split at this
          · rw [mget_mdel, if_pos rfl] at this; cases this
          · exact this
  · rwa [reg_unlinkParents _ _ _ _ _ hx] at h

theorem unlink_self (key : String) (ps : List String) : ∀ (m : List (String × List (String × Nat))) (k : String), k ∈ ps →
    reg (unlinkParents m key ps) k key = none := by
  induction ps with
  | nil => intro m k h; cases h
  | cons p ps ih =>
    intro m k hk
    rcases List.mem_cons.1 hk with rfl | hk
    · cases hr : reg (unlinkParents m key (k :: ps)) k key with
      | none => rfl
      | some j =>
        exfalso
        unfold unlinkParents at hr
        rw [List.foldl_cons] at hr
        cases hm : mget m k with
        | none =>
          rw [hm] at hr
          have := unlink_mono key ps m k key j hr
          unfold reg at this; rw [hm] at this; simp [mget] at this
        | some inner =>
          rw [hm] at hr
          simp only at hr
          split at hr
          · have := unlink_mono key ps _ k key j hr
            rw [reg_mdel, if_pos rfl] at this; cases this
          · have := unlink_mono key ps _ k key j hr
            rw [reg_mset, if_pos rfl, mget_mdel, if_pos rfl] at this; cases this
    · unfold unlinkParents
      rw [List.foldl_cons]
      exact ih _ k hk

theorem drop_mono (q : Q) (key : String) (l : List String) (k : String) (j : Nat)
    (h : reg (dropDependants q key l) k key = some j) : reg q.dependants k key = some j ∧ (k ∈ l → q.find k = none) := by
  unfold dropDependants at h
  revert h
  generalize q.dependants = m
  intro h
  induction l generalizing m with
  | nil => exact ⟨h, fun hk => by cases hk⟩
  | cons d l ih =>
    rw [List.foldl_cons] at h
    obtain ⟨h1, h2⟩ := ih _ h
    have key1 : reg m k key = some j ∧ (k = d → q.find k = none) := by
      split at h1
      · rename_i hd
        simp only at h1
        have hin : mget (mdel ((mget m d).getD []) key) key = none := by rw [mget_mdel, if_pos rfl]
        split at h1
        · rw [reg_mdel] at h1
          split at h1
          · cases h1
          · rename_i hne; exact ⟨h1, fun e => absurd e hne⟩
        · split at h1
          · rw [reg_mset] at h1
            split at h1
            · rw [hin] at h1; cases h1
            · rename_i hne; exact ⟨h1, fun e => absurd e hne⟩
          · rename_i hne
            refine ⟨h1, ?_⟩
            intro e; subst e
            exfalso
            apply hne
            unfold reg at h1
            cases hm : mget m k with
            | none => rw [hm] at h1; simp [mget] at h1
            | some v => rfl
      · rename_i hd
        exact ⟨h1, fun e => by subst e; simpa using hd⟩
    refine ⟨key1.1, ?_⟩
    intro hk
    rcases List.mem_cons.1 hk with hk | hk
    · exact key1.2 hk
    · exact h2 hk

theorem mem_depDiff (ds : List String) : ∀ (old : List String) (k : String), k ∈ (depDiff old ds).1 ↔ k ∈ old ∧ k ∉ ds := by
  induction ds with
  | nil => intro old k; simp [depDiff]
  | cons d ds ih =>
    intro old k
    simp only [depDiff, ih, List.mem_filter, List.mem_cons, not_or, decide_eq_true_eq]
    constructor
    · rintro ⟨⟨a, b⟩, c⟩; exact ⟨a, b, c⟩
    · rintro ⟨a, b, c⟩; exact ⟨⟨a, b⟩, c⟩

structure RegExact (q : Q) : Prop where
  full : NonEmpty q.dependants
  real : ∀ k x j, reg q.dependants k x = some j → live q j ∧ (q.store j).key = x ∧ k ∈ (q.store j).remaining
  sub : ∀ j, live q j → ∀ k ∈ (q.store j).remaining, k ∈ (q.store j).dependencies

/-- No key is changed, and dependencies are replaced only while all the outstanding ones are in the queue. -/
def KeepsDeps (q : Q) : Op → Prop
  | .changeKey _ _ => False
  | .update k _ _ _ _ _ (some _) => ∀ i, q.find k = some i → ∀ d ∈ (q.store i).remaining, (q.find d).isSome
  | _ => True

theorem RegExact.same {q q' : Q} (h : RegExact q) (hd : q'.dependants = q.dependants) (hl : ∀ j, live q' j ↔ live q j)
    (hs : ∀ j, (q'.store j).key = (q.store j).key ∧ (q'.store j).remaining = (q.store j).remaining ∧
      (q'.store j).dependencies = (q.store j).dependencies) : RegExact q' := by
  refine ⟨by rw [hd]; exact h.full, ?_, ?_⟩
  · intro k x j hr
    rw [hd] at hr
    obtain ⟨a, b, c⟩ := h.real k x j hr
    exact ⟨(hl j).2 a, by rw [(hs j).1]; exact b, by rw [(hs j).2.1]; exact c⟩
  · intro j hj k hk
    rw [(hs j).2.1] at hk
    rw [(hs j).2.2]; exact h.sub j ((hl j).1 hj) k hk

theorem placed_dependencies (d : Def) (now : Int) (many : Bool) : (placed d now many (mkItem d now)).dependencies = d.deps := by
  unfold placed
  split
  · rfl
  · rename_i h
    have h : d.deps = [] := by simpa using h
    rw [h]
    repeat' split
    all_goals simp [Item.switchReadyRun, Item.touch, Item.switchDelayReady, Item.switchRunBury, mkItem]

theorem added_exact {q q' : Q} {d : Def} {now many} (hi : Inv q) (hf : q.find d.key = none) (a : Added q q' d now many) (h : RegExact q) :
    RegExact q' := by
  have hs : q'.store q.next = placed d now many (mkItem d now) := by rw [a.store, if_pos rfl]
  have hold : ∀ j, live q j → live q' j ∧ q'.store j = q.store j := by
    intro j hj
    have hne : j ≠ q.next := by have := live_lt hi hj; omega
    have he : q'.store j = q.store j := by rw [a.store, if_neg hne]
    refine ⟨?_, he⟩
    have hk : (q.store j).key ≠ d.key := by
      intro e; have h2 : q.find (q.store j).key = some j := hj; rw [e, hf] at h2; cases h2
    unfold live; rw [he, a.find, if_neg hk]; exact hj
  have hnew : live q' q.next := by unfold live; rw [hs, placed_key, a.find, if_pos rfl]
  refine ⟨?_, ?_, ?_⟩
  · rw [a.dependants]; split
    · exact nonEmpty_setQueueDeps _ _ _ h.full
    · exact h.full
  · intro k x j hr
    rw [a.dependants] at hr
    have hcase : reg q.dependants k x = some j ∨ (x = d.key ∧ k ∈ d.deps ∧ j = q.next) := by
      split at hr
      · rw [reg_setQueueDeps] at hr
        split at hr
        · rename_i hx; simp at hr; exact Or.inr ⟨hx.1, hx.2, hr.symm⟩
        · exact Or.inl hr
      · exact Or.inl hr
    rcases hcase with hr | ⟨rfl, hk, rfl⟩
    · obtain ⟨b1, b2, b3⟩ := h.real k x j hr
      obtain ⟨c1, c2⟩ := hold j b1
      rw [c2]; exact ⟨c1, b2, b3⟩
    · rw [hs, placed_key, placed_remaining, eraseDups_mem]; exact ⟨hnew, rfl, hk⟩
  · intro j hj k hk
    by_cases hjn : j = q.next
    · subst hjn
      rw [hs, placed_remaining, eraseDups_mem] at hk
      rw [hs, placed_dependencies]; exact hk
    · have he : q'.store j = q.store j := by rw [a.store, if_neg hjn]
      have hlq : live q j := by
        have h2 : q'.find (q'.store j).key = some j := hj
        rw [he, a.find] at h2
        split at h2
        · simp at h2; exact absurd h2.symm hjn
        · exact h2
      rw [he] at hk ⊢; exact h.sub j hlq k hk

theorem addLoop_exact (now : Int) (ds : List Def) : ∀ (q : Q) (a u : Nat) (l), Inv q → RegExact q →
    RegExact (Q.addLoop now q ds a u l).1 := by
  induction ds with
  | nil => intro q a u l _ h; exact h
  | cons d ds ih =>
    intro q a u l hi h
    unfold Q.addLoop
    split
    · exact ih _ _ _ _ hi h
    · rename_i hf
      have hf : q.find d.key = none := by simpa using hf
      have had := (add_core hi d now true hf).1
      exact ih _ _ _ _ had.inv (added_exact hi hf had h)

theorem withDeps_dependencies (ds) (it : Item) : (it.withDeps ds).dependencies = ds := by
  unfold Item.withDeps; repeat' split
  all_goals rfl

theorem withFields_dependencies (g p d t a n) (it : Item) : (it.withFields g p d t a n).dependencies = it.dependencies := by
  unfold Item.withFields; repeat (first | split | rfl)

theorem Move.dependencies {q : Q} {now op i f evs ra res} (m : Move q now op i f evs ra res) (it : Item) :
    (f it).dependencies = it.dependencies := by
  cases m
  case touch => rfl
  case releaseReady => rfl
  case releaseDelay => rfl
  case bury => rfl
  case kickDep => rfl
  case kickReady => rfl
  case reserve => rfl
  case setDelay => simp only; split; rfl; split <;> rfl
  case setReserveGroup => rfl

theorem removed_exact {q q' : Q} {key order i added s} (hi : Inv q) (hf : q.find key = some i)
    (r : RemovedKey q q' key order i added s) (h : RegExact q) : RegExact q' := by
  have hkey := (hi.keyOf _ _ hf).1
  refine ⟨?_, ?_, ?_⟩
  · rw [r.dependants]; exact nonEmpty_unlink _ _ (nonEmpty_mdel h.full _)
  · intro k x j hr
    rw [r.dependants] at hr
    have h1 := unlink_mono _ _ _ _ _ _ hr
    rw [reg_mdel] at h1
    split at h1
    · cases h1
    rename_i hkk
    obtain ⟨a, b, c⟩ := h.real k x j h1
    have hji : j ≠ i := by
      intro e; subst e
      rw [hkey] at b; subst b
      rw [unlink_self _ _ _ k (h.sub j a k c)] at hr; cases hr
    have hst := r.other j hji
    have hst1 : (q'.store j).key = (q.store j).key := by
      rw [hst]; split
      · exact settleDep_key _ _
      · rfl
    have hne : (q.store j).key ≠ key := by
      intro e; have h2 : q.find (q.store j).key = some j := a
      rw [e, hf] at h2; simp at h2; exact hji h2.symm
    refine ⟨?_, by rw [hst1]; exact b, ?_⟩
    · unfold live; rw [hst1, r.find, if_neg hne]; exact a
    · rw [hst]; split
      · rw [settleDep_remaining, List.mem_filter]; exact ⟨c, by simpa using hkk⟩
      · exact c
  · intro j hj k hk
    have h2 : q'.find (q'.store j).key = some j := hj
    rw [r.find] at h2
    split at h2
    · cases h2
    rename_i hne
    have hlq : live q j := hi.live h2
    have hji : j ≠ i := by
      intro e; subst e
      exact hne ((hi.keyOf _ _ h2).1.symm.trans hkey)
    have hst := r.other j hji
    rw [hst] at hk ⊢
    split at hk
    · rename_i hv
      rw [settleDep_remaining, List.mem_filter] at hk
      rw [if_pos hv]
      have : ((q.store j).settleDep key).dependencies = (q.store j).dependencies := by
        unfold Item.settleDep; split <;> rfl
      rw [this]; exact h.sub j hlq k hk.1
    · rename_i hv; rw [if_neg hv]; exact h.sub j hlq k hk

theorem step_exact {q : Q} {now op o} (hi : Inv q) (hs : step q now op = some o) (e : Eff q now op o) (hk : KeepsDeps q op)
    (hq : q.closed = false → RegExact q) : o.q.closed = false → RegExact o.q := by
  intro hoc
  have hqc : q.closed = false := by
    cases hc : q.closed with
    | false => rfl
    | true => rw [e.closed hc] at hoc; cases hoc
  have h := hq hqc
  cases e with
  | fail _ => exact h
  | add _ hf a _ => exact added_exact hi hf a h
  | @addMany ds q' n l hc a =>
    have : (Q.addLoop now q (ds.map fun d => { d with size := 0 }) 0 0 []).1 = q' := by
      simp only [step, Q.addMany, hc] at hs
      simp at hs; exact hs.1
    show RegExact q'
    rw [← this]; exact addLoop_exact _ _ _ _ _ _ hi h
  | @move _ i' f evs ra res q' hc m mv =>
    refine h.same mv.frame.dependants (fun j => by rw [mv.frame.live j, mod_live q i' f m.key j]) fun j => ?_
    rw [mv.frame.store]
    by_cases e : j = i'
    · subst e; rw [mod_self]; exact ⟨m.key _, m.remaining _, m.dependencies _⟩
    · rw [mod_other _ _ _ _ e]; exact ⟨rfl, rfl, rfl⟩
  | @update key group data priority delay ttr deps i' q' ra hc hf u _ _ hdep =>
    have hkey : ∀ j, (q'.store j).key = (q.store j).key := by
      intro j; rw [u.store, mod_key _ _ _ (fun it => updated_key _ _ _ _ _ _ _ it)]
    have hlive : ∀ j, live q' j ↔ live q j := by
      intro j; unfold live Q.find; rw [u.items, hkey]
    have hself : q'.store i' = Item.updated group data priority delay ttr deps now (q.store i') := by
      rw [u.store, mod_self]
    have hoth : ∀ j, j ≠ i' → q'.store j = q.store j := by
      intro j hj; rw [u.store, mod_other _ _ _ _ hj]
    have hkk := (hi.keyOf _ _ hf).1
    have plain : updDependants q key i' deps = q.dependants →
        (Item.updated group data priority delay ttr deps now (q.store i')).remaining = (q.store i').remaining →
        (Item.updated group data priority delay ttr deps now (q.store i')).dependencies = (q.store i').dependencies →
        RegExact q' := by
      intro h1 h2 h3
      refine h.same (by rw [hdep, h1]) hlive fun j => ⟨hkey j, ?_⟩
      by_cases e : j = i'
      · subst e; rw [hself]; exact ⟨h2, h3⟩
      · rw [hoth j e]; exact ⟨rfl, rfl⟩
    cases deps with
    | none => exact plain rfl (by unfold Item.updated; rw [withFields_remaining]) (by unfold Item.updated; rw [withFields_dependencies])
    | some ds =>
      cases hd : (q.store i').depsChange ds with
      | false =>
        refine plain (by simp [updDependants, hd]) ?_ ?_
        · simp [Item.updated, hd, withFields_remaining]
        · simp [Item.updated, hd, withFields_dependencies]
      | true =>
        have hrem : (q'.store i').remaining = ds.eraseDups := by
          rw [hself]; simp [Item.updated, hd, withFields_remaining, withDeps_remaining]
        have hdeps : (q'.store i').dependencies = ds := by
          rw [hself]; simp [Item.updated, hd, withFields_dependencies, withDeps_dependencies]
        have hlast : q'.dependants = setQueueDeps (dropDependants q key (depDiff (q.store i').remaining ds).1) key i' ds := by
          rw [hdep]; simp [updDependants, hd]
        have hli : live q' i' := (hlive i').2 (hi.live hf)
        show RegExact q'
        refine ⟨?_, ?_, ?_⟩
        · rw [hlast]; exact nonEmpty_setQueueDeps _ _ _ (nonEmpty_drop _ _ _ h.full)
        · intro k x j hr
          rw [hlast, reg_setQueueDeps] at hr
          split at hr
          · rename_i hx
            simp at hr; subst hr
            rw [hrem, hkey, eraseDups_mem]
            exact ⟨hli, by rw [hkk, hx.1], hx.2⟩
          · rename_i hx
            by_cases hxk : x = key
            · subst hxk
              obtain ⟨h1, h2⟩ := drop_mono _ _ _ _ _ hr
              obtain ⟨a, b, c⟩ := h.real k x j h1
              have hji : j = i' := by
                have h2 : q.find (q.store j).key = some j := a
                rw [b, hf] at h2; simp at h2; exact h2.symm
              subst hji
              have hks : k ∉ ds := fun hk => hx ⟨rfl, hk⟩
              have h3 := h2 ((mem_depDiff ds _ k).2 ⟨c, hks⟩)
              have h4 := hk j hf k c
              rw [h3] at h4; cases h4
            · rw [reg_dropDependants _ _ _ _ _ hxk] at hr
              obtain ⟨a, b, c⟩ := h.real k x j hr
              have hji : j ≠ i' := by
                intro e; subst e; rw [hkk] at b; exact hxk b.symm
              rw [hoth j hji]; exact ⟨(hlive j).2 a, b, c⟩
        · intro j hj k hk'
          by_cases e : j = i'
          · subst e; rw [hrem, eraseDups_mem] at hk'; rw [hdeps]; exact hk'
          · rw [hoth j e] at hk' ⊢; exact h.sub j ((hlive j).1 hj) k hk'
  | changeKey => exact absurd hk (by simp [KeepsDeps])
  | @remove key order i' added s' q' hc hf r => exact removed_exact hi hf r h
  | @delayTick l q' b hm =>
    have hs : ∀ j, (q'.store j).key = (q.store j).key ∧ (q'.store j).remaining = (q.store j).remaining ∧
      (q'.store j).dependencies = (q.store j).dependencies := by
      intro j; rw [b.store]; split <;> exact ⟨rfl, rfl, rfl⟩
    exact h.same b.dependants (fun j => by unfold live Q.find; rw [b.items, (hs j).1]) hs
  | @ttrTick cb l q' b _ _ =>
    have hs : ∀ j, (q'.store j).key = (q.store j).key ∧ (q'.store j).remaining = (q.store j).remaining ∧
      (q'.store j).dependencies = (q.store j).dependencies := by
      intro j; rw [b.store]; split
      · exact ⟨timeout_key _ _ _, timeout_remaining _ _ _, by unfold Item.timeout; split <;> rfl⟩
      · exact ⟨rfl, rfl, rfl⟩
    exact h.same b.dependants (fun j => by unfold live Q.find; rw [b.items, (hs j).1]) hs
  | destroy _ hc' _ _ _ _ _ => rw [hc'] at hoc; cases hoc

theorem exact_new : RegExact new :=
  ⟨fun k inner h => by simp [new, mget] at h, fun k x j h => by simp [new, reg, mget] at h,
    fun j hl => by simp [live, new, Q.find, mget] at hl⟩

theorem run_exact (h : List (Int × Op)) : ∀ {q q' : Q}, Inv q → Timed q → (q.closed = false → RegExact q) → Along Safe q h →
    Along KeepsDeps q h → runFrom q h = some q' → q'.closed = false → RegExact q' := by
  induction h with
  | nil => intro q q' hi ht ho _ _ e; simp [runFrom] at e; subst e; exact ho
  | cons a h ih =>
    obtain ⟨now, op⟩ := a
    intro q q' hi ht ho hs hf e
    simp only [runFrom] at e
    cases hst : step q now op with
    | none => rw [hst] at e; simp at e
    | some o =>
      rw [hst] at e
      have ef := (step_eff (now := now) hi ht hs.1).1 o hst
      exact ih (ef.inv hi) (ef.timed hi ht) (step_exact hi hst ef hf.1 ho) (hs.2 o hst) (hf.2 o hst) e

theorem keeps_clean {q : Q} {op : Op} (h : KeepsDeps q op) : CleanRename q op := by
  cases op <;> first | trivial | exact absurd h (by simp [KeepsDeps])

end Verif.Queue
