import Verif.Server.Recover
import Verif.Queue.Deps
/-!
# C29: recovery puts jobs back where they were
-/
namespace Verif.Server.Recover
open Verif.Queue

/-- specification: the pairs (dep group, job key) with which the lookup bucket was filled -/
def Filled (db : DB) (known : List (String × String)) : Prop := db.dtk = known.map fun p => lookupKey p.1 p.2

/-- specification: the job `r` depends on the incomplete job `k` -/
def WaitsFor (db : DB) (known : List (String × String)) (r : Rec) (k : String) : Prop :=
  (∃ r' ∈ db.live, r'.key = k) ∧ ∃ d ∈ r.deps, d = .essence k ∨ ∃ g, g ≠ "" ∧ d = .group g ∧ (g, k) ∈ known

/-- A job key is made of hexadecimal digits (utils.go:102-105). -/
def Hex (k : String) : Prop := '_' ∉ k.toList

private theorem delimiter_inj : ∀ (g g' k k' : List Char), '_' ∉ k → '_' ∉ k' → g ++ delimiter ++ k = g' ++ delimiter ++ k' →
    g = g' ∧ k = k' := by
  intro g g' k k' hk hk' e
  have h1 := congrArg List.reverse e
  simp only [List.reverse_append, delimiter] at h1
  have key : ∀ (a b x y : List Char), '_' ∉ a → '_' ∉ b → a ++ '_' :: x = b ++ '_' :: y → a = b ∧ x = y := by
    intro a
    induction a with
    | nil =>
      intro b x y _ hb e
      cases b with
      | nil => simpa using e
      | cons c b => simp at e; exact absurd e.1.symm (fun h => hb (by simp [h]))
    | cons c a ih =>
      intro b x y ha hb e
      cases b with
      | nil => simp at e; exact absurd e.1 (fun h => ha (by simp [h]))
      | cons c' b =>
        simp only [List.cons_append, List.cons.injEq] at e
        simp only [List.mem_cons, not_or] at ha hb
        obtain ⟨h1, h2⟩ := ih b x y ha.2 hb.2 e.2
        exact ⟨by rw [e.1, h1], h2⟩
  obtain ⟨h2, h3⟩ := key k.reverse k'.reverse (':' :: ':' :: '_' :: g.reverse) (':' :: ':' :: '_' :: g'.reverse)
    (by simpa using hk) (by simpa using hk') (by simpa using h1)
  simp at h2 h3
  exact ⟨h3, h2⟩

private theorem isLive_iff (db : DB) (k : String) : isLive db k = true ↔ ∃ r ∈ db.live, r.key = k := by
  simp [isLive]

private theorem mem_byDepGroup {db : DB} {known} (hf : Filled db known) (hl : ∀ r ∈ db.live, Hex r.key)
    (hk : ∀ p ∈ known, Hex p.2) (g k : String) :
    k ∈ byDepGroup db g ↔ (∃ r ∈ db.live, r.key = k) ∧ (g, k) ∈ known := by
  unfold byDepGroup
  have hf' : db.dtk = _ := hf
  simp only [List.mem_filterMap, List.mem_filter, hf', List.mem_map, List.isPrefixOf_iff_prefix]
  constructor
  · rintro ⟨e, ⟨⟨p, hp, rfl⟩, hpre⟩, hif⟩
    split at hif
    · rename_i hlive
      simp only [Option.some.injEq] at hif
      rw [hif] at hlive
      rw [isLive_iff] at hlive
      refine ⟨hlive, ?_⟩
      obtain ⟨r, hr, hrk⟩ := hlive
      obtain ⟨t, ht⟩ := hpre
      have ht' : t = k.toList := by
        rw [← hif, ← ht, List.drop_left, String.toList_ofList]
      subst ht'
      have := delimiter_inj g.toList p.1.toList k.toList p.2.toList (by rw [← hrk]; exact hl r hr) (hk p hp) ht
      rw [String.toList_inj, String.toList_inj] at this
      rw [this.1, this.2]; exact hp
    · cases hif
  · rintro ⟨hlive, hp⟩
    refine ⟨lookupKey g k, ⟨⟨(g, k), hp, rfl⟩, k.toList, by simp [lookupKey]⟩, ?_⟩
    have : String.ofList ((lookupKey g k).drop (g.toList ++ delimiter).length) = k := by
      unfold lookupKey; rw [List.drop_left, String.ofList_toList]
    rw [this, if_pos ((isLive_iff db k).2 hlive)]

/-- C29, the dependencies: the keys found are exactly those of the incomplete jobs that the job depends on, by name or
through a dep group, whatever the dep groups are called. -/
theorem C29_deps {db : DB} {known} (uniq : List String → List String) (hu : ∀ l k, k ∈ uniq l ↔ k ∈ l) (hf : Filled db known)
    (hl : ∀ r ∈ db.live, Hex r.key) (hk : ∀ p ∈ known, Hex p.2) (r : Rec) (k : String) :
    k ∈ incompleteJobKeys uniq db r.deps ↔ WaitsFor db known r k := by
  unfold incompleteJobKeys WaitsFor
  rw [hu, List.mem_flatMap]
  constructor
  · rintro ⟨d, hd, hm⟩
    cases d with
    | group g =>
      simp only [depKeys] at hm
      split at hm
      · cases hm
      · rename_i hg
        rw [mem_byDepGroup hf hl hk] at hm
        exact ⟨hm.1, _, hd, Or.inr ⟨g, hg, rfl, hm.2⟩⟩
    | essence j =>
      simp only [depKeys] at hm
      split at hm
      · rename_i hj
        simp only [List.mem_singleton] at hm
        subst hm
        exact ⟨(isLive_iff db k).1 hj, _, hd, Or.inl rfl⟩
      · cases hm
    | nothing => simp [depKeys] at hm
  · rintro ⟨hlive, d, hd, rfl | ⟨g, hg, rfl, hp⟩⟩
    · exact ⟨_, hd, by simp [depKeys, (isLive_iff db k).2 hlive]⟩
    · refine ⟨_, hd, ?_⟩
      simp only [depKeys, if_neg hg]
      exact (mem_byDepGroup hf hl hk g k).2 ⟨hlive, hp⟩

private theorem inj_of_nodup : ∀ {l : List Rec}, (l.map (·.key)).Nodup → ∀ {a b}, a ∈ l → b ∈ l → a.key = b.key → a = b
  | [], _, _, _, ha, _, _ => by simp at ha
  | r :: l, h, a, b, ha, hb, e => by
    simp only [List.map_cons, List.nodup_cons, List.mem_map, not_exists, not_and] at h
    rcases List.mem_cons.1 ha with rfl | ha'
    · rcases List.mem_cons.1 hb with rfl | hb'
      · rfl
      · exact absurd e.symm (h.1 b hb')
    · rcases List.mem_cons.1 hb with rfl | hb'
      · exact absurd e (h.1 a ha')
      · exact inj_of_nodup h.2 ha' hb' e

/-- specification: where the property says a recovered job has to be -/
def Right (db : DB) (known : List (String × String)) (r : Rec) : State → Prop
  | .run => r.state = .running
  | .bury => r.state = .buried
  | .dependent => r.state = .other ∧ ∃ k, WaitsFor db known r k
  | .ready => r.state = .other ∧ ∀ k, ¬ WaitsFor db known r k
  | _ => False

/-- C29: the queue of a restarted server holds exactly the live jobs, with their data; those that wait, wait exactly for
their incomplete dependencies; and each is in the right sub-queue, unless it is recorded as running or buried and has
incomplete dependencies (then it is with the dependent ones, see `C29_violated`). -/
theorem C29_partial (db : DB) (known) (uniq : List String → List String) (hu : ∀ l k, k ∈ uniq l ↔ k ∈ l) (ttr now : Int)
    (hf : Filled db known) (hl : ∀ r ∈ db.live, Hex r.key) (hk : ∀ p ∈ known, Hex p.2)
    (hd : (db.live.map (·.key)).Nodup) :
    let q := recover uniq ttr now db
    Consistent q ∧
    (∀ k, (∃ i, q.find k = some i) ↔ ∃ r ∈ db.live, r.key = k) ∧
    ∀ r ∈ db.live, ∀ i, q.find r.key = some i →
      (q.store i).data = r.data ∧ (q.store i).priority = r.priority ∧ (q.store i).group = r.group ∧
      ((r.state = .other ∨ ∀ k, ¬ WaitsFor db known r k) → ∀ s, inSub q s i ↔ Right db known r s) ∧
      (∀ k, k ∈ (q.store i).remaining ↔ WaitsFor db known r k) := by
  intro q
  obtain ⟨q', n, l', e, hn, hln, inv, ro, hnx, hcl, hst, hfs, hfn, hnew, hl', hcov, hnd⟩ :=
    addLoop_ok now ((db.live.map (itemdef uniq ttr db)).map fun d => { d with size := 0 }) new 0 0 [] inv_new
  have hq : q = q' := by
    show (new.addMany _ now).q = q'
    unfold Q.addMany
    rw [if_neg (by simp [new])]
    simp only [e]
  rw [hq]
  have hnone : ∀ k, new.find k = none := fun k => rfl
  have hiff : ∀ k, (∃ i, q'.find k = some i) ↔ ∃ r ∈ db.live, r.key = k := by
    intro k
    have := hfn k (hnone k)
    constructor
    · rintro ⟨i, hi⟩
      obtain ⟨d, h1, -, -⟩ := hnew k i (hnone k) hi
      have h2 := List.mem_of_find?_eq_some h1
      have h3 := List.find?_some h1
      simp only [List.mem_map] at h2
      obtain ⟨d0, ⟨r, hr, rfl⟩, rfl⟩ := h2
      exact ⟨r, hr, of_decide_eq_true h3⟩
    · rintro ⟨r, hr, rfl⟩
      cases hc : q'.find r.key with
      | some i => exact ⟨i, rfl⟩
      | none =>
        have := this.1 hc { itemdef uniq ttr db r with size := 0 }
          (List.mem_map.2 ⟨_, List.mem_map.2 ⟨r, hr, rfl⟩, rfl⟩)
        simp [itemdef] at this
  refine ⟨consistent_of_inv inv, hiff, ?_⟩
  intro r hr i hi
  obtain ⟨d, h1, h2, -⟩ := hnew r.key i (hnone _) hi
  have hd' : d = { itemdef uniq ttr db r with size := 0 } := by
    have h2 := List.mem_of_find?_eq_some h1
    have h3 := List.find?_some h1
    simp only [List.mem_map] at h2
    obtain ⟨d0, ⟨r', hr', rfl⟩, rfl⟩ := h2
    have : r'.key = r.key := of_decide_eq_true h3
    rw [show r' = r from ?_]
    exact inj_of_nodup hd hr' hr this
  subst hd'
  have hdeps := fun k => C29_deps uniq hu hf hl hk r k
  have hlive : live q' i := inv.live hi
  have hnil : incompleteJobKeys uniq db r.deps = [] ↔ ∀ k, ¬ WaitsFor db known r k := by
    rw [List.eq_nil_iff_forall_not_mem]
    exact ⟨fun h k hk => h k ((hdeps k).2 hk), fun h k hk => h k ((hdeps k).1 hk)⟩
  have hsub : ∀ s, inSub q' s i ↔ (q'.store i).state = s := fun s => by rw [inSub_iff inv]; simp [hlive]
  rw [h2]
  refine ⟨?_, ?_, ?_, ?_, ?_⟩
  · cases hs : r.state <;> simp only [placed, itemdef, hs] <;> split <;> rfl
  · cases hs : r.state <;> simp only [placed, itemdef, hs] <;> split <;> rfl
  · cases hs : r.state <;> simp only [placed, itemdef, hs] <;> split <;> rfl
  · intro hw s
    rw [hsub, h2]
    by_cases hw' : ∀ k, ¬ WaitsFor db known r k
    · have hn := hnil.2 hw'
      cases hs : r.state <;> cases s <;> simp [placed, itemdef, hs, hn, Right, Item.switchDelayReady, Item.touch,
        Item.switchReadyRun, state_switchRunBury] <;> first | exact hw' | skip
      all_goals exact hw'
    · have hn : incompleteJobKeys uniq db r.deps ≠ [] := fun h => hw' (hnil.1 h)
      have hs : r.state = .other := hw.resolve_right hw'
      have hex : ∃ k, WaitsFor db known r k := by simpa using hw'
      cases s <;> simp [placed, itemdef, hs, hn, Right, Item.setDependencies, Item.switchDelayDependent, hex]
  · intro k
    rw [placed_remaining]
    simp only [itemdef, List.mem_eraseDups]
    exact hdeps k

/-- A job that was buried when a job of its dep group was added stays buried in the running server, but a restarted
server puts it with the dependent jobs, so that it will be run without having been kicked. The same database content
with the job recorded as running puts a job that is running with those that have yet to be run. -/
def stray (s : JS) : DB :=
  { live := [{ key := "aa" }, { key := "bb", state := s, deps := [.group "g"] }], dtk := [lookupKey "g" "aa"] }

/-- C29 fails for buried and for running jobs with incomplete dependencies. -/
theorem C29_violated (s : JS) (hs : s ≠ .other) (ttr now : Int) : ∃ r ∈ (stray s).live, ∃ i,
    (recover id ttr now (stray s)).find r.key = some i ∧ inSub (recover id ttr now (stray s)) .dependent i ∧
    ¬ Right (stray s) [("g", "aa")] r .dependent :=
  ⟨{ key := "bb", state := s, deps := [.group "g"] }, by simp [stray], 1, by cases s <;> rfl,
    by cases s <;> exact List.mem_singleton.2 rfl, fun h => hs h.1⟩

/-- The hypotheses of `C29_partial` hold for `stray`, and for a database with a dep group whose name contains the
delimiter, a running, a buried, a ready and a waiting job. -/
example : Filled (stray .buried) [("g", "aa")] ∧ (∀ r ∈ (stray .buried).live, Hex r.key) ∧
    ((stray .buried).live.map (·.key)).Nodup := by
  refine ⟨rfl, ?_, by decide⟩
  intro r hr
  simp [stray] at hr
  rcases hr with rfl | rfl <;> (unfold Hex; decide)

private def demo : DB :=
  { live := [{ key := "a1", state := .running }, { key := "b2", state := .buried }, { key := "c3" },
      { key := "d4", deps := [.group "x", .essence "a1", .group "x_::_y"] }]
    dtk := [lookupKey "x" "b2", lookupKey "x" "ff", lookupKey "x_::_y" "c3"] }

example : ((recover id 1 0 demo).find "a1").map (fun i => ((recover id 1 0 demo).store i).state) = some .run ∧
    ((recover id 1 0 demo).find "b2").map (fun i => ((recover id 1 0 demo).store i).state) = some .bury ∧
    ((recover id 1 0 demo).find "c3").map (fun i => ((recover id 1 0 demo).store i).state) = some .ready ∧
    ((recover id 1 0 demo).find "d4").map (fun i => ((recover id 1 0 demo).store i).remaining) = some ["b2", "a1", "c3"] := by
  decide +kernel

end Verif.Server.Recover
