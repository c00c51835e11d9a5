import Verif.Server.Delete
import Verif.Queue.DepsExact
/-!
# C30: deleting jobs never deletes a running job or strands a dependent
-/
namespace Verif.Server.Delete
open Verif.Queue

/-- specification: the job with key `k'` waits for that with key `k` -/
def Depends (q : Q) (k' k : String) : Prop := ∃ j, q.find k' = some j ∧ k ∈ (q.store j).remaining

/-- specification: the jobs that can be deleted, given the requested ones: those in the queue, not running, all of whose
dependents can be deleted. (Jobs that depend on each other in a circle cannot.) -/
inductive Deletable (q : Q) (keys : List String) : String → Prop
  | mk {k i} : k ∈ keys → q.find k = some i → (q.store i).state ≠ .run →
      (∀ k', Depends q k' k → Deletable q keys k') → Deletable q keys k

private structure Facts (q : Q) : Prop where
  inv : Inv q
  exact : RegExact q
  deps : DepsInv q
  opened : q.closed = false

private theorem has_dependents {q : Q} (h : Facts q) (k : String) :
    hasDependents q k = some true ↔ ∃ k', Depends q k' k := by
  unfold hasDependents
  rw [if_neg (by rw [h.opened]; simp)]
  simp only [Option.some.injEq]
  rw [has_iff h.exact.full]
  constructor
  · rintro ⟨x, j, hr⟩
    obtain ⟨a, b, c⟩ := h.exact.real k x j hr
    exact ⟨_, j, a, c⟩
  · rintro ⟨k', j, hf, hk⟩
    have hl := h.inv.live hf
    exact ⟨_, j, h.deps j hl k hk⟩

/-- what the removal of a job without dependents does -/
private theorem remove_leaf {q : Q} {k : String} {i : Nat} (h : Facts q) (hf : q.find k = some i)
    (hn : ¬ ∃ k', Depends q k' k) : ∃ o, q.remove k [] = some o ∧ o.res = .ok ∧ Facts o.q ∧
      (∀ x, o.q.find x = if x = k then none else q.find x) ∧ (∀ x j, o.q.find x = some j → o.q.store j = q.store j) := by
  obtain ⟨q', added, s, e, h1, h2, h3, h4, h5, h6, h7, h8, h9, h10, h11⟩ := remove_ok [] h.inv h.opened hf
  have r : RemovedKey q q' k [] i added s := ⟨h1, h2, h3, h4, h5, h6, h7, h8, h9, h10, h11⟩
  have hnone : mget q.dependants k = none := by
    cases hm : mget q.dependants k with
    | none => rfl
    | some v =>
      exfalso
      apply hn
      rw [← has_dependents h]
      simp [hasDependents, h.opened, hm]
  have hv : ∀ j, j ∉ q.visit k [] := by
    intro j hj
    rw [mem_visit, hnone] at hj; simp at hj
  have hst : ∀ j, j ≠ i → q'.store j = q.store j := by
    intro j hj; rw [h6 j hj, if_neg (hv j)]
  have hkeys := (h.inv.keyOf _ _ hf).1
  have hfs : ∀ x j, q'.find x = some j → q'.store j = q.store j := by
    intro x j hx
    rw [h3] at hx
    split at hx
    · cases hx
    · rename_i hne
      apply hst
      intro e; subst e
      exact hne ((h.inv.keyOf _ _ hx).1.symm.trans hkeys)
  refine ⟨_, e, rfl, ⟨h1, removed_exact h.inv hf r h.exact, ?_, by rw [h5]; exact h.opened⟩, h3, hfs⟩
  intro j hl x hx
  have hl2 : q'.find (q'.store j).key = some j := hl
  have hse := hfs _ j hl2
  show reg q'.dependants x (q'.store j).key = some j
  have hx : x ∈ (q'.store j).remaining := hx
  rw [hse] at hx ⊢
  rw [hse, h3] at hl2
  split at hl2
  · cases hl2
  rename_i hne
  have := h.deps j hl2 x hx
  rw [h8, reg_unlinkParents _ _ _ _ _ hne, reg_mdel, if_neg]
  · exact this
  · intro e; subst e
    exact hn ⟨_, j, hl2, hx⟩

/-- the state of the loop, relative to the queue before: `D` are the keys removed so far -/
private structure Loop (q0 q : Q) (J D : List String) : Prop where
  facts : Facts q
  find : ∀ k, q.find k = if k ∈ D then none else q0.find k
  store : ∀ k j, q.find k = some j → q.store j = q0.store j
  good : ∀ k ∈ D, Deletable q0 J k

private theorem one_ok {q0 : Q} {J D : List String} {r : Round} {k : String} (hJ : k ∈ J)
    (hrun : ∀ i, q0.find k = some i → (q0.store i).state ≠ .run) (h : Loop q0 r.q J (D ++ r.removed)) :
    ∃ r', one r k = some r' ∧ Loop q0 r'.q J (D ++ r'.removed) ∧
      (r' = r ∧ r.q.find k = none ∨ (r' = { r with skipped := r.skipped ++ [k] } ∧ ∃ k', Depends r.q k' k) ∨
        (r'.removed = r.removed ++ [k] ∧ r'.skipped = r.skipped)) := by
  have hd := has_dependents h.facts k
  unfold one
  have hs : hasDependents r.q k = some true ∨ hasDependents r.q k = some false := by
    unfold hasDependents; rw [if_neg (by rw [h.facts.opened]; simp)]
    cases (mget r.q.dependants k).isSome <;> simp
  rcases hs with hs | hs
  · simp only [hs]
    exact ⟨_, rfl, h, Or.inr (Or.inl ⟨rfl, hd.1 hs⟩)⟩
  · simp only [hs]
    have hn : ¬ ∃ k', Depends r.q k' k := fun he => by rw [hd.2 he] at hs; simp at hs
    cases hf : r.q.find k with
    | none =>
      have : r.q.remove k [] = some ⟨r.q, .err .notFound, [], false⟩ := by
        unfold Q.remove; simp [h.facts.opened, hf]
      rw [this]
      exact ⟨r, by simp, h, Or.inl ⟨rfl, rfl⟩⟩
    | some i =>
      obtain ⟨o, e, hr, hF, h3, h4⟩ := remove_leaf h.facts hf hn
      rw [e]
      simp only [hr, if_true]
      refine ⟨_, rfl, ⟨hF, ?_, ?_, ?_⟩, Or.inr (Or.inr ⟨rfl, rfl⟩)⟩
      · intro x
        simp only [h3, h.find x, ← List.append_assoc, List.mem_append, List.mem_singleton]
        by_cases hx : x = k
        · simp [hx]
        · simp [hx]
      · intro x j hx
        rw [h4 x j hx]
        simp only [h3] at hx
        split at hx
        · cases hx
        · exact h.store x j hx
      · intro x hx
        simp only [← List.append_assoc, List.mem_append, List.mem_singleton] at hx
        rw [← List.mem_append] at hx
        rcases hx with hx | rfl
        · exact h.good x hx
        · have hf0 : q0.find x = some i := by
            have := h.find x
            rw [hf] at this
            split at this
            · cases this
            · exact this.symm
          refine Deletable.mk hJ hf0 (hrun i hf0) ?_
          rintro k' ⟨j, hj, hm⟩
          have hk' := h.find k'
          split at hk'
          · rename_i hin; exact h.good k' hin
          · exfalso
            rw [hj] at hk'
            exact hn ⟨k', j, hk', by rw [h.store k' j hk']; exact hm⟩

private theorem round_ok {q0 : Q} {J D : List String} (hrun : ∀ k ∈ J, ∀ i, q0.find k = some i → (q0.store i).state ≠ .run) :
    ∀ (ks : List String) (r : Round), (∀ k ∈ ks, k ∈ J) → Loop q0 r.q J (D ++ r.removed) →
    ∃ r', round r ks = some r' ∧ Loop q0 r'.q J (D ++ r'.removed) ∧
      (∀ k ∈ r.removed, k ∈ r'.removed) ∧ (∀ k ∈ r.skipped, k ∈ r'.skipped) ∧
      (∀ k ∈ r'.skipped, k ∈ r.skipped ∨ k ∈ ks) ∧
      (∀ k ∈ ks, (q0.find k = none ∨ k ∈ D ++ r'.removed) ∨ k ∈ r'.skipped) ∧
      r'.skipped.length + r'.removed.length ≤ r.skipped.length + r.removed.length + ks.length ∧
      (r'.removed = [] → ∀ k ∈ r'.skipped, k ∈ r.skipped ∨ ∃ k', Depends r'.q k' k) ∧ (r'.removed = [] → r'.q = r.q) := by
  intro ks
  induction ks with
  | nil => intro r _ h; exact ⟨r, rfl, h, fun _ => id, fun _ => id, fun _ => Or.inl, by simp, by simp, fun _ _ h => Or.inl h, fun _ => rfl⟩
  | cons k ks ih =>
    intro r hJ h
    obtain ⟨r1, e1, h1, hc⟩ := one_ok (hJ k (by simp)) (hrun k (hJ k (by simp))) h
    obtain ⟨r2, e2, h2, m1, m2, m3, m4, m5, m6, m7⟩ := ih r1 (fun x hx => hJ x (List.mem_cons_of_mem _ hx)) h1
    refine ⟨r2, by simp [round, e1, e2], h2, ?_⟩
    rcases hc with ⟨rfl, hn⟩ | ⟨rfl, hd⟩ | ⟨hr, hs⟩
    · refine ⟨m1, m2, fun x hx => ?_, ?_, by simp; omega, m6, m7⟩
      · rcases m3 x hx with h | h
        · exact Or.inl h
        · exact Or.inr (List.mem_cons_of_mem _ h)
      · intro x hx
        rcases List.mem_cons.1 hx with rfl | hx
        · refine Or.inl ?_
          have := h.find x
          rw [hn] at this
          split at this
          · rename_i hin
            refine Or.inr ?_
            rw [List.mem_append] at hin ⊢
            exact hin.imp id (m1 x)
          · exact Or.inl this.symm
        · exact m4 x hx
    · simp only at m1 m2 m3 m5 m6 m7
      refine ⟨m1, fun x hx => m2 x (List.mem_append_left _ hx), fun x hx => ?_, ?_, by simp at m5 ⊢; omega, ?_, m7⟩
      · rcases m3 x hx with h | h
        · rcases List.mem_append.1 h with h | h
          · exact Or.inl h
          · exact Or.inr (by simp at h; simp [h])
        · exact Or.inr (List.mem_cons_of_mem _ h)
      · intro x hx
        rcases List.mem_cons.1 hx with rfl | hx
        · exact Or.inr (m2 x (by simp))
        · exact m4 x hx
      · intro he x hx
        rcases m6 he x hx with h | h
        · rcases List.mem_append.1 h with h | h
          · exact Or.inl h
          · simp at h; subst h
            right; rw [m7 he]; exact hd
        · exact Or.inr h
    · refine ⟨fun x hx => m1 x (by rw [hr]; exact List.mem_append_left _ hx), fun x hx => m2 x (by rw [hs]; exact hx),
        fun x hx => ?_, ?_, by simp [hr, hs] at m5 ⊢; omega, ?_, ?_⟩
      · rcases m3 x hx with h | h
        · exact Or.inl (by rw [← hs]; exact h)
        · exact Or.inr (List.mem_cons_of_mem _ h)
      · intro x hx
        rcases List.mem_cons.1 hx with rfl | hx
        · exact Or.inl (Or.inr (List.mem_append_right _ (m1 x (by rw [hr]; simp))))
        · exact m4 x hx
      · intro he
        have := m1 k (by rw [hr]; simp)
        rw [he] at this; cases this
      · intro he
        have := m1 k (by rw [hr]; simp)
        rw [he] at this; cases this

private theorem rounds_ok {q0 : Q} {J : List String} (hrun : ∀ k ∈ J, ∀ i, q0.find k = some i → (q0.store i).state ≠ .run) :
    ∀ (n : Nat) (q : Q) (jobs D : List String), jobs.length < n → (∀ k ∈ jobs, k ∈ J) → Loop q0 q J D →
    (∀ k ∈ J, q0.find k = none ∨ k ∈ D ∨ k ∈ jobs) →
    ∃ q' D', rounds n q jobs D = some (q', D') ∧ Loop q0 q' J D' ∧ ∀ k, Deletable q0 J k → k ∈ D' := by
  intro n
  induction n with
  | zero => intro q jobs D h; omega
  | succ n ih =>
    intro q jobs D hlen hJ h hcov
    obtain ⟨r, e, hL, -, -, m3, m4, m5, m6, m7⟩ := round_ok (D := D) hrun jobs { q } hJ (by simpa using h)
    simp only [List.length_nil, Nat.zero_add, List.not_mem_nil, false_or] at m3 m5 m6
    have hcov' : ∀ k ∈ J, q0.find k = none ∨ k ∈ D ++ r.removed ∨ k ∈ r.skipped := by
      intro k hk
      rcases hcov k hk with h | h | h
      · exact Or.inl h
      · exact Or.inr (Or.inl (List.mem_append_left _ h))
      · rcases m4 k h with (h | h) | h
        · exact Or.inl h
        · exact Or.inr (Or.inl h)
        · exact Or.inr (Or.inr h)
    simp only [rounds, e, Option.bind_some]
    split
    · rename_i hc
      refine ih r.q r.skipped (D ++ r.removed) ?_ (fun k hk => hJ k (m3 k hk)) hL hcov'
      have : r.removed.length ≠ 0 := by simpa using hc.1
      omega
    · rename_i hc
      refine ⟨_, _, rfl, hL, ?_⟩
      intro k hk
      induction hk with
      | @mk k i hkJ hf _ _ ih' =>
        rcases hcov' k hkJ with h | h | h
        · rw [hf] at h; cases h
        · exact h
        · -- a skipped job: then nothing was removed in this round
          have hr : r.removed = [] := by
            cases hr : r.removed with
            | nil => rfl
            | cons a l => exact absurd ⟨by rw [hr]; simp, fun h0 => by rw [h0] at h; cases h⟩ hc
          obtain ⟨k', j, hj, hm⟩ := m6 hr k h
          have hj0 : q0.find k' = some j := by
            have := hL.find k'
            rw [hj] at this
            split at this
            · cases this
            · exact this.symm
          have := ih' k' ⟨j, hj0, by rw [← hL.store k' j hj]; exact hm⟩
          have h2 := hL.find k'
          rw [if_pos this, hj] at h2; cases h2

/-- C30, when nothing else changes the queue during the request: from the queue of every history of operations in which
keys are not changed (and dependencies replaced only while the outstanding ones are in the queue), and for every list of
keys in any order, the jobs deleted are exactly the requested ones that can be deleted; every other job is still there,
unchanged: in particular no job became ready because what it waits for was deleted. -/
theorem C30_partial (h : List (Int × Op)) (q : Q) (hs : Along Safe new h) (hk : Along KeepsDeps new h)
    (hr : runFrom new h = some q) (hc : q.closed = false) (keys : List String) :
    ∃ q' deleted, jdel q keys = some (q', deleted) ∧
      (∀ k, k ∈ deleted ↔ Deletable q keys k) ∧
      (∀ k, q'.find k = if k ∈ deleted then none else q.find k) ∧
      (∀ k i, q'.find k = some i → q'.store i = q.store i) := by
  obtain ⟨hi, ht⟩ := run_inv h inv_new timed_new hs hr
  have hclean : ∀ (h : List (Int × Op)) (q : Q), Along KeepsDeps q h → Along CleanRename q h := by
    intro h
    induction h with
    | nil => intro _ _; trivial
    | cons a h ih =>
      obtain ⟨now, op⟩ := a
      intro q ha; exact ⟨keeps_clean ha.1, fun o ho => ih o.q (ha.2 o ho)⟩
  have F : Facts q := ⟨hi, run_exact h inv_new timed_new (fun _ => exact_new) hs hk hr hc,
    run_deps h inv_new timed_new deps_new hs (hclean h new hk) hr, hc⟩
  have hsel : ∀ k, k ∈ select q keys ↔ k ∈ keys ∧ ∃ i, q.find k = some i ∧ (q.store i).state ≠ .run := by
    intro k
    unfold select
    rw [List.mem_filter]
    cases q.find k <;> simp
  have hrun : ∀ k ∈ select q keys, ∀ i, q.find k = some i → (q.store i).state ≠ .run := by
    intro k hk i hf
    obtain ⟨-, i', hf', hs'⟩ := (hsel k).1 hk
    rw [hf] at hf'; simp at hf'; subst hf'; exact hs'
  obtain ⟨q', D, e, hL, hall⟩ := rounds_ok hrun ((select q keys).length + 1) q (select q keys) [] (by omega) (fun _ => id)
    ⟨F, by simp, fun _ _ _ => rfl, by simp⟩ (fun k hk => Or.inr (Or.inr hk))
  have hiff : ∀ k, Deletable q (select q keys) k ↔ Deletable q keys k := by
    intro k
    constructor
    · intro hd
      induction hd with
      | mk a b c _ ih => exact .mk ((hsel _).1 a).1 b c ih
    · intro hd
      induction hd with
      | mk a b c _ ih => exact .mk ((hsel _).2 ⟨a, _, b, c⟩) b c ih
  refine ⟨q', D, e, fun k => ⟨fun hk => (hiff k).1 (hL.good k hk), fun hk => hall k ((hiff k).2 hk)⟩, hL.find, hL.store⟩

private theorem ex {α : Type} {e : Option α} {p : α → Bool} (h : e.any p = true) : ∃ a, e = some a ∧ p a = true := by
  cases e with
  | none => cases h
  | some a => exact ⟨a, rfl, h⟩

/-- Five jobs: `b` and `c` wait for `a`, `d` for `b`; `e` is running. -/
private def demo : List (Int × Op) :=
  [(0, .addMany [{ key := "e" }]), (1, .reserve ""),
    (2, .addMany [{ key := "a" }, { key := "b", deps := ["a"] }, { key := "c", deps := ["a"] }, { key := "d", deps := ["b"] }])]

/-- The hypotheses are met. Asked for everything but `c`, only `b` and `d` are deleted; asked for everything, all but the
running job. -/
example : ∃ q, runFrom new demo = some q ∧ Along Safe new demo ∧ Along KeepsDeps new demo ∧ q.closed = false ∧
    (jdel q ["a", "b", "d", "e"]).map (·.2) = some ["d", "b"] ∧
    (jdel q ["a", "b", "c", "d", "e"]).map (·.2) = some ["c", "d", "b", "a"] := by
  obtain ⟨q, e, h⟩ := ex (e := runFrom new demo) (p := fun q => q.closed = false ∧
    (jdel q ["a", "b", "d", "e"]).map (·.2) = some ["d", "b"] ∧
    (jdel q ["a", "b", "c", "d", "e"]).map (·.2) = some ["c", "d", "b", "a"]) (by decide +kernel)
  exact ⟨q, e, ⟨trivial, fun _ _ => ⟨trivial, fun _ _ => ⟨trivial, fun _ _ => trivial⟩⟩⟩,
    ⟨trivial, fun _ _ => ⟨trivial, fun _ _ => ⟨trivial, fun _ _ => trivial⟩⟩⟩, by simpa using h⟩

/-- C30 fails when a job is reserved after the request looked at its state and before it is removed: the job is deleted
while a client runs it. -/
theorem C30_violated_race : ∃ q0 o q', runFrom new [(0, .add { key := "a" })] = some q0 ∧ select q0 ["a"] = ["a"] ∧
    step q0 1 (.reserve "") = some o ∧ o.res = .item 0 ∧ (o.q.store 0).state = .run ∧
    deleteJobs o.q (select q0 ["a"]) = some (q', ["a"]) ∧ q'.find "a" = none := by
  obtain ⟨o, e1, h1⟩ := ex (e := step (new.add { key := "a" } 0).q 1 (.reserve "")) (p := fun o =>
    select (new.add { key := "a" } 0).q ["a"] = ["a"] ∧ o.res = .item 0 ∧ (o.q.store 0).state = .run ∧
    (deleteJobs o.q ["a"]).any (fun r => r.2 = ["a"] ∧ r.1.find "a" = none) = true) (by decide +kernel)
  simp only [Bool.decide_and, Bool.and_eq_true, decide_eq_true_eq] at h1
  obtain ⟨h0, h1, h2, h3⟩ := h1
  obtain ⟨r, e2, h4⟩ := ex h3
  simp only [Bool.and_eq_true, decide_eq_true_eq] at h4
  refine ⟨_, o, r.1, rfl, h0, e1, h1, h2, ?_, h4.2⟩
  rw [h0, e2, ← h4.1]

/-- C30 fails when a job waits for a job that is not in the queue, is given other dependencies, and the job it first
waited for is then added: nothing waits for that job, but it cannot be deleted. -/
theorem C30_violated_stale : ∃ q q', runFrom new [(0, .add { key := "b", deps := ["a"] }),
      (1, .update "b" "" 0 0 0 0 (some ["c"])), (2, .add { key := "a" })] = some q ∧
    (∀ k', ¬ Depends q k' "a") ∧ (∃ i, q.find "a" = some i ∧ (q.store i).state = .ready) ∧ jdel q ["a"] = some (q', []) := by
  obtain ⟨q, e, h⟩ := ex (e := runFrom new [(0, .add { key := "b", deps := ["a"] }),
      (1, .update "b" "" 0 0 0 0 (some ["c"])), (2, .add { key := "a" })]) (p := fun q =>
    q.items.all (fun p => !(q.store p.2).remaining.contains "a") ∧ q.find "a" = some 1 ∧ (q.store 1).state = .ready ∧
    (jdel q ["a"]).any (fun r => r.2 = []) = true) (by decide +kernel)
  simp only [Bool.decide_and, Bool.and_eq_true, decide_eq_true_eq] at h
  obtain ⟨h1, h2, h3, h4⟩ := h
  obtain ⟨r, e2, h5⟩ := ex h4
  refine ⟨q, r.1, e, ?_, ⟨1, h2, h3⟩, ?_⟩
  · rintro k' ⟨j, hj, hm⟩
    have := List.all_eq_true.1 h1 _ (mget_mem _ _ _ hj)
    simp at this
    exact this hm
  · rw [e2, ← of_decide_eq_true h5]

/-- Jobs that depend on each other in a circle cannot be deleted, even all at once. -/
theorem C30_circle : ∃ q q', runFrom new [(0, .addMany [{ key := "a", deps := ["b"] }, { key := "b", deps := ["a"] }])] = some q ∧
    jdel q ["a", "b"] = some (q', []) := ⟨_, _, rfl, rfl⟩

end Verif.Server.Delete
