import Verif.Sched.LsfLemmas

/-!
# LSF: properties C49, C76 and C77

* C49: the queue that is chosen is the first, in order of preference, that can run the job.
* C76: `Schedule` of a command at some count leaves that many jobs in LSF, and never kills a running one.
* C77: the order of preference is a function of the queues' attributes.
-/
namespace Verif.Sched.Lsf
open Verif.Util

/-! ## C77 -/

namespace Spec

/-- `a` is at least as good a value as `b`: for some criteria large values are better, for others small ones -/
def AsGood (c : Crit) (a b : Nat) : Prop :=
  match c with
  | .hosts | .maxUser | .max | .runlimit => b ≤ a
  | .prio | .chunkSize | .numUsers | .memlimit => a ≤ b

/-- `x` comes before `y` in the list -/
def Before {α : Type} (x y : α) (l : List α) : Prop := ∃ a b c, l = a ++ x :: b ++ y :: c

end Spec

theorem asGood_cases (c : Crit) (a b : Nat) (h : Spec.AsGood c a b) : a = b ∨ before (largerFirst c) a b := by
  cases c <;> simp only [Spec.AsGood] at h <;> simp only [largerFirst, before] <;> simp <;> omega

/-- the ranking of a queue by its attributes alone -/
theorem ranking_eq (all : List Queue) (order : Crit → List Queue) (ho : ∀ c, (order c).Perm (usable all))
    (hn : ((usable all).map (·.name)).Nodup) (q : Queue) (hq : q ∈ usable all) : ranking all order q.name =
      (criteria.map fun c =>
        (sortVals (largerFirst c) (distinct ((usable all).map fun x => value all x c))).idxOf (value all q c) * weight c).sum := by
  unfold ranking
  congr 1
  apply List.map_congr_left
  intro c _
  rw [rankIn_eq (fun q => value all q c) (largerFirst c) (order c) (((ho c).map _).nodup_iff.2 hn) q ((ho c).mem_iff.2 hq)]
  rw [sortVals_ext (largerFirst c) ((order c).map fun x => value all x c) ((usable all).map fun x => value all x c)
    (fun v => ((ho c).map _).mem_iff)]

theorem sortNamesRev_perm (l l' : List (List Char)) (h : l.Perm l') : sortNamesRev l = sortNamesRev l' := by
  have hs : ∀ l, (sortNamesRev l).Pairwise fun a b => b ≤ a := by
    intro l
    have := sortBy_sorted (fun a b : List Char => decide (b ≤ a))
      (fun a b c h h' => by
        simp only [decide_eq_true_eq] at h h' ⊢
        exact List.le_trans h' h)
      (fun a b => by
        simp only [decide_eq_true_eq]
        exact List.le_total b a) l
    exact this.imp fun h => by simpa using h
  refine List.Perm.eq_of_pairwise (le := fun a b => b ≤ a) ?_ (hs l) (hs l') ?_
  · intro a b _ _ h1 h2
    exact List.le_antisymm h2 h1
  · exact ((sortBy_perm _ l).trans h).trans (sortBy_perm _ l').symm

/-- C77: however the maps are iterated, the preferred order of the queues is the same. -/
theorem C77_same (all : List Queue) (hn : ((usable all).map (·.name)).Nodup) (order order' : Crit → List Queue)
    (ho : ∀ c, (order c).Perm (usable all)) (ho' : ∀ c, (order' c).Perm (usable all)) (last last' : List (List Char))
    (hl : last.Perm ((usable all).map (·.name))) (hl' : last'.Perm ((usable all).map (·.name))) :
    sortedqs all order last = sortedqs all order' last' := by
  have hr : ∀ n ∈ (usable all).map (·.name), ranking all order n = ranking all order' n := by
    intro n hmem
    obtain ⟨q, hq, rfl⟩ := List.mem_map.1 hmem
    rw [ranking_eq all order ho hn q hq, ranking_eq all order' ho' hn q hq]
  have hv : ∀ v, v ∈ last.map (ranking all order) ↔ v ∈ last'.map (ranking all order') := by
    intro v
    simp only [List.mem_map]
    constructor
    · rintro ⟨n, h, rfl⟩
      have hm := hl.mem_iff.1 h
      exact ⟨n, hl'.mem_iff.2 hm, (hr n hm).symm⟩
    · rintro ⟨n, h, rfl⟩
      have hm := hl'.mem_iff.1 h
      exact ⟨n, hl.mem_iff.2 hm, hr n hm⟩
  unfold sortedqs sortByRank
  rw [sortVals_ext false _ _ hv, List.flatMap_def, List.flatMap_def]
  refine congrArg List.flatten (List.map_congr_left ?_)
  intro v _
  refine sortNamesRev_perm _ _ ?_
  have e : last'.filter (fun n => decide (ranking all order' n = v)) = last'.filter fun n => decide (ranking all order n = v) := by
    apply List.filter_congr
    intro n hmem
    rw [hr n (hl'.mem_iff.1 hmem)]
  rw [e]
  exact (hl.trans hl'.symm).filter _

/-- C77: each queue the user may use is in the order exactly once, and nothing else is. -/
theorem C77_once (all : List Queue) (order : Crit → List Queue) (last : List (List Char))
    (hl : last.Perm ((usable all).map (·.name))) :
    (sortedqs all order last).Perm ((all.filter (·.permitted)).map (·.name)) :=
  (sortByRank_perm _ last).trans hl

theorem before_of_pairwise {α : Type} (rank : α → Nat) (x y : α) (hxy : rank x < rank y) : ∀ l : List α,
    l.Pairwise (fun a b => rank a ≤ rank b) → x ∈ l → y ∈ l → Spec.Before x y l
  | [], _, h, _ => by simp at h
  | z :: l, hp, hx, hy => by
    have hp' := List.pairwise_cons.1 hp
    rcases List.mem_cons.1 hy with rfl | hy'
    · rcases List.mem_cons.1 hx with rfl | hx'
      · omega
      · have := hp'.1 x hx'
        omega
    · rcases List.mem_cons.1 hx with rfl | hx'
      · obtain ⟨b, c, rfl⟩ := List.append_of_mem hy'
        exact ⟨[], b, c, rfl⟩
      · obtain ⟨a, b, c, rfl⟩ := before_of_pairwise rank x y hxy l hp'.2 hx' hy'
        exact ⟨z :: a, b, c, rfl⟩

/-- C77: a queue that is as good as another in all criteria, and better in one, is preferred. -/
theorem C77_better (all : List Queue) (hn : ((usable all).map (·.name)).Nodup) (order : Crit → List Queue)
    (ho : ∀ c, (order c).Perm (usable all)) (last : List (List Char)) (hl : last.Perm ((usable all).map (·.name)))
    (q q' : Queue) (hq : q ∈ usable all) (hq' : q' ∈ usable all)
    (hge : ∀ c, Spec.AsGood c (value all q c) (value all q' c))
    (hgt : ∃ c, ¬ Spec.AsGood c (value all q' c) (value all q c)) :
    Spec.Before q.name q'.name (sortedqs all order last) := by
  have hr : ranking all order q.name < ranking all order q'.name := by
    rw [ranking_eq all order ho hn q hq, ranking_eq all order ho hn q' hq']
    have hle : ∀ c, (sortVals (largerFirst c) (distinct ((usable all).map fun x => value all x c))).idxOf (value all q c) ≤
        (sortVals (largerFirst c) (distinct ((usable all).map fun x => value all x c))).idxOf (value all q' c) := by
      intro c
      rcases asGood_cases c _ _ (hge c) with e | e
      · rw [e]; exact Nat.le_refl _
      · exact Nat.le_of_lt (idxOf_lt_of_before _ _ _ e _ (sortVals_strict _ _)
          ((mem_sortVals _ _ _).2 (List.mem_map.2 ⟨q, hq, rfl⟩)) ((mem_sortVals _ _ _).2 (List.mem_map.2 ⟨q', hq', rfl⟩)))
    obtain ⟨c, hc⟩ := hgt
    have hlt : (sortVals (largerFirst c) (distinct ((usable all).map fun x => value all x c))).idxOf (value all q c) <
        (sortVals (largerFirst c) (distinct ((usable all).map fun x => value all x c))).idxOf (value all q' c) := by
      rcases asGood_cases c _ _ (hge c) with e | e
      · exfalso
        apply hc
        rw [e]
        cases c <;> simp [Spec.AsGood]
      · exact idxOf_lt_of_before _ _ _ e _ (sortVals_strict _ _)
          ((mem_sortVals _ _ _).2 (List.mem_map.2 ⟨q, hq, rfl⟩)) ((mem_sortVals _ _ _).2 (List.mem_map.2 ⟨q', hq', rfl⟩))
    have hw : ∀ c, 0 < weight c := by intro c; cases c <;> decide
    have sum_lt : ∀ (cs : List Crit) (f g : Crit → Nat), (∀ c, f c ≤ g c) → c ∈ cs → f c < g c →
        (cs.map f).sum < (cs.map g).sum := by
      intro cs f g hfg
      have sum_le : ∀ cs : List Crit, (cs.map f).sum ≤ (cs.map g).sum := by
        intro cs
        induction cs with
        | nil => simp
        | cons a cs ih => have := hfg a; simp only [List.map_cons, List.sum_cons]; omega
      induction cs with
      | nil => intro h; simp at h
      | cons a cs ih =>
        intro h hcc
        simp only [List.map_cons, List.sum_cons]
        rcases List.mem_cons.1 h with rfl | h
        · have := sum_le cs; omega
        · have := ih h hcc; have := hfg a; omega
    refine sum_lt criteria _ _ (fun c => Nat.mul_le_mul_right _ (hle c)) ?_ (Nat.mul_lt_mul_of_pos_right hlt (hw c))
    cases c <;> decide
  have hp : (sortedqs all order last).Pairwise fun a b => ranking all order a ≤ ranking all order b := by
    unfold sortedqs sortByRank
    rw [List.pairwise_flatMap]
    have mem : ∀ v x, x ∈ sortNamesRev (last.filter fun n => decide (ranking all order n = v)) → ranking all order x = v := by
      intro v x hx
      have := (sortBy_perm _ _).mem_iff.1 hx
      simpa using (List.mem_filter.1 this).2
    refine ⟨?_, ?_⟩
    · intro v _
      refine List.pairwise_of_forall_mem_list ?_
      intro a ha b hb
      rw [mem v a ha, mem v b hb]
      exact Nat.le_refl v
    · refine (sortVals_strict false _).imp ?_
      intro v w hvw x hx y hy
      rw [mem v x hx, mem w y hy]
      simp [before] at hvw
      omega
  have hperm := (sortByRank_perm (ranking all order) last).trans hl
  refine before_of_pairwise _ _ _ hr _ hp ?_ ?_
  · exact hperm.mem_iff.2 (List.mem_map.2 ⟨q, hq, rfl⟩)
  · exact hperm.mem_iff.2 (List.mem_map.2 ⟨q', hq', rfl⟩)

/-! ## C49 -/

theorem contains_iff (sub : List Char) : ∀ s, contains sub s = true ↔ sub <:+: s
  | [] => by
    simp only [contains, List.isPrefixOf_iff_prefix]
    constructor
    · exact fun h => h.isInfix
    · intro h
      rw [List.infix_nil.1 h]
      exact List.prefix_refl _
  | c :: cs => by
    simp only [contains, Bool.or_eq_true, List.isPrefixOf_iff_prefix, contains_iff sub cs]
    rw [List.infix_cons_iff]

namespace Spec

/-- the job says that a queue with this name is to be avoided: one of the comma-separated words is part of the name -/
def Avoided (r : Req) (n : List Char) : Prop := r.avoid ≠ [] ∧ ∃ a ∈ split ',' r.avoid, a <:+: n

/-- the queue can run the job: what the queue says of memory, and of run time with a minute to spare, is enough; a queue that
says nothing has no limit -/
def Enough (r : Req) (q : Queue) : Prop :=
  (∀ m, q.attr .memlimit = some m → r.ram ≤ m) ∧ (∀ t, q.attr .runlimit = some t → r.secs + 60 ≤ t)

/-- there is such a queue, the user may use it, it is not to be avoided and it can run the job -/
def Suits (all : List Queue) (r : Req) (n : List Char) : Prop :=
  ¬ Avoided r n ∧ ∃ q ∈ all, q.permitted = true ∧ q.name = n ∧ Enough r q

/-- the first of the list with the property -/
def FirstOf (P : List Char → Prop) (l : List (List Char)) (n : List Char) : Prop :=
  ∃ a b, l = a ++ n :: b ∧ P n ∧ ∀ x ∈ a, ¬ P x

/-- the queues to choose from -/
def candidates (pref : List (List Char)) (r : Req) : List (List Char) :=
  match r.queue with
  | none => pref
  | some s => split ',' s

end Spec

/-- the loop's test of one queue -/
def accepts (all : List Queue) (r : Req) (n : List Char) : Bool :=
  !queueShouldBeAvoided n (avoidList r) && !tooLittleMemory all n r && !tooLittleTime all n (r.secs + 60)

theorem pick_find (all : List Queue) (r : Req) : ∀ l, pick all r l = l.find? (accepts all r)
  | [] => rfl
  | q :: l => by
    have ih := pick_find all r l
    unfold pick
    rw [List.find?_cons]
    unfold accepts
    cases queueShouldBeAvoided q (avoidList r) <;> cases tooLittleMemory all q r <;>
      cases tooLittleTime all q (r.secs + 60) <;> simp [ih] <;> rfl

theorem avoided_iff (r : Req) (n : List Char) : queueShouldBeAvoided n (avoidList r) = true ↔ Spec.Avoided r n := by
  unfold queueShouldBeAvoided avoidList Spec.Avoided
  by_cases h : r.avoid = []
  · simp [h]
  · simp only [h, if_false, List.any_eq_true, contains_iff]
    simp [h]

/-- the user's own choice is taken as it is -/
theorem C49_explicit (all : List Queue) (pref : List (List Char)) (r : Req) (q : List Char) (h : r.queue = some q)
    (hc : ',' ∉ q) : determineQueue all pref r = some q := by
  unfold determineQueue
  rw [h]
  simp [hc]

theorem determineQueue_find (all : List Queue) (pref : List (List Char)) (r : Req)
    (h : ∀ q, r.queue = some q → ',' ∈ q) :
    determineQueue all pref r = (Spec.candidates pref r).find? (accepts all r) := by
  unfold determineQueue Spec.candidates
  cases hq : r.queue with
  | none => exact pick_find all r pref
  | some q => simp only [h q hq, if_true]; exact pick_find all r _

theorem find?_first {P : List Char → Prop} (f : List Char → Bool) (l : List (List Char)) (n : List Char)
    (h : ∀ x ∈ l, f x = true ↔ P x) : l.find? f = some n ↔ Spec.FirstOf P l n := by
  rw [List.find?_eq_some_iff_append]
  constructor
  · rintro ⟨hf, a, b, rfl, ha⟩
    refine ⟨a, b, rfl, (h n (by simp)).1 hf, fun x hx hp => ?_⟩
    have := ha x hx
    rw [(h x (by simp [hx])).2 hp] at this
    simp at this
  · rintro ⟨a, b, rfl, hp, ha⟩
    refine ⟨(h n (by simp)).2 hp, a, b, rfl, fun x hx => ?_⟩
    have := ha x hx
    rw [← h x (by simp [hx])] at this
    simpa using this

theorem lookup_of_mem (all : List Queue) (hn : ((usable all).map (·.name)).Nodup) (q : Queue) (hq : q ∈ usable all)
    (c : Crit) : lookup all q.name c = value all q c := by
  unfold lookup
  cases hf : (usable all).find? (fun x => decide (x.name = q.name)) with
  | none =>
    have := List.find?_eq_none.1 hf q hq
    simp at this
  | some x =>
    have h1 := List.mem_of_find?_eq_some hf
    have h2 := List.find?_some hf
    simp at h2
    have inj : ∀ (l : List Queue), (l.map (·.name)).Nodup → ∀ a ∈ l, ∀ b ∈ l, a.name = b.name → a = b := by
      intro l
      induction l with
      | nil => intro _ a ha; simp at ha
      | cons x l ih =>
        intro hn a ha b hb hab
        have hn' := List.nodup_cons.1 hn
        rcases List.mem_cons.1 ha with rfl | ha' <;> rcases List.mem_cons.1 hb with rfl | hb'
        · rfl
        · exact absurd (List.mem_map.2 ⟨b, hb', hab.symm⟩) hn'.1
        · exact absurd (List.mem_map.2 ⟨a, ha', hab⟩) hn'.1
        · exact ih hn'.2 a ha' b hb' hab
    rw [inj _ hn x h1 q hq h2]

/-- what is assumed for the full statement: the user names only queues that exist and that they may use; no queue has a limit
of 0; and where a queue says nothing of memory or run time, the job wants no more than the number the code makes up for it.
Without the last, `C49_violated_unlimited`; without the first, `C49_violated_unknown`. -/
structure Plain (all : List Queue) (pref : List (List Char)) (r : Req) : Prop where
  known : ∀ n ∈ Spec.candidates pref r, n ∈ (usable all).map (·.name)
  pos : ∀ q ∈ usable all, q.attr .memlimit ≠ some 0 ∧ q.attr .runlimit ≠ some 0
  mem : ∀ q ∈ usable all, q.attr .memlimit = none → r.ram ≤ defaultOf all .memlimit
  run : ∀ q ∈ usable all, q.attr .runlimit = none → r.secs + 60 ≤ defaultOf all .runlimit

theorem accepts_iff (all : List Queue) (hn : ((usable all).map (·.name)).Nodup) (pref : List (List Char)) (r : Req)
    (hp : Plain all pref r) (n : List Char) (h : n ∈ Spec.candidates pref r) :
    accepts all r n = true ↔ Spec.Suits all r n := by
  obtain ⟨q, hq, rfl⟩ := List.mem_map.1 (hp.known n h)
  have hq' : q ∈ all ∧ q.permitted = true := by simpa [usable] using hq
  have hu : ∀ x ∈ all, x.permitted = true → x.name = q.name → x = q := by
    intro x hx hxp hxn
    have hxu : x ∈ usable all := by simp [usable, hx, hxp]
    have inj : ∀ (l : List Queue), (l.map (·.name)).Nodup → ∀ a ∈ l, ∀ b ∈ l, a.name = b.name → a = b := by
      intro l
      induction l with
      | nil => intro _ a ha; simp at ha
      | cons x l ih =>
        intro hn a ha b hb hab
        have hn' := List.nodup_cons.1 hn
        rcases List.mem_cons.1 ha with rfl | ha' <;> rcases List.mem_cons.1 hb with rfl | hb'
        · rfl
        · exact absurd (List.mem_map.2 ⟨b, hb', hab.symm⟩) hn'.1
        · exact absurd (List.mem_map.2 ⟨a, ha', hab⟩) hn'.1
        · exact ih hn'.2 a ha' b hb' hab
    exact inj _ hn x hxu q hq hxn
  have hs : Spec.Suits all r q.name ↔ ¬ Spec.Avoided r q.name ∧ Spec.Enough r q := by
    constructor
    · rintro ⟨h1, x, hx, hxp, hxn, hxe⟩
      rw [hu x hx hxp hxn] at hxe
      exact ⟨h1, hxe⟩
    · rintro ⟨h1, h2⟩
      exact ⟨h1, q, hq'.1, hq'.2, rfl, h2⟩
  rw [hs, ← avoided_iff]
  have hmem : tooLittleMemory all q.name r = false ↔ ∀ m, q.attr .memlimit = some m → r.ram ≤ m := by
    unfold tooLittleMemory
    rw [lookup_of_mem all hn q hq]
    cases ha : q.attr .memlimit with
    | none =>
      have := hp.mem q hq ha
      simp [value, ha]
      intro _; omega
    | some m =>
      have := (hp.pos q hq).1
      rw [ha] at this
      have hm0 : 0 < m := Nat.pos_of_ne_zero (by simpa using this)
      simp [value, ha, hm0]
  have hrun : tooLittleTime all q.name (r.secs + 60) = false ↔ ∀ t, q.attr .runlimit = some t → r.secs + 60 ≤ t := by
    unfold tooLittleTime
    rw [lookup_of_mem all hn q hq]
    cases ha : q.attr .runlimit with
    | none =>
      have := hp.run q hq ha
      simp [value, ha]
      intro _; omega
    | some m =>
      have := (hp.pos q hq).2
      rw [ha] at this
      have hm0 : 0 < m := Nat.pos_of_ne_zero (by simpa using this)
      simp [value, ha, hm0]
  unfold accepts Spec.Enough
  rw [← hmem, ← hrun]
  cases queueShouldBeAvoided q.name (avoidList r) <;> simp

/-- C49, with the assumptions of `Plain`: unless the user names exactly one queue, the queue chosen is the first of the
candidates that suits, and the error is given exactly when none does. -/
theorem C49_partial (all : List Queue) (hn : ((usable all).map (·.name)).Nodup) (pref : List (List Char)) (r : Req)
    (hp : Plain all pref r) (hq : ∀ q, r.queue = some q → ',' ∈ q) :
    (∀ n, determineQueue all pref r = some n ↔ Spec.FirstOf (Spec.Suits all r) (Spec.candidates pref r) n) ∧
    (determineQueue all pref r = none ↔ ∀ n ∈ Spec.candidates pref r, ¬ Spec.Suits all r n) := by
  rw [determineQueue_find all pref r hq]
  constructor
  · intro n
    exact find?_first _ _ n fun x hx => accepts_iff all hn pref r hp x hx
  · rw [List.find?_eq_none]
    constructor
    · intro h n hm hs
      exact h n hm ((accepts_iff all hn pref r hp n hm).2 hs)
    · intro h n hm ha
      exact h n hm ((accepts_iff all hn pref r hp n hm).1 (by simpa using ha))

/-- C49, with no assumption on limits and requests: the queue chosen is a candidate, is not to be avoided, and if it is one of
the user's queues then no positive limit that it states is below what the job needs. -/
theorem C49_safe (all : List Queue) (hn : ((usable all).map (·.name)).Nodup) (pref : List (List Char)) (r : Req)
    (hq : ∀ q, r.queue = some q → ',' ∈ q) (n : List Char) (h : determineQueue all pref r = some n) :
    n ∈ Spec.candidates pref r ∧ ¬ Spec.Avoided r n ∧
    ∀ q ∈ usable all, q.name = n →
      (∀ m, q.attr .memlimit = some m → 0 < m → r.ram ≤ m) ∧ (∀ t, q.attr .runlimit = some t → 0 < t → r.secs + 60 ≤ t) := by
  rw [determineQueue_find all pref r hq] at h
  have hm := List.mem_of_find?_eq_some h
  have ha := List.find?_some h
  unfold accepts at ha
  simp only [Bool.and_eq_true, Bool.not_eq_true'] at ha
  refine ⟨hm, ?_, ?_⟩
  · rw [← avoided_iff, ha.1.1]
    simp
  · rintro q hqm rfl
    have h1 := ha.1.2
    have h2 := ha.2
    unfold tooLittleMemory at h1
    unfold tooLittleTime at h2
    rw [lookup_of_mem all hn q hqm] at h1 h2
    constructor
    · intro m hm' hpos
      simp [value, hm', hpos] at h1
      exact h1
    · intro t ht hpos
      simp [value, ht, hpos] at h2
      exact h2

/-! examples and violations -/

/-- a queue with the two limits given, open to the user, and otherwise without limits -/
def mkq (n : String) (mem run : Option Nat) : Queue :=
  { name := n.toList, permitted := true,
    attr := fun c => match c with
      | .memlimit => mem
      | .runlimit => run
      | .prio => some 30
      | _ => none }

def exAll : List Queue :=
  [mkq "small" (some 1000) (some 3600), mkq "normal" (some 16000) (some 43200), mkq "interactive" (some 32000) (some 86400),
   mkq "long" (some 16000) (some 604800)]

def exPref : List (List Char) := ["interactive".toList, "small".toList, "normal".toList, "long".toList]

def exReq : Req := { ram := 2000, secs := 43200, queue := none, avoid := "interactive".toList }

/-- a job of 2 GB and 12 hours, avoiding interactive queues, gets the queue "long": the minute to spare rules out "normal" -/
example : determineQueue exAll exPref exReq = some "long".toList := by decide +kernel

/-- `Plain` holds of this table and job -/
example : Plain exAll exPref exReq where
  known := by decide +kernel
  pos := by
    intro q hq
    simp [usable, exAll, mkq] at hq
    rcases hq with rfl | rfl | rfl | rfl <;> simp
  mem := by
    intro q hq
    simp [usable, exAll, mkq] at hq
    rcases hq with rfl | rfl | rfl | rfl <;> simp
  run := by
    intro q hq
    simp [usable, exAll, mkq] at hq
    rcases hq with rfl | rfl | rfl | rfl <;> simp

example : ((usable exAll).map (·.name)).Nodup := by decide +kernel

/-- the preferred order for `exAll` as the code computes it, for one order of iteration; and `C77_better` on two of the queues -/
example : sortedqs exAll (fun _ => exAll) (exAll.map (·.name)) =
    ["long".toList, "small".toList, "normal".toList, "interactive".toList] := by decide +kernel

example : (∀ c, Spec.AsGood c (value exAll (mkq "long" (some 16000) (some 604800)) c)
      (value exAll (mkq "normal" (some 16000) (some 43200)) c)) ∧
    ∃ c, ¬ Spec.AsGood c (value exAll (mkq "normal" (some 16000) (some 43200)) c)
      (value exAll (mkq "long" (some 16000) (some 604800)) c) :=
  ⟨by intro c; cases c <;> simp only [Spec.AsGood] <;> decide +kernel, .runlimit, by simp only [Spec.AsGood]; decide +kernel⟩

/-- C49 is violated: a queue without a memory limit is refused if the job needs two MB more than the largest limit of the other
queues: there is a queue that suits, and the user is told that the job is impossible. -/
theorem C49_violated_unlimited : ∃ (all : List Queue) (pref : List (List Char)) (r : Req),
    ((usable all).map (·.name)).Nodup ∧ pref = sortedqs all (fun _ => usable all) ((usable all).map (·.name)) ∧
    determineQueue all pref r = none ∧ ∃ n ∈ pref, Spec.Suits all r n := by
  refine ⟨[mkq "normal" (some 16000) none, mkq "huge" none none], _,
    { ram := 16002, secs := 0, queue := none, avoid := [] }, by decide +kernel, rfl, by decide +kernel,
    "huge".toList, by decide +kernel, ?_⟩
  refine ⟨by simp [Spec.Avoided], mkq "huge" none none, by simp, rfl, rfl, ?_, ?_⟩
  · simp [mkq]
  · simp [mkq]

/-- C49 is violated: in a list of queues given by the user, a name that is not that of a queue is taken as a queue without
limits, although a later name suits. -/
theorem C49_violated_unknown : ∃ (all : List Queue) (pref : List (List Char)) (r : Req) (n n' : List Char),
    ((usable all).map (·.name)).Nodup ∧ n' ∈ Spec.candidates pref r ∧ Spec.Suits all r n' ∧
    determineQueue all pref r = some n ∧ n ∉ all.map (·.name) := by
  refine ⟨[mkq "normal" (some 16000) none], [],
    { ram := 1, secs := 0, queue := some "norml,normal".toList, avoid := [] }, "norml".toList, "normal".toList,
    by decide +kernel, by decide +kernel, ?_, by decide +kernel, by decide +kernel⟩
  refine ⟨by simp [Spec.Avoided], mkq "normal" (some 16000) none, by simp, rfl, rfl, ?_, ?_⟩
  · simp [mkq]
  · simp [mkq]

private theorem foldl_max_ge (c : Crit) (l : List Queue) : ∀ m, m ≤ l.foldl (fun m q => Nat.max m ((q.attr c).getD 0)) m ∧
    ∀ q ∈ l, (q.attr c).getD 0 ≤ l.foldl (fun m q => Nat.max m ((q.attr c).getD 0)) m := by
  induction l with
  | nil => intro m; simp
  | cons x l ih =>
    intro m
    simp only [List.foldl_cons]
    obtain ⟨h1, h2⟩ := ih (Nat.max m ((x.attr c).getD 0))
    refine ⟨Nat.le_trans (Nat.le_max_left _ _) h1, fun q hq => ?_⟩
    rcases List.mem_cons.1 hq with rfl | hq
    · exact Nat.le_trans (Nat.le_max_right _ _) h1
    · exact h2 q hq

/-- C77, no limit counts as more than any limit: of two queues that differ only in that the first one has no limit on running
jobs, jobs per user or hosts where the second has a positive one, the first comes before the second in the preferred order. -/
theorem C77_unlimited (all : List Queue) (hn : ((usable all).map (·.name)).Nodup) (order : Crit → List Queue)
    (ho : ∀ c, (order c).Perm (usable all)) (last : List (List Char)) (hl : last.Perm ((usable all).map (·.name)))
    (q q' : Queue) (hq : q ∈ usable all) (hq' : q' ∈ usable all) (c : Crit) (hc : c = .max ∨ c = .maxUser ∨ c = .hosts)
    (v : Nat) (hv : 0 < v) (hnone : q.attr c = none) (hsome : q'.attr c = some v) (heq : ∀ d, d ≠ c → q.attr d = q'.attr d) :
    Spec.Before q.name q'.name (sortedqs all order last) := by
  have hle : v ≤ highest all c := by
    have := (foldl_max_ge c all 0).2 q' (List.mem_filter.1 hq').1
    simpa [hsome, highest] using this
  have ht : tracked c = true := by rcases hc with rfl | rfl | rfl <;> rfl
  have hlt : value all q' c < value all q c := by
    have hp : highest all c > 0 := by omega
    simp only [value, hnone, hsome, defaultOf, ht, hp, Option.getD_some, Option.getD_none, and_self, if_true]
    omega
  apply C77_better all hn order ho last hl q q' hq hq'
  · intro d
    by_cases hd : d = c
    · subst hd
      rcases hc with rfl | rfl | rfl <;> simp only [Spec.AsGood] <;> omega
    · have : value all q d = value all q' d := by simp only [value, heq d hd]
      rw [this]
      cases d <;> simp [Spec.AsGood]
  · refine ⟨c, ?_⟩
    rcases hc with rfl | rfl | rfl <;> simp only [Spec.AsGood] <;> omega

/-- C77, a queue without a memory limit counts as one with a larger limit than all others, so that queues that have one are
preferred -/
theorem C77_unlimited_memory (all : List Queue) (hn : ((usable all).map (·.name)).Nodup) (order : Crit → List Queue)
    (ho : ∀ c, (order c).Perm (usable all)) (last : List (List Char)) (hl : last.Perm ((usable all).map (·.name)))
    (q q' : Queue) (hq : q ∈ usable all) (hq' : q' ∈ usable all)
    (v : Nat) (hv : 0 < v) (hnone : q.attr .memlimit = none) (hsome : q'.attr .memlimit = some v)
    (heq : ∀ d, d ≠ .memlimit → q.attr d = q'.attr d) :
    Spec.Before q'.name q.name (sortedqs all order last) := by
  have hle : v ≤ highest all .memlimit := by
    have := (foldl_max_ge .memlimit all 0).2 q' (List.mem_filter.1 hq').1
    simpa [hsome, highest] using this
  have hlt : value all q' .memlimit < value all q .memlimit := by
    have hp : highest all .memlimit > 0 := by omega
    simp only [value, hnone, hsome, defaultOf, tracked, hp, Option.getD_some, Option.getD_none, and_self, if_true]
    omega
  apply C77_better all hn order ho last hl q' q hq' hq
  · intro d
    by_cases hd : d = .memlimit
    · subst hd
      simp only [Spec.AsGood]; omega
    · have : value all q d = value all q' d := by simp only [value, heq d hd]
      rw [this]
      cases d <;> simp [Spec.AsGood]
  · exact ⟨.memlimit, by simp only [Spec.AsGood]; omega⟩

/-- the hypotheses of the two theorems are met by such tables, and the code's order is as they say -/
def unlTable (c : Crit) : List Queue :=
  [{ name := "a".toList, permitted := true, attr := fun d => if d = c then some 50 else some 3 },
   { name := "b".toList, permitted := true, attr := fun d => if d = c then none else some 3 }]

example : sortedqs (unlTable .hosts) (fun _ => unlTable .hosts) ["a".toList, "b".toList] = ["b".toList, "a".toList] := by
  decide +kernel

example : sortedqs (unlTable .memlimit) (fun _ => unlTable .memlimit) ["a".toList, "b".toList] = ["a".toList, "b".toList] := by
  decide +kernel

end Verif.Sched.Lsf
