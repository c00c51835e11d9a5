import Verif.Cmd.Status
/-!
# Lemmas about the summary of `wr status`
-/
namespace Verif.Cmd.Status
open Verif.Util

theorem get_alter {K V : Type} [DecidableEq K] (k k' : K) (f : Option V → V) :
    ∀ m : List (K × V), get k (alter k' f m) = if k = k' then some (f (get k m)) else get k m
  | [] => by
    by_cases h : k = k'
    · subst h; simp [alter, get]
    · simp [alter, get, h, Ne.symm h]
  | (k₀, v) :: m => by
    have ih := get_alter k k' f m
    by_cases h0 : k₀ = k'
    · subst h0
      by_cases h : k = k₀
      · subst h; simp [alter, get]
      · simp [alter, get, h, Ne.symm h]
    · by_cases h : k₀ = k
      · subst h; simp [alter, get, h0]
      · simp [alter, get, h0, h, ih]

theorem mem_keys_alter {K V : Type} [DecidableEq K] (k k' : K) (f : Option V → V) :
    ∀ m : List (K × V), k ∈ (alter k' f m).map (·.1) ↔ k = k' ∨ k ∈ m.map (·.1)
  | [] => by simp [alter]
  | (k₀, v) :: m => by
    have ih := mem_keys_alter k k' f m
    simp only [alter]
    split
    · rename_i h; subst h
      simp only [List.map_cons, List.mem_cons]
      grind
    · simp only [List.map_cons, List.mem_cons, ih]
      grind

theorem nodup_alter {K V : Type} [DecidableEq K] (k' : K) (f : Option V → V) :
    ∀ m : List (K × V), (m.map (·.1)).Nodup → ((alter k' f m).map (·.1)).Nodup
  | [], _ => by simp [alter]
  | (k₀, v) :: m, h => by
    have ih := nodup_alter k' f m
    simp only [List.map_cons, List.nodup_cons] at h
    simp only [alter]
    split
    · simp only [List.map_cons, List.nodup_cons]; exact h
    · rename_i hne
      simp only [List.map_cons, List.nodup_cons]
      refine ⟨?_, ih h.2⟩
      rw [mem_keys_alter]
      grind

theorem get_isSome_iff {K V : Type} [DecidableEq K] (k : K) : ∀ m : List (K × V), k ∈ m.map (·.1) ↔ (get k m).isSome
  | [] => by simp [get]
  | (k₀, v) :: m => by
    have ih := get_isSome_iff k m
    simp only [List.map_cons, List.mem_cons, get]
    split
    · simp_all
    · rw [← ih]; grind

theorem mem_iff_get {K V : Type} [DecidableEq K] (k : K) (v : V) :
    ∀ m : List (K × V), (m.map (·.1)).Nodup → ((k, v) ∈ m ↔ get k m = some v)
  | [], _ => by simp [get]
  | (k₀, v₀) :: m, h => by
    simp only [List.map_cons, List.nodup_cons] at h
    have ih := mem_iff_get k v m h.2
    simp only [List.mem_cons, Prod.mk.injEq, get]
    split
    · rename_i he; subst he
      constructor
      · rintro (⟨_, rfl⟩ | hm)
        · rfl
        · exact absurd (List.mem_map_of_mem (f := (·.1)) hm) h.1
      · intro hv; left; simpa using hv.symm
    · rw [← ih]; grind

theorem mem_keys_erase {K V : Type} [DecidableEq K] (k k' : K) :
    ∀ m : List (K × V), k ∈ (erase k' m).map (·.1) ↔ k ≠ k' ∧ k ∈ m.map (·.1)
  | [] => by simp [erase]
  | (k₀, v) :: m => by
    have ih := mem_keys_erase k k' m
    simp only [erase]
    split
    · rw [ih]; simp only [List.map_cons, List.mem_cons]; grind
    · simp only [List.map_cons, List.mem_cons, ih]; grind

theorem nodup_erase {K V : Type} [DecidableEq K] (k' : K) :
    ∀ m : List (K × V), (m.map (·.1)).Nodup → ((erase k' m).map (·.1)).Nodup
  | [], _ => by simp [erase]
  | (k₀, v) :: m, h => by
    simp only [List.map_cons, List.nodup_cons] at h
    have ih := nodup_erase k' m h.2
    simp only [erase]
    split
    · exact ih
    · simp only [List.map_cons, List.nodup_cons, mem_keys_erase]
      exact ⟨fun hh => h.1 hh.2, ih⟩

/-- the jobs a line is about -/
def own (rg : List Char) (jobs : List Job) : List Job := if rg = allAbove then jobs else jobs.filter fun j => decide (j.rg = rg)

/-- how many jobs are in a state -/
def cnt (jobs : List Job) (st : St) : Nat := (jobs.filter fun j => decide (j.state = st)).length

def pushAll (js : List Job) : Option Usage := js.foldl (fun o j => some (push j o)) none
def buryAll (js : List Job) : Option (List ((Int × List Char) × List Nat)) := js.foldl (fun o j => some (bury j o)) none

def inState (st : St) (js : List Job) : List Job := js.filter fun j => decide (j.state = st)

structure Good (js : List Job) (a : Acc) : Prop where
  counts : ∀ k, get k a.counts = if k = allAbove ∨ k ∈ js.map (·.rg) then some (cnt (own k js)) else none
  nodup : (a.counts.map (·.1)).Nodup
  usage : ∀ k, get k a.usage = pushAll (inState .complete (own k js))
  buried : ∀ k, get k a.buried = if k = allAbove then none else buryAll (inState .buried (own k js))

theorem own_snoc (k : List Char) (js : List Job) (j : Job) :
    own k (js ++ [j]) = if k = allAbove ∨ j.rg = k then own k js ++ [j] else own k js := by
  unfold own
  by_cases h : k = allAbove
  · simp [h]
  · by_cases h' : j.rg = k <;> simp [h, h']

theorem inState_snoc (st : St) (js : List Job) (j : Job) :
    inState st (js ++ [j]) = if j.state = st then inState st js ++ [j] else inState st js := by
  unfold inState
  by_cases h : j.state = st <;> simp [h]

theorem cnt_snoc (js : List Job) (j : Job) : cnt (js ++ [j]) = fun st => cnt js st + if st = j.state then 1 else 0 := by
  funext st
  unfold cnt
  by_cases h : j.state = st
  · simp [h]
  · simp [h, Ne.symm h]

theorem own_nil_of (k : List Char) (js : List Job) (h : k ≠ allAbove) (h' : k ∉ js.map (·.rg)) : own k js = [] := by
  unfold own
  rw [if_neg h, List.filter_eq_nil_iff]
  intro j hj
  simp only [decide_eq_true_eq]
  intro e
  exact h' (List.mem_map.2 ⟨j, hj, e⟩)

theorem pushAll_snoc (js : List Job) (j : Job) : pushAll (js ++ [j]) = some (push j (pushAll js)) := by simp [pushAll]
theorem buryAll_snoc (js : List Job) (j : Job) : buryAll (js ++ [j]) = some (bury j (buryAll js)) := by simp [buryAll]

theorem sumJob_counts (a : Acc) (j : Job) : (sumJob a j).counts = alter allAbove (inc j.state) (alter j.rg (inc j.state) a.counts) := by
  unfold sumJob; cases h : j.state <;> simp

theorem sumJob_usage (a : Acc) (j : Job) :
    (sumJob a j).usage = if j.state = .complete then alter allAbove (push j) (alter j.rg (push j) a.usage) else a.usage := by
  unfold sumJob; cases h : j.state <;> simp

theorem sumJob_buried (a : Acc) (j : Job) : (sumJob a j).buried = if j.state = .buried then alter j.rg (bury j) a.buried else a.buried := by
  unfold sumJob; cases h : j.state <;> simp

theorem good_step {js : List Job} {a : Acc} (h : Good js a) (j : Job) (hj : j.rg ≠ allAbove) : Good (js ++ [j]) (sumJob a j) := by
  refine ⟨fun k => ?_, ?_, fun k => ?_, fun k => ?_⟩
  · rw [sumJob_counts, get_alter, get_alter, h.counts k, own_snoc]
    by_cases h1 : k = allAbove
    · subst h1
      simp only [if_true, true_or, if_neg (Ne.symm hj), cnt_snoc]
      rfl
    · by_cases h2 : k = j.rg
      · subst h2
        simp only [if_neg h1, if_true, or_true, cnt_snoc, List.map_append, List.mem_append, List.map_cons, List.map_nil, List.mem_singleton]
        by_cases h3 : j.rg ∈ js.map (·.rg)
        · rw [if_pos (Or.inr h3)]; rfl
        · rw [if_neg (by simp [h1, h3]), own_nil_of _ _ h1 h3]; rfl
      · simp only [if_neg h1, if_neg h2, List.map_append, List.mem_append, List.map_cons, List.map_nil, List.mem_singleton]
        have h2' : ¬ j.rg = k := fun e => h2 e.symm
        simp only [h1, h2, h2', or_false, false_or, if_false]
  · rw [sumJob_counts]
    exact nodup_alter _ _ _ (nodup_alter _ _ _ h.nodup)
  · rw [sumJob_usage]
    by_cases hc : j.state = .complete
    · rw [if_pos hc, get_alter, get_alter, h.usage k, own_snoc]
      by_cases h1 : k = allAbove
      · subst h1
        simp only [if_true, true_or, if_neg (Ne.symm hj), inState_snoc, if_pos hc, pushAll_snoc]
      · by_cases h2 : k = j.rg
        · subst h2
          simp only [if_neg h1, if_true, or_true, inState_snoc, if_pos hc, pushAll_snoc]
        · rw [if_neg h1, if_neg h2, if_neg (by simp [h1]; exact fun e => h2 e.symm)]
    · rw [if_neg hc, h.usage k, own_snoc]
      split
      · rw [inState_snoc, if_neg hc]
      · rfl
  · rw [sumJob_buried]
    by_cases hc : j.state = .buried
    · rw [if_pos hc, get_alter, h.buried k, own_snoc]
      by_cases h1 : k = allAbove
      · subst h1
        simp only [if_true, if_neg (Ne.symm hj)]
      · by_cases h2 : k = j.rg
        · subst h2
          simp only [if_neg h1, if_true, or_true, inState_snoc, if_pos hc, buryAll_snoc]
        · simp only [if_neg h1, if_neg h2]
          rw [if_neg (by simp [h1]; exact fun e => h2 e.symm)]
    · rw [if_neg hc, h.buried k, own_snoc]
      split
      · rfl
      · split
        · rw [inState_snoc, if_neg hc]
        · rfl

theorem good_fold : ∀ (l js : List Job) (a : Acc), Good js a → (∀ j ∈ l, j.rg ≠ allAbove) → Good (js ++ l) (l.foldl sumJob a)
  | [], js, a, h, _ => by simpa using h
  | j :: l, js, a, h, hl => by
    have := good_fold l (js ++ [j]) (sumJob a j) (good_step h j (hl j (by simp))) (fun x hx => hl x (by simp [hx]))
    simpa using this

theorem good (jobs : List Job) (h : ∀ j ∈ jobs, j.rg ≠ allAbove) : Good jobs (jobs.foldl sumJob {}) := by
  have := good_fold jobs [] {} ⟨fun k => ?_, by simp, fun k => ?_, fun k => ?_⟩ h
  · simpa using this
  · by_cases hk : k = allAbove
    · subst hk
      simp [get, own, allAbove]
      rfl
    · simp [get, hk, Ne.symm hk]
  · simp [get, own, inState, pushAll]
  · simp [get, own, inState, buryAll]

theorem lines_some (text : Int → List Char) (a : Acc) : ∀ rgs : List (List Char), (∀ rg ∈ rgs, (line text a rg).isSome) →
    ∃ ls, lines text a rgs = some ls ∧ ls.map (·.rg) = rgs ∧ ∀ l ∈ ls, line text a l.rg = some l
  | [], _ => ⟨[], rfl, rfl, by simp⟩
  | rg :: rgs, h => by
    obtain ⟨ls, e, hm, hl⟩ := lines_some text a rgs (fun x hx => h x (by simp [hx]))
    obtain ⟨l, hl'⟩ := Option.isSome_iff_exists.1 (h rg (by simp))
    have hrg : l.rg = rg := by
      unfold line at hl'
      simp only at hl'
      split at hl'
      · split at hl'
        · simp at hl'
        · simp only [Option.some.injEq] at hl'; subst hl'; rfl
      · simp only [Option.some.injEq] at hl'; subst hl'; rfl
    refine ⟨l :: ls, by simp [lines, hl', e], by simp [hrg, hm], ?_⟩
    intro x hx
    rcases List.mem_cons.1 hx with rfl | hx
    · rw [hrg]; exact hl'
    · exact hl x hx

/-- what the statistics of a group are after its complete jobs were pushed -/
structure UsageOf (js : List Job) (u : Usage) : Prop where
  ram : u.ram = js.map (·.ram)
  disk : u.disk = js.map (·.disk)
  wall : u.wall = js.map (·.wall)
  cpu : u.cpu = js.map (·.cpu)
  start : (∃ j ∈ js, j.start = u.start) ∧ ∀ j ∈ js, u.start ≤ j.start
  fin : (∃ j ∈ js, j.fin = u.fin) ∧ ∀ j ∈ js, j.fin ≤ u.fin

theorem pushAll_fold : ∀ (l js : List Job) (u : Usage), UsageOf js u →
    ∃ u', l.foldl (fun o j => some (push j o)) (some u) = some u' ∧ UsageOf (js ++ l) u'
  | [], js, u, h => ⟨u, rfl, by simpa using h⟩
  | j :: l, js, u, h => by
    have h' : UsageOf (js ++ [j]) (push j (some u)) := by
      obtain ⟨h1, h2, h3, h4, ⟨⟨x, hx, hxs⟩, h5⟩, ⟨⟨y, hy, hys⟩, h6⟩⟩ := h
      refine ⟨by simp [push, h1], by simp [push, h2], by simp [push, h3], by simp [push, h4], ?_, ?_⟩
      · simp only [push]
        split
        · refine ⟨⟨j, by simp, rfl⟩, ?_⟩
          intro z hz
          rcases List.mem_append.1 hz with hz | hz
          · have := h5 z hz; omega
          · simp at hz; subst hz; omega
        · refine ⟨⟨x, by simp [hx], hxs⟩, ?_⟩
          intro z hz
          rcases List.mem_append.1 hz with hz | hz
          · exact h5 z hz
          · simp at hz; subst hz; omega
      · simp only [push]
        split
        · refine ⟨⟨j, by simp, rfl⟩, ?_⟩
          intro z hz
          rcases List.mem_append.1 hz with hz | hz
          · have := h6 z hz; omega
          · simp at hz; subst hz; omega
        · refine ⟨⟨y, by simp [hy], hys⟩, ?_⟩
          intro z hz
          rcases List.mem_append.1 hz with hz | hz
          · exact h6 z hz
          · simp at hz; subst hz; omega
    obtain ⟨u', e, hu⟩ := pushAll_fold l (js ++ [j]) _ h'
    exact ⟨u', by simpa using e, by simpa using hu⟩

theorem pushAll_usage (js : List Job) (h : js ≠ []) : ∃ u, pushAll js = some u ∧ UsageOf js u := by
  cases js with
  | nil => exact absurd rfl h
  | cons j l =>
    have h0 : UsageOf [j] (push j none) := by
      refine ⟨rfl, rfl, rfl, rfl, ⟨⟨j, by simp, rfl⟩, ?_⟩, ⟨⟨j, by simp, rfl⟩, ?_⟩⟩ <;>
        (intro z hz; simp at hz; subst hz; exact Int.le_refl _)
    obtain ⟨u', e, hu⟩ := pushAll_fold l [j] _ h0
    exact ⟨u', by simpa [pushAll] using e, by simpa using hu⟩

/-- the keys of the jobs with an exit code and reason -/
def keysOf (g : Int × List Char) (js : List Job) : List Nat := (js.filter fun j => decide (j.exit = g.1 ∧ j.reason = g.2)).map (·.key)

theorem buryAll_fold : ∀ (l js : List Job) (m : List ((Int × List Char) × List Nat)),
    ((m.map (·.1)).Nodup ∧ ∀ g, get g m = if keysOf g js = [] then none else some (keysOf g js)) →
    let m' := (l.foldl (fun o j => some (bury j o)) (some m)).getD []
    (m'.map (·.1)).Nodup ∧ ∀ g, get g m' = if keysOf g (js ++ l) = [] then none else some (keysOf g (js ++ l))
  | [], js, m, h => by simpa using h
  | j :: l, js, m, h => by
    have h' : ((bury j (some m)).map (·.1)).Nodup ∧
        ∀ g, get g (bury j (some m)) = if keysOf g (js ++ [j]) = [] then none else some (keysOf g (js ++ [j])) := by
      refine ⟨nodup_alter _ _ _ h.1, ?_⟩
      intro g
      have e : keysOf g (js ++ [j]) = if g = (j.exit, j.reason) then keysOf g js ++ [j.key] else keysOf g js := by
        unfold keysOf
        by_cases hg : g = (j.exit, j.reason)
        · subst hg; simp
        · have : ¬ (j.exit = g.1 ∧ j.reason = g.2) := fun hh => hg (Prod.ext hh.1.symm hh.2.symm)
          simp [hg, this]
      rw [e]
      simp only [bury, Option.getD_some]
      rw [get_alter, h.2 g]
      by_cases hg : g = (j.exit, j.reason)
      · simp only [if_pos hg]
        by_cases he : keysOf g js = [] <;> simp [he]
      · simp only [if_neg hg]
    have := buryAll_fold l (js ++ [j]) (bury j (some m)) h'
    simpa using this

theorem buryAll_spec (js : List Job) : (((buryAll js).getD []).map (·.1)).Nodup ∧
    ∀ g, get g ((buryAll js).getD []) = if keysOf g js = [] then none else some (keysOf g js) := by
  cases js with
  | nil => simp [buryAll, get, keysOf]
  | cons j l =>
    have h0 : ((bury j none).map (·.1)).Nodup ∧ ∀ g, get g (bury j none) = if keysOf g [j] = [] then none else some (keysOf g [j]) := by
      refine ⟨by simp [bury, alter], ?_⟩
      intro g
      by_cases hg : g = (j.exit, j.reason)
      · subst hg; simp [bury, alter, get, keysOf]
      · have : ¬ (j.exit = g.1 ∧ j.reason = g.2) := fun hh => hg (Prod.ext hh.1.symm hh.2.symm)
        simp [bury, alter, get, keysOf, this, Ne.symm hg]
    have := buryAll_fold l [j] (bury j none) h0
    simpa [buryAll] using this

theorem foldl_count (jobs : List Job) : ∀ n : Nums, jobs.foldl countJob n =
    { complete := n.complete + ((inState .complete jobs).map fun j => 1 + j.similar).sum
      running := n.running + ((jobs.filter fun j => decide (j.state = .reserved ∨ j.state = .running)).map fun j => 1 + j.similar).sum
      ready := n.ready + ((inState .ready jobs).map fun j => 1 + j.similar).sum
      dependent := n.dependent + ((inState .dependent jobs).map fun j => 1 + j.similar).sum
      lost := n.lost + ((inState .lost jobs).map fun j => 1 + j.similar).sum
      delayed := n.delayed + ((inState .delayed jobs).map fun j => 1 + j.similar).sum
      buried := n.buried + ((inState .buried jobs).map fun j => 1 + j.similar).sum } := by
  induction jobs with
  | nil => intro n; simp [inState]
  | cons j l ih =>
    intro n
    rw [List.foldl_cons, ih]
    cases h : j.state <;> simp [countJob, h, inState] <;> omega

end Verif.Cmd.Status
