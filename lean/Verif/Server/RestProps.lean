import Verif.Server.Rest
import Verif.Server.DeleteProps

/-! # C97: choosing jobs over the REST API and the web interface -/

namespace Verif.Server.Rest
open Verif.Queue
open Verif.Server.Listing (Job JobState Opts Groups limitJobs jobMatchesFilters normalizeOptions)

/-! ## Specification -/

/-- The job with this key is in the queue. -/
def Queued (s : S) (k : String) : Prop := ∃ i : Nat, s.q.find k = some i

/-- The job with this key is with a runner. -/
def Runs (s : S) (k : String) : Prop := ∃ i : Nat, s.q.find k = some i ∧ (s.q.store i).state = .run

/-- The job with this key is in the state that is asked for by this word when jobs are cancelled
(serverREST.go:641, 883-887). -/
def InState (s : S) (k : String) (word : String) : Prop :=
  (word = "running" ∧ Runs s k ∧ (s.attr k).lost = false) ∨ (word = "lost" ∧ Runs s k ∧ (s.attr k).lost = true) ∨
  (word = "deletable" ∧ Queued s k ∧ ¬ Runs s k)

/-- The words that name states. -/
def words : List String :=
  ["delayed", "ready", "reserved", "running", "lost", "buried", "dependent", "complete", "deletable"]

/-! ## Lemmas -/

private theorem limit_none (order : Groups → Groups) (st : JobState) (jobs : List Job) :
    limitJobs order { state := some st } jobs = jobs.filter (jobMatchesFilters (normalizeOptions { state := some st })) := by
  unfold limitJobs
  rw [if_neg (by simp)]
  simp only
  rw [if_pos (by simp [normalizeOptions])]

private theorem match_running (s : S) (k : String) (i : Nat) :
    jobMatchesFilters (normalizeOptions { state := some .running }) (toJob s k i) = true ↔
      (s.q.store i).state = .run ∧ (s.attr k).lost = false := by
  cases h : (s.q.store i).state <;> cases hl : (s.attr k).lost <;> cases hs : (s.attr k).started <;>
    simp [jobMatchesFilters, normalizeOptions, toJob, jobState, Listing.normalizeJobState, Listing.matchesStateFilter,
      Listing.matchesFailureFilter, h, hl, hs]

private theorem match_lost (s : S) (k : String) (i : Nat) :
    jobMatchesFilters (normalizeOptions { state := some .lost }) (toJob s k i) = true ↔
      (s.q.store i).state = .run ∧ (s.attr k).lost = true := by
  cases h : (s.q.store i).state <;> cases hl : (s.attr k).lost <;> cases hs : (s.attr k).started <;>
    simp [jobMatchesFilters, normalizeOptions, toJob, jobState, Listing.normalizeJobState, Listing.matchesStateFilter,
      Listing.matchesFailureFilter, h, hl, hs]

private theorem match_deletable (s : S) (k : String) (i : Nat) (hr : (s.q.store i).state ≠ .removed) :
    jobMatchesFilters (normalizeOptions { state := some .deletable }) (toJob s k i) = true := by
  cases h : (s.q.store i).state <;> cases hl : (s.attr k).lost <;> cases hs : (s.attr k).started <;>
    simp [jobMatchesFilters, normalizeOptions, toJob, jobState, Listing.normalizeJobState, Listing.matchesStateFilter,
      Listing.matchesFailureFilter, h, hl, hs] at hr ⊢

private theorem match_word (s : S) (k : String) (i : Nat) (w : String) (hw : w ∈ words) (hw' : w ≠ "deletable")
    (hr : (s.q.store i).state ≠ .removed) :
    jobMatchesFilters (normalizeOptions { state := parseState w }) (toJob s k i) = true ↔
        ((w = "delayed" ∧ (s.q.store i).state = .delay) ∨ (w = "ready" ∧ (s.q.store i).state = .ready) ∨
        ((w = "reserved" ∨ w = "running") ∧ (s.q.store i).state = .run ∧ (s.attr k).lost = false) ∨
        (w = "lost" ∧ (s.q.store i).state = .run ∧ (s.attr k).lost = true) ∨
        (w = "buried" ∧ (s.q.store i).state = .bury) ∨ (w = "dependent" ∧ (s.q.store i).state = .dependent)) := by
  simp only [words, List.mem_cons, List.not_mem_nil, or_false] at hw
  rcases hw with rfl | rfl | rfl | rfl | rfl | rfl | rfl | rfl | rfl
  all_goals first
    | exact absurd rfl hw'
    | (cases h : (s.q.store i).state <;> cases hl : (s.attr k).lost <;> cases hs : (s.attr k).started <;>
        simp [jobMatchesFilters, normalizeOptions, toJob, jobState, Listing.normalizeJobState, Listing.matchesStateFilter,
          Listing.matchesFailureFilter, parseState, h, hl, hs] at hr ⊢)

@[simp] private theorem toJob_key (s : S) (k : String) (i : Nat) : (toJob s k i).key = k := rfl

private theorem mem_ofGroup (s : S) (g : String) (j : Job) :
    j ∈ ofGroup s g ↔ ∃ k i, k ∈ s.rpl g ∧ s.q.find k = some i ∧ j = toJob s k i := by
  unfold ofGroup
  rw [List.mem_filterMap]
  constructor
  · rintro ⟨k, hk, h⟩
    cases hf : s.q.find k with
    | none => rw [hf] at h; cases h
    | some i => rw [hf] at h; exact ⟨k, i, hk, hf, by simpa using h.symm⟩
  · rintro ⟨k, i, hk, hf, rfl⟩
    exact ⟨k, hk, by rw [hf]; rfl⟩

private structure Same (s t : S) : Prop where
  q : t.q = s.q
  attr : t.attr = s.attr
  rpl : t.rpl = s.rpl
  done : t.done = s.done
  rgs : t.rgs = s.rgs

private theorem killJob_some {s : S} {k : String} (h : Queued s k) :
    ∃ b t, killJob s k = some (b, t) ∧ Same s t ∧ (b = true ↔ Runs s k ∧ k ∉ s.dead) ∧
      (∀ x, x ∈ t.killed ↔ x ∈ s.killed ∨ (x = k ∧ Runs s k ∧ k ∉ s.dead)) ∧
      (∀ x, x ∈ t.dead ↔ x ∈ s.dead ∨ (x = k ∧ Runs s k ∧ k ∉ s.dead ∧ (s.attr k).lost = true)) := by
  obtain ⟨i, hi⟩ := h
  have hr : Runs s k ↔ (s.q.store i).state = .run := by
    constructor
    · rintro ⟨j, hj, h⟩; rw [hi] at hj; cases hj; exact h
    · intro h; exact ⟨i, hi, h⟩
  unfold killJob
  rw [hi]
  simp only [hr]
  by_cases hc : (s.q.store i).state ≠ .run ∨ k ∈ s.dead
  · rw [if_pos hc]
    have : ¬ ((s.q.store i).state = .run ∧ k ∉ s.dead) := by
      rintro ⟨a, b⟩; exact hc.elim (fun h => h a) b
    refine ⟨false, s, rfl, ⟨rfl, rfl, rfl, rfl, rfl⟩, by simp [this], ?_, ?_⟩
    · intro x
      constructor
      · exact .inl
      · rintro (h | ⟨_, h⟩)
        · exact h
        · exact absurd h this
    · intro x
      constructor
      · exact .inl
      · rintro (h | ⟨_, h1, h2, _⟩)
        · exact h
        · exact absurd ⟨h1, h2⟩ this
  · rw [if_neg hc]
    have hrun : (s.q.store i).state = .run := Decidable.of_not_not fun h => hc (.inl h)
    have hnd : k ∉ s.dead := fun h => hc (.inr h)
    refine ⟨true, _, rfl, ⟨rfl, rfl, rfl, rfl, rfl⟩, by simp [hrun, hnd], ?_, ?_⟩
    · intro x
      simp only [List.mem_cons]
      constructor
      · rintro (rfl | h)
        · exact .inr ⟨rfl, hrun, hnd⟩
        · exact .inl h
      · rintro (h | ⟨h, _⟩)
        · exact .inr h
        · exact .inl h
    · intro x
      by_cases hl : (s.attr k).lost = true
      · simp only [hl, if_true, List.mem_cons, hrun, hnd, not_false_eq_true, and_true, and_self]
        exact Or.comm
      · simp [hl, hrun, hnd]

private theorem same_runs {s t : S} (h : Same s t) (k : String) : Runs t k ↔ Runs s k := by
  unfold Runs; rw [h.q]

private theorem same_queued {s t : S} (h : Same s t) (k : String) : Queued t k ↔ Queued s k := by
  unfold Queued; rw [h.q]

private theorem Same.trans {s t u : S} (h : Same s t) (g : Same t u) : Same s u :=
  ⟨g.q.trans h.q, g.attr.trans h.attr, g.rpl.trans h.rpl, g.done.trans h.done, g.rgs.trans h.rgs⟩

/-- what the loop over jobs does if all are in the queue -/
private theorem killAll_ok : ∀ (jobs : List Job) (s : S) (handled : List Job), (∀ j ∈ jobs, Queued s j.key) →
    (∀ x ∈ s.dead, x ∈ s.killed) →
    (killAll s handled jobs).code = 202 ∧ Same s (killAll s handled jobs).s ∧
      (∀ x, x ∈ (killAll s handled jobs).s.killed ↔
        x ∈ s.killed ∨ (x ∉ s.dead ∧ Runs s x ∧ ∃ j ∈ jobs, j.key = x)) ∧
      (∀ j, j ∈ (killAll s handled jobs).jobs → j ∈ handled ∨ (j ∈ jobs ∧ Runs s j.key)) ∧
      (∀ j, j ∈ handled → j ∈ (killAll s handled jobs).jobs) ∧
      (∀ x, (∃ j ∈ jobs, j.key = x) → Runs s x → x ∉ s.dead → ∃ j ∈ (killAll s handled jobs).jobs, j.key = x)
  | [], s, handled, _, _ => by
    refine ⟨rfl, ⟨rfl, rfl, rfl, rfl, rfl⟩, ?_, fun j h => .inl h, fun j h => h, ?_⟩
    · intro x; simp [killAll]
    · rintro x ⟨j, h, _⟩; simp at h
  | j :: js, s, handled, hq, hd => by
    obtain ⟨b, t, e, hs, hb, hk, hdead⟩ := killJob_some (hq j (by simp))
    have hq' : ∀ x ∈ js, Queued t x.key := fun x hx => (same_queued hs _).2 (hq x (by simp [hx]))
    have hd' : ∀ x ∈ t.dead, x ∈ t.killed := by
      intro x hx
      rw [hk]
      rcases (hdead x).1 hx with h | ⟨h1, h2, h3, _⟩
      · exact .inl (hd x h)
      · exact .inr ⟨h1, h2, h3⟩
    have ih := killAll_ok js t (if b then handled ++ [j] else handled) hq' hd'
    have hu : killAll s handled (j :: js) = killAll t (if b then handled ++ [j] else handled) js := by
      rw [killAll, e]
    rw [hu]
    obtain ⟨h1, h2, h3, h4, h5, h6⟩ := ih
    refine ⟨h1, hs.trans h2, ?_, ?_, ?_, ?_⟩
    · intro x
      rw [h3, hk, hdead, same_runs hs]
      constructor
      · rintro ((h | ⟨rfl, ha, hb⟩) | ⟨ha, hb, y, hy, hxy⟩)
        · exact .inl h
        · exact .inr ⟨hb, ha, j, by simp, rfl⟩
        · exact .inr ⟨fun h => ha (.inl h), hb, y, by simp [hy], hxy⟩
      · rintro (h | ⟨ha, hb, y, hy, hxy⟩)
        · exact .inl (.inl h)
        · by_cases hxj : x = j.key
          · exact .inl (.inr ⟨hxj, hxj ▸ hb, hxj ▸ ha⟩)
          · rcases List.mem_cons.1 hy with rfl | hy
            · exact absurd hxy.symm hxj
            · exact .inr ⟨fun h => h.elim ha fun h => hxj h.1, hb, y, hy, hxy⟩
    · intro y hy
      rcases h4 y hy with h | ⟨ha, hb⟩
      · by_cases hbt : b = true
        · rw [if_pos hbt] at h
          rcases List.mem_append.1 h with h | h
          · exact .inl h
          · rw [List.mem_singleton] at h
            subst h
            exact .inr ⟨by simp, (hb.1 hbt).1⟩
        · rw [if_neg hbt] at h; exact .inl h
      · exact .inr ⟨by simp [ha], (same_runs hs _).1 hb⟩
    · intro y hy
      apply h5
      split
      · simp [hy]
      · exact hy
    · rintro x ⟨y, hy, hxy⟩ hr hx
      by_cases hxj : x = j.key
      · have hbt : b = true := hb.2 ⟨hxj ▸ hr, hxj ▸ hx⟩
        exact ⟨j, h5 j (by rw [if_pos hbt]; simp), hxj.symm⟩
      · rcases List.mem_cons.1 hy with rfl | hy
        · exact absurd hxy.symm hxj
        · exact h6 x ⟨y, hy, hxy⟩ ((same_runs hs _).2 hr) fun h => ((hdead x).1 h).elim hx fun h => hxj h.1

private theorem parse_known {w : String} {st : JobState} (h : (w, st) ∈ [("delayed", JobState.delayed), ("ready", .ready),
    ("reserved", .reserved), ("running", .running), ("lost", .lost), ("buried", .buried), ("dependent", .dependent),
    ("complete", .complete), ("deletable", .deletable)]) : parseState w = some st := by
  simp only [List.mem_cons, Prod.mk.injEq, List.not_mem_nil, or_false] at h
  rcases h with ⟨rfl, rfl⟩ | ⟨rfl, rfl⟩ | ⟨rfl, rfl⟩ | ⟨rfl, rfl⟩ | ⟨rfl, rfl⟩ | ⟨rfl, rfl⟩ | ⟨rfl, rfl⟩ | ⟨rfl, rfl⟩ | ⟨rfl, rfl⟩ <;> decide

private theorem mem_groupsOf (s : S) (g rg : String) (search : Bool) :
    rg ∈ groupsOf s g search ↔ if search then rg ∈ s.rgs ∧ g.toList <:+: rg.toList else rg = g := by
  have hc : ∀ t sub : List Char, contains t sub = true ↔ sub <:+: t := by
    intro t sub
    induction t with
    | nil => simp [contains]
    | cons c t ih => simp only [contains, Bool.or_eq_true, List.isPrefixOf_iff_prefix, ih, List.infix_cons_iff]
  unfold groupsOf
  cases search <;> simp [hc]

private theorem mem_byGroup (order : Groups → Groups) (s : S) (id : String) (search : Bool) (st : JobState)
    (hst : st ≠ .complete) (j : Job) : j ∈ byGroup order s id search { state := some st } ↔
      ∃ g k i, (if search then g ∈ s.rgs ∧ id.toList <:+: g.toList else g = id) ∧ k ∈ s.rpl g ∧ s.q.find k = some i ∧
        j = toJob s k i ∧ jobMatchesFilters (normalizeOptions { state := some st }) j = true := by
  unfold byGroup
  rw [limit_none, List.mem_filter, List.mem_flatMap]
  have hd : ∀ g, doneOf s g (some st) = [] := by
    intro g; unfold doneOf; rw [if_pos ⟨by simp, by simpa using hst⟩]
  constructor
  · rintro ⟨⟨g, hg, hj⟩, hm⟩
    rw [hd, List.append_nil, mem_ofGroup] at hj
    obtain ⟨k, i, hk, hf, rfl⟩ := hj
    exact ⟨g, k, i, (mem_groupsOf s id g search).1 hg, hk, hf, rfl, hm⟩
  · rintro ⟨g, k, i, hg, hk, hf, rfl, hm⟩
    refine ⟨⟨g, (mem_groupsOf s id g search).2 hg, ?_⟩, hm⟩
    rw [hd, List.append_nil, mem_ofGroup]
    exact ⟨k, i, hk, hf, rfl⟩

/-- the jobs chosen by groups in order to be killed -/
private theorem chosen (atoi : String → Option Int) (order : Groups → Groups) (all : List (String × Nat) → List (String × Nat))
    (s : S) (f : Form) (hw : f.state = "running" ∨ f.state = "lost") (hl : f.limit = "") (hi : f.ids ≠ [])
    (hk : ∀ id ∈ f.ids, ¬ (id.length = 32 ∧ byKey s id ≠ [])) :
    ∃ jobs, status atoi order all s f = (200, jobs) ∧ (∀ j ∈ jobs, Queued s j.key) ∧
      ∀ x, (∃ j ∈ jobs, j.key = x) ↔ InState s x f.state ∧ ∃ id ∈ f.ids, ∃ g,
        (if f.search = "true" then g ∈ s.rgs ∧ id.toList <:+: g.toList else g = id) ∧ x ∈ s.rpl g := by
  unfold status
  rw [if_neg (fun h => h hl)]
  simp only [if_neg hi]
  have hof : ∀ (o : Opts) (id : String), id ∈ f.ids →
      ofId order s (decide (f.search = "true")) o id = byGroup order s id (decide (f.search = "true")) o := by
    intro o id h; unfold ofId; rw [if_neg (hk id h)]
  have key : ∀ st, parseState f.state = some st → st ≠ .complete →
      (∀ k i, jobMatchesFilters (normalizeOptions { state := some st }) (toJob s k i) = true ∧ s.q.find k = some i ↔
        InState s k f.state ∧ s.q.find k = some i) →
      (∀ j ∈ f.ids.flatMap (ofId order s (decide (f.search = "true")) { limit := 0, state := parseState f.state }), Queued s j.key) ∧
      ∀ x, (∃ j ∈ f.ids.flatMap (ofId order s (decide (f.search = "true")) { limit := 0, state := parseState f.state }), j.key = x) ↔
        InState s x f.state ∧ ∃ id ∈ f.ids, ∃ g,
        (if f.search = "true" then g ∈ s.rgs ∧ id.toList <:+: g.toList else g = id) ∧ x ∈ s.rpl g := by
    intro st hst hne hm
    rw [hst]
    have hmem : ∀ j, j ∈ f.ids.flatMap (ofId order s (decide (f.search = "true")) { limit := 0, state := some st }) ↔
        ∃ id ∈ f.ids, ∃ g k i, (if f.search = "true" then g ∈ s.rgs ∧ id.toList <:+: g.toList else g = id) ∧ k ∈ s.rpl g ∧
          s.q.find k = some i ∧ j = toJob s k i ∧ jobMatchesFilters (normalizeOptions { state := some st }) j = true := by
      intro j
      rw [List.mem_flatMap]
      constructor
      · rintro ⟨id, h1, h2⟩
        rw [hof _ id h1, mem_byGroup order s id _ st hne] at h2
        exact ⟨id, h1, by simpa using h2⟩
      · rintro ⟨id, h1, h2⟩
        refine ⟨id, h1, ?_⟩
        rw [hof _ id h1, mem_byGroup order s id _ st hne]
        simpa using h2
    constructor
    · intro j hj
      obtain ⟨id, _, g, k, i, _, _, hf, rfl, _⟩ := (hmem j).1 hj
      exact ⟨i, hf⟩
    · intro x
      constructor
      · rintro ⟨j, hj, rfl⟩
        obtain ⟨id, h1, g, k, i, h2, h3, hf, rfl, h4⟩ := (hmem j).1 hj
        exact ⟨((hm k i).1 ⟨h4, hf⟩).1, id, h1, g, h2, h3⟩
      · rintro ⟨hin, id, h1, g, h2, h3⟩
        have hq : Queued s x := by
          rcases hin with ⟨_, ⟨i, h, _⟩, _⟩ | ⟨_, ⟨i, h, _⟩, _⟩ | ⟨_, h, _⟩
          · exact ⟨i, h⟩
          · exact ⟨i, h⟩
          · exact h
        obtain ⟨i, hf⟩ := hq
        exact ⟨toJob s x i, (hmem _).2 ⟨id, h1, g, x, i, h2, h3, hf, rfl, ((hm x i).2 ⟨hin, hf⟩).1⟩, rfl⟩
  have hruns : ∀ k i, s.q.find k = some i → (Runs s k ↔ (s.q.store i).state = .run) := by
    intro k i hf
    constructor
    · rintro ⟨j, hj, h⟩; rw [hf] at hj; cases hj; exact h
    · intro h; exact ⟨i, hf, h⟩
  refine ⟨_, rfl, ?_⟩
  rcases hw with hw | hw
  · refine key .running (by rw [hw]; decide) (by simp) ?_
    intro k i
    rw [match_running, hw]
    constructor
    · rintro ⟨⟨a, b⟩, hf⟩; exact ⟨.inl ⟨rfl, (hruns k i hf).2 a, b⟩, hf⟩
    · rintro ⟨h, hf⟩
      refine ⟨?_, hf⟩
      rcases h with ⟨_, h1, h2⟩ | ⟨h, _⟩ | ⟨h, _⟩
      · exact ⟨(hruns k i hf).1 h1, h2⟩
      · exact absurd h (by decide)
      · exact absurd h (by decide)
  · refine key .lost (by rw [hw]; decide) (by simp) ?_
    intro k i
    rw [match_lost, hw]
    constructor
    · rintro ⟨⟨a, b⟩, hf⟩; exact ⟨.inr (.inl ⟨rfl, (hruns k i hf).2 a, b⟩), hf⟩
    · rintro ⟨h, hf⟩
      refine ⟨?_, hf⟩
      rcases h with ⟨h, _⟩ | ⟨_, h1, h2⟩ | ⟨h, _⟩
      · exact absurd h (by decide)
      · exact ⟨(hruns k i hf).1 h1, h2⟩
      · exact absurd h (by decide)

/-! ## Properties -/

/-- C97: if running or lost jobs of report groups are cancelled over the REST API, exactly the jobs of these groups that are
in that state are, and exactly these are in the answer. -/
theorem C97_kill_partial (atoi : String → Option Int) (order : Groups → Groups)
    (all : List (String × Nat) → List (String × Nat)) (s : S) (hdead : s.dead = []) (f : Form)
    (hw : f.state = "running" ∨ f.state = "lost") (hl : f.limit = "") (hi : f.ids ≠ [])
    (hk : ∀ id ∈ f.ids, ¬ (id.length = 32 ∧ byKey s id ≠ [])) :
    ∃ o, cancel atoi order all s f = some o ∧ o.code = 202 ∧ o.s.q = s.q ∧
      (∀ k, k ∈ o.s.killed ↔ k ∈ s.killed ∨ InState s k f.state ∧ ∃ id ∈ f.ids, ∃ g,
        (if f.search = "true" then g ∈ s.rgs ∧ id.toList <:+: g.toList else g = id) ∧ k ∈ s.rpl g) ∧
      (∀ k, (∃ j ∈ o.jobs, j.key = k) ↔ InState s k f.state ∧ ∃ id ∈ f.ids, ∃ g,
        (if f.search = "true" then g ∈ s.rgs ∧ id.toList <:+: g.toList else g = id) ∧ k ∈ s.rpl g) := by
  obtain ⟨jobs, h1, h2, h3⟩ := chosen atoi order all s f hw hl hi hk
  have hne : f.state ≠ "deletable" := by rcases hw with h | h <;> rw [h] <;> decide
  obtain ⟨k1, k2, k3, k4, _, k6⟩ := killAll_ok jobs s [] h2 (by rw [hdead]; simp)
  have hrun : ∀ k, InState s k f.state → Runs s k := by
    rintro k (⟨_, h, _⟩ | ⟨_, h, _⟩ | ⟨h, _⟩)
    · exact h
    · exact h
    · exact absurd h hne
  refine ⟨killAll s [] jobs, ?_, k1, k2.q, ?_, ?_⟩
  · unfold cancel
    rw [if_neg (by rcases hw with h | h <;> simp [h]), h1]
    simp only [if_neg hne]
  · intro k
    rw [k3, h3, hdead]
    constructor
    · rintro (h | ⟨_, _, h⟩)
      · exact .inl h
      · exact .inr h
    · rintro (h | h)
      · exact .inl h
      · exact .inr ⟨by simp, hrun k h.1, h⟩
  · intro k
    rw [← h3]
    constructor
    · rintro ⟨j, hj, rfl⟩
      rcases k4 j hj with h | ⟨h, _⟩
      · simp at h
      · exact ⟨j, h, rfl⟩
    · intro h
      exact k6 k h (hrun k ((h3 k).1 h).1) (by rw [hdead]; simp)

/-- C97: a request to cancel jobs that does not say which, or of which the limit is no number, is refused and does nothing. -/
theorem C97_refused (atoi : String → Option Int) (order : Groups → Groups)
    (all : List (String × Nat) → List (String × Nat)) (s : S) (f : Form)
    (h : (f.state ≠ "running" ∧ f.state ≠ "lost" ∧ f.state ≠ "deletable") ∨ (f.limit ≠ "" ∧ atoi f.limit = none)) :
    cancel atoi order all s f = some { code := 400, s } := by
  unfold cancel
  split
  · rfl
  · rename_i hs
    rcases h with ⟨a, b, c⟩ | ⟨a, b⟩
    · exact absurd (by simp [a, b, c]) hs
    · have : status atoi order all s f = (400, []) := by
        unfold status; rw [if_pos a, b]
      rw [this]
      rfl

/-- C97: whatever is asked for, only jobs that are with a runner are killed, and no job leaves the queue. -/
theorem C97_only (atoi : String → Option Int) (order : Groups → Groups)
    (all : List (String × Nat) → List (String × Nat)) (s : S) (f : Form) (hne : f.state ≠ "deletable") (o : Out)
    (ho : cancel atoi order all s f = some o) :
    o.s.q = s.q ∧ (∀ k, k ∈ o.s.killed → k ∈ s.killed ∨ Runs s k) ∧ (∀ j ∈ o.jobs, Runs s j.key) := by
  have hall : ∀ (jobs : List Job) (t : S) (handled : List Job), t.q = s.q → (∀ k, k ∈ t.killed → k ∈ s.killed ∨ Runs s k) →
      (∀ j ∈ handled, Runs s j.key) →
      (killAll t handled jobs).s.q = s.q ∧ (∀ k, k ∈ (killAll t handled jobs).s.killed → k ∈ s.killed ∨ Runs s k) ∧
      (∀ j ∈ (killAll t handled jobs).jobs, Runs s j.key) := by
    intro jobs
    induction jobs with
    | nil => intro t handled h1 h2 h3; exact ⟨h1, h2, h3⟩
    | cons j js ih =>
      intro t handled h1 h2 h3
      rw [killAll]
      cases hk : killJob t j.key with
      | none => exact ⟨h1, h2, by simp⟩
      | some r =>
        obtain ⟨b, u⟩ := r
        have hq : Queued t j.key := by
          cases hf : t.q.find j.key with
          | none => unfold killJob at hk; rw [hf] at hk; cases hk
          | some i => exact ⟨i, hf⟩
        obtain ⟨b', u', e, hs, hb, hkk, _⟩ := killJob_some hq
        rw [hk] at e
        simp only [Option.some.injEq, Prod.mk.injEq] at e
        obtain ⟨rfl, rfl⟩ := e
        have hr : Runs t j.key → Runs s j.key := by unfold Runs; rw [h1]; exact id
        refine ih u _ (hs.q.trans h1) ?_ ?_
        · intro k hk'
          rcases (hkk k).1 hk' with h | ⟨rfl, h, _⟩
          · exact h2 k h
          · exact .inr (hr h)
        · intro y hy
          by_cases hbt : b = true
          · rw [if_pos hbt] at hy
            rcases List.mem_append.1 hy with h | h
            · exact h3 y h
            · rw [List.mem_singleton] at h
              subst h
              exact hr (hb.1 hbt).1
          · rw [if_neg hbt] at hy
            exact h3 y hy
  unfold cancel at ho
  split at ho
  · cases ho; exact ⟨rfl, fun k h => .inl h, by simp⟩
  · split at ho
    · cases ho
      exact hall _ s [] rfl (fun k h => .inl h) (by simp)
    · cases ho; exact ⟨rfl, fun k h => .inl h, by simp⟩

/-- C97: a key is answered with the job that has it. -/
theorem C97_get_key (atoi : String → Option Int) (order : Groups → Groups)
    (all : List (String × Nat) → List (String × Nat)) (s : S) (f : Form) (k : String) (i : Nat) (hf : f.ids = [k])
    (hl : f.limit = "") (h32 : k.length = 32) (hk : s.q.find k = some i) :
    status atoi order all s f = (200, [toJob s k i]) := by
  have hb : byKey s k = [toJob s k i] := by unfold byKey; rw [hk]
  unfold status
  rw [if_neg (fun h => h hl)]
  simp only [hf, List.cons_ne_nil, if_false, List.flatMap_cons, List.flatMap_nil, List.append_nil]
  unfold ofId
  rw [if_pos ⟨h32, by rw [hb]; simp⟩, hb]

/-- C97: without ids and limit, all jobs in the queue that are in the state asked for, and no others, are in the answer. -/
theorem C97_get_all_partial (atoi : String → Option Int) (order : Groups → Groups)
    (all : List (String × Nat) → List (String × Nat)) (hall : ∀ l, (all l).Perm l) (s : S) (h : List (Int × Op))
    (hs : Along Safe new h) (hr : runFrom new h = some s.q) (f : Form) (hf : f.ids = []) (hl : f.limit = "")
    (hw : f.state ∈ words) (hw' : f.state ≠ "deletable") :
    ∃ jobs, status atoi order all s f = (200, jobs) ∧ (jobs.map (·.key)).Nodup ∧ ∀ k, (∃ j ∈ jobs, j.key = k) ↔
      ∃ i : Nat, s.q.find k = some i ∧
        ((f.state = "delayed" ∧ (s.q.store i).state = .delay) ∨ (f.state = "ready" ∧ (s.q.store i).state = .ready) ∨
        ((f.state = "reserved" ∨ f.state = "running") ∧ (s.q.store i).state = .run ∧ (s.attr k).lost = false) ∨
        (f.state = "lost" ∧ (s.q.store i).state = .run ∧ (s.attr k).lost = true) ∨
        (f.state = "buried" ∧ (s.q.store i).state = .bury) ∨ (f.state = "dependent" ∧ (s.q.store i).state = .dependent)) := by
  have hi := (run_inv h inv_new timed_new hs hr).1
  have hmem : ∀ k i, (k, i) ∈ all s.q.items ↔ s.q.find k = some i := by
    intro k i
    rw [(hall s.q.items).mem_iff]
    exact ⟨fun h => mem_mget _ _ _ hi.keys h, fun h => mget_mem _ _ _ h⟩
  have hnr : ∀ k i, s.q.find k = some i → (s.q.store i).state ≠ .removed := by
    intro k i hf
    exact hi.notRemoved i (hi.live hf) (by simp)
  have hst : ∃ st, parseState f.state = some st ∧ st ≠ .deletable := by
    simp only [words, List.mem_cons, List.not_mem_nil, or_false] at hw
    rcases hw with h | h | h | h | h | h | h | h | h
    all_goals first
      | exact absurd h hw'
      | exact ⟨_, by rw [h]; rfl, by decide⟩
  obtain ⟨st, hst, hnd⟩ := hst
  refine ⟨_, by unfold status; rw [if_neg (fun h => h hl)]; simp only [hf, if_true, hst]; rfl, ?_, ?_⟩
  · unfold current
    rw [limit_none]
    refine List.Nodup.sublist (List.Sublist.map _ List.filter_sublist) ?_
    rw [List.map_map]
    show ((all s.q.items).map (·.1)).Nodup
    exact ((hall s.q.items).map _).nodup_iff.2 hi.keys
  · intro k
    unfold current
    rw [limit_none]
    constructor
    · rintro ⟨j, hj, rfl⟩
      obtain ⟨h1, h2⟩ := List.mem_filter.1 hj
      obtain ⟨⟨k, i⟩, h3, rfl⟩ := List.mem_map.1 h1
      refine ⟨i, (hmem k i).1 h3, ?_⟩
      have := hnr k i ((hmem k i).1 h3)
      rw [← hst] at h2
      exact (match_word s k i f.state hw hw' this).1 h2
    · rintro ⟨i, hf, h⟩
      refine ⟨toJob s k i, List.mem_filter.2 ⟨List.mem_map.2 ⟨(k, i), (hmem k i).2 hf, rfl⟩, ?_⟩, rfl⟩
      rw [← hst]
      exact (match_word s k i f.state hw hw' (hnr k i hf)).2 h

/-- C97: a complete job is found by its key. -/
theorem C97_get_done (atoi : String → Option Int) (order : Groups → Groups)
    (all : List (String × Nat) → List (String × Nat)) (s : S) (f : Form) (d : Done) (hf : f.ids = [d.key])
    (hl : f.limit = "") (h32 : d.key.length = 32) (hk : s.q.find d.key = none) (hd : d ∈ s.done) :
    status atoi order all s f = (200, [{ key := d.key, state := .complete }]) := by
  have hb : byKey s d.key = [{ key := d.key, state := .complete }] := by
    unfold byKey
    rw [hk]
    cases hfd : s.done.find? (fun x => x.key = d.key) with
    | none => exact absurd (List.find?_eq_none.1 hfd d hd) (by simp)
    | some x =>
      have := List.find?_some hfd
      simp only [decide_eq_true_eq] at this
      simp [doneJob, this]
  unfold status
  rw [if_neg (fun h => h hl)]
  simp only [hf, List.cons_ne_nil, if_false, List.flatMap_cons, List.flatMap_nil, List.append_nil]
  unfold ofId
  rw [if_pos ⟨h32, by rw [hb]; simp⟩, hb]

/-- C97: if none of the jobs chosen is with a runner, exactly those that can be deleted without leaving a dependent behind
are deleted, and exactly these are in the answer; all others stay as they are. -/
theorem C97_delete_partial (atoi : String → Option Int) (order : Groups → Groups)
    (all : List (String × Nat) → List (String × Nat)) (s : S) (h : List (Int × Op)) (hs : Along Safe new h)
    (hk : Along KeepsDeps new h) (hr : runFrom new h = some s.q) (hc : s.q.closed = false) (f : Form)
    (hw : f.state = "deletable") (jobs : List Job) (hj : status atoi order all s f = (200, jobs))
    (hn : ∀ j ∈ jobs, InState s j.key "deletable") :
    ∃ o, cancel atoi order all s f = some o ∧ o.code = 200 ∧
      (∀ k, (∃ j ∈ o.jobs, j.key = k) ↔ Delete.Deletable s.q (jobs.map (·.key)) k) ∧
      (∀ k, Delete.Deletable s.q (jobs.map (·.key)) k → o.s.q.find k = none) ∧
      (∀ k, ¬ Delete.Deletable s.q (jobs.map (·.key)) k → o.s.q.find k = s.q.find k) ∧
      (∀ k i, o.s.q.find k = some i → o.s.q.store i = s.q.store i) := by
  obtain ⟨q', deleted, h1, h2, h3, h4⟩ := Delete.C30_partial h s.q hs hk hr hc (jobs.map (·.key))
  have hsel : Delete.select s.q (jobs.map (·.key)) = jobs.map (·.key) := by
    unfold Delete.select
    apply List.filter_eq_self.2
    intro k hk
    obtain ⟨j, hj, rfl⟩ := List.mem_map.1 hk
    rcases hn j hj with ⟨h, _⟩ | ⟨h, _⟩ | ⟨_, ⟨i, hi⟩, hnr⟩
    · exact absurd h (by decide)
    · exact absurd h (by decide)
    · rw [hi]
      simp only [decide_eq_true_eq]
      exact fun e => hnr ⟨i, hi, e⟩
  unfold Delete.jdel at h1
  rw [hsel] at h1
  refine ⟨_, by unfold cancel; rw [if_neg (by simp [hw]), hj]; simp only [hw, if_true]; rw [h1]; rfl, rfl, ?_, ?_, ?_, h4⟩
  · intro k
    rw [← h2]
    constructor
    · rintro ⟨j, hj', rfl⟩
      obtain ⟨x, hx, rfl⟩ := List.mem_map.1 hj'
      simpa using (List.mem_filter.1 hx).2
    · intro hk'
      obtain ⟨hk1, _⟩ : k ∈ jobs.map (·.key) ∧ True := by
        have := (h2 k).1 hk'
        cases this with
        | mk a _ _ _ => exact ⟨a, trivial⟩
      obtain ⟨j, hj', rfl⟩ := List.mem_map.1 hk1
      exact ⟨{ j with state := .deleted }, List.mem_map.2 ⟨j, List.mem_filter.2 ⟨hj', by simpa using hk'⟩, rfl⟩, rfl⟩
  · intro k hk'
    simp only
    rw [h3, if_pos ((h2 k).2 hk')]
  · intro k hk'
    simp only
    rw [h3, if_neg (fun h => hk' ((h2 k).1 h))]

/-- C97: jobs are posted all or none; those in the answer are those posted that are in the queue afterwards. -/
theorem C97_post {α β : Type} (convert : α → Option (String × β)) (create : S → List (String × β) → Option S) (s : S)
    (l : List α) :
    ((∃ a ∈ l, convert a = none) → post convert create s l = { code := 400, s }) ∧
    (∀ js, l.map convert = js.map some → ∀ s', create s js = some s' →
      (post convert create s l).code = 201 ∧ (post convert create s l).s = s' ∧
      ∀ k, (∃ j ∈ (post convert create s l).jobs, j.key = k) ↔ (∃ b, (k, b) ∈ js) ∧ Queued s' k) := by
  have hm : ∀ (l : List α), (∃ a ∈ l, convert a = none) → l.mapM convert = none := by
    intro l
    induction l with
    | nil => rintro ⟨a, h, _⟩; simp at h
    | cons x l ih =>
      rintro ⟨a, h, e⟩
      rw [List.mapM_cons]
      rcases List.mem_cons.1 h with rfl | h
      · rw [e]; rfl
      · cases convert x with
        | none => rfl
        | some y =>
          have := ih ⟨a, h, e⟩
          simp [this]
  have hms : ∀ (l : List α) (js : List (String × β)), l.map convert = js.map some → l.mapM convert = some js := by
    intro l
    induction l with
    | nil => intro js h; cases js with
      | nil => rfl
      | cons j js => simp at h
    | cons x l ih =>
      intro js h
      cases js with
      | nil => simp at h
      | cons j js =>
        simp only [List.map_cons, List.cons.injEq] at h
        rw [List.mapM_cons, h.1, Option.bind_eq_bind, Option.bind_some, ih js h.2]
        rfl
  constructor
  · intro h
    unfold post
    rw [hm l h]
  · intro js hjs s' hs'
    have : post convert create s l = { code := 201, jobs := js.filterMap fun j => (s'.q.find j.1).map (toJob s' j.1), s := s' } := by
      unfold post
      rw [hms l js hjs]
      simp only [hs']
    rw [this]
    refine ⟨rfl, rfl, ?_⟩
    intro k
    constructor
    · rintro ⟨j, hj, rfl⟩
      obtain ⟨⟨k, b⟩, h1, h2⟩ := List.mem_filterMap.1 hj
      cases hf : s'.q.find k with
      | none => rw [hf] at h2; cases h2
      | some i =>
        rw [hf] at h2
        simp only [Option.map_some, Option.some.injEq] at h2
        subst h2
        exact ⟨⟨b, h1⟩, i, hf⟩
    · rintro ⟨⟨b, hb⟩, i, hf⟩
      exact ⟨toJob s' k i, List.mem_filterMap.2 ⟨(k, b), hb, by simp only [hf]; rfl⟩, rfl⟩

/-- C97: the status page removes and retries only jobs in the right state: of a group, exactly those with the exit code and
the fail reason of the row the user clicked on. -/
theorem C97_web (s : S) (r : Req) (hg : r.repGroup ≠ "") (k : String) (allowed : List Queue.State) :
    k ∈ reqToJobs s r allowed ↔ k ∈ s.rpl r.repGroup ∧ (∃ i : Nat, s.q.find k = some i ∧ (s.q.store i).state ∈ allowed) ∧
      (s.attr k).exitcode = r.exitcode ∧ (s.attr k).failReason = r.failReason := by
  unfold reqToJobs
  rw [if_pos hg, List.mem_filter]
  cases hf : s.q.find k with
  | none => simp
  | some i => simp

/-- C97: and with a key, only the job that has it. -/
theorem C97_web_key (s : S) (r : Req) (hg : r.repGroup = "") (k : String) (allowed : List Queue.State)
    (hk : k ∈ reqToJobs s r allowed) : k = r.key ∧ ∃ i : Nat, s.q.find k = some i ∧ (s.q.store i).state ∈ allowed := by
  unfold reqToJobs at hk
  rw [if_neg (by simp [hg])] at hk
  split at hk
  · cases hf : s.q.find r.key with
    | none => rw [hf] at hk; simp at hk
    | some i =>
      rw [hf] at hk
      simp only at hk
      split at hk
      · rename_i ha
        rw [List.mem_singleton] at hk
        subst hk
        exact ⟨rfl, i, hf, ha⟩
      · simp at hk
  · simp at hk

/-- C97: whatever the page asks for, a job with a runner is not removed and not retried, and one without is not killed. -/
theorem C97_web_states (s : S) (r : Req) (k : String) :
    (k ∈ reqToJobs s r [.bury, .delay, .dependent, .ready] → Queued s k ∧ ¬ Runs s k) ∧
    (k ∈ webRetry s r → ∃ i : Nat, s.q.find k = some i ∧ (s.q.store i).state = .bury) ∧
    (k ∈ reqToJobs s r [.run] → Runs s k) := by
  have h : ∀ allowed, k ∈ reqToJobs s r allowed → ∃ i : Nat, s.q.find k = some i ∧ (s.q.store i).state ∈ allowed := by
    intro allowed hk
    by_cases hg : r.repGroup = ""
    · exact (C97_web_key s r hg k allowed hk).2
    · exact ((C97_web s r hg k allowed).1 hk).2.1
  refine ⟨?_, ?_, ?_⟩
  · intro hk
    obtain ⟨i, hf, hs⟩ := h _ hk
    refine ⟨⟨i, hf⟩, ?_⟩
    rintro ⟨j, hj, hr⟩
    rw [hf] at hj
    cases hj
    rw [hr] at hs
    simp at hs
  · intro hk
    obtain ⟨i, hf, hs⟩ := h _ hk
    exact ⟨i, hf, by simpa using hs⟩
  · intro hk
    obtain ⟨i, hf, hs⟩ := h _ hk
    exact ⟨i, hf, by simpa using hs⟩

/-- C97: the page kills the jobs it is asked to. -/
theorem C97_web_kill (s : S) (hdead : s.dead = []) (r : Req) (k : String) :
    k ∈ (webKill s r).killed ↔ k ∈ s.killed ∨ k ∈ reqToJobs s r [.run] := by
  have hall : ∀ (l : List String) (t : S), Same s t → (∀ x ∈ l, Runs s x) → (∀ x ∈ t.dead, x ∈ t.killed) →
      ∀ x, x ∈ (l.foldl (fun s k => match killJob s k with | none => s | some (_, s') => s') t).killed ↔
        x ∈ t.killed ∨ x ∈ l := by
    intro l
    induction l with
    | nil => intro t _ _ _ x; simp
    | cons y l ih =>
      intro t ht hl hd x
      have hry := hl y (by simp)
      have hq : Queued t y := by
        obtain ⟨i, hi, _⟩ := hry
        exact ⟨i, by rw [ht.q]; exact hi⟩
      obtain ⟨b, u, e, hs, _, hk, hdd⟩ := killJob_some hq
      have hrt : Runs t y := (same_runs ht y).2 hry
      rw [List.foldl_cons, e]
      simp only
      rw [ih u (ht.trans hs) (fun z hz => hl z (by simp [hz])) ?_ x, hk]
      · constructor
        · rintro ((h | ⟨h, _⟩) | h)
          · exact .inl h
          · exact .inr (by simp [h])
          · exact .inr (by simp [h])
        · rintro (h | h)
          · exact .inl (.inl h)
          · rcases List.mem_cons.1 h with rfl | h
            · by_cases hxd : x ∈ t.dead
              · exact .inl (.inl (hd x hxd))
              · exact .inl (.inr ⟨rfl, hrt, hxd⟩)
            · exact .inr h
      · intro z hz
        rw [hk]
        rcases (hdd z).1 hz with h | ⟨h1, h2, h3, _⟩
        · exact .inl (hd z h)
        · exact .inr ⟨h1, h2, h3⟩
  unfold webKill
  exact hall _ s ⟨rfl, rfl, rfl, rfl, rfl⟩ (fun x hx => (C97_web_states s r x).2.2 hx) (by rw [hdead]; simp) k

/-- C97: "remove" for a row of a group deletes exactly the jobs of this row that are not with a runner and can be deleted
without leaving a dependent behind. -/
theorem C97_web_remove (s : S) (h : List (Int × Op)) (hs : Along Safe new h) (hk : Along KeepsDeps new h)
    (hr : runFrom new h = some s.q) (hc : s.q.closed = false) (r : Req) (hg : r.repGroup ≠ "") :
    ∃ q' deleted, webRemove s r = some (q', deleted) ∧
      (∀ k, k ∈ deleted ↔ Delete.Deletable s.q
        ((s.rpl r.repGroup).filter fun k => (s.attr k).exitcode = r.exitcode ∧ (s.attr k).failReason = r.failReason) k) ∧
      (∀ k, q'.find k = if k ∈ deleted then none else s.q.find k) := by
  have hi := (run_inv h inv_new timed_new hs hr).1
  obtain ⟨q', deleted, h1, h2, h3, _⟩ := Delete.C30_partial h s.q hs hk hr hc
    ((s.rpl r.repGroup).filter fun k => (s.attr k).exitcode = r.exitcode ∧ (s.attr k).failReason = r.failReason)
  refine ⟨q', deleted, ?_, h2, h3⟩
  rw [← h1]
  unfold webRemove Delete.jdel Delete.select reqToJobs
  rw [if_pos hg, List.filter_filter]
  congr 2
  funext k
  cases hf : s.q.find k with
  | none => simp
  | some i =>
    have hnr := hi.notRemoved i (hi.live hf) (by simp)
    cases hst : (s.q.store i).state <;> simp [hst] at hnr ⊢

/-! ## Violations -/

private theorem ex {α : Type} {e : Option α} {p : α → Bool} (h : e.any p = true) : ∃ a, e = some a ∧ p a = true := by
  cases e with
  | none => cases h
  | some a => exact ⟨a, rfl, h⟩

/-- a key with its 32 characters -/
def k1 : String := "0123456789abcdef0123456789abcdef"
/-- another -/
def k2 : String := "0123456789abcdef0123456789abcdee"

/-- C97 is violated: a request to delete what can be deleted in a group deletes a job while a runner works on it. -/
theorem C97_violated_delete : ∃ q o, runFrom new [(0, .add { key := k1 }), (1, .reserve "")] = some q ∧
    Runs { q } k1 ∧ ¬ InState { q } k1 "deletable" ∧
    cancel (fun _ => none) id id { q, rpl := fun g => if g = "g" then [k1] else [] } { ids := ["g"], state := "deletable" } = some o ∧
    o.code = 200 ∧ o.s.q.find k1 = none := by
  obtain ⟨q, e, h⟩ := ex (e := runFrom new [(0, .add { key := k1 }), (1, .reserve "")]) (p := fun q =>
    q.find k1 = some 0 ∧ (q.store 0).state = .run ∧
    (cancel (fun _ => none) id id { q, rpl := fun g => if g = "g" then [k1] else [] } { ids := ["g"], state := "deletable" }).any
      (fun o => o.code = 200 ∧ o.s.q.find k1 = none) = true) (by decide +kernel)
  simp only [Bool.decide_and, Bool.and_eq_true, decide_eq_true_eq] at h
  obtain ⟨h1, h2, h3⟩ := h
  obtain ⟨o, e2, h4⟩ := ex h3
  simp only [Bool.and_eq_true, decide_eq_true_eq] at h4
  refine ⟨q, o, e, ⟨0, h1, h2⟩, ?_, e2, h4.1, h4.2⟩
  rintro (⟨h, _⟩ | ⟨h, _⟩ | ⟨_, _, h⟩)
  · exact absurd h (by decide)
  · exact absurd h (by decide)
  · exact h ⟨0, h1, h2⟩

/-- C97 is violated: a request to cancel a job if it is lost kills it although it is not. -/
theorem C97_violated_state : ∃ q o, runFrom new [(0, .add { key := k1 }), (1, .reserve "")] = some q ∧
    ¬ InState { q } k1 "lost" ∧ cancel (fun _ => none) id id { q } { ids := [k1], state := "lost" } = some o ∧
    o.s.killed = [k1] := by
  obtain ⟨q, e, h⟩ := ex (e := runFrom new [(0, .add { key := k1 }), (1, .reserve "")]) (p := fun q =>
    (cancel (fun _ => none) id id { q } { ids := [k1], state := "lost" }).any (fun o => o.s.killed = [k1])) (by decide +kernel)
  obtain ⟨o, e2, h4⟩ := ex h
  refine ⟨q, o, e, ?_, e2, by simpa using h4⟩
  rintro (⟨h, _⟩ | ⟨_, _, h⟩ | ⟨h, _⟩)
  · exact absurd h (by decide)
  · cases h
  · exact absurd h (by decide)

/-- C97 is violated: a running job is not killed if the request also names a complete one. -/
theorem C97_violated_stop : ∃ q o, runFrom new [(0, .add { key := k1 }), (1, .reserve "")] = some q ∧
    InState { q } k1 "running" ∧
    cancel (fun _ => none) id id { q, done := [{ key := k2 }] } { ids := [k2, k1], state := "running" } = some o ∧
    o.code = 500 ∧ o.s.killed = [] := by
  obtain ⟨q, e, h⟩ := ex (e := runFrom new [(0, .add { key := k1 }), (1, .reserve "")]) (p := fun q =>
    q.find k1 = some 0 ∧ (q.store 0).state = .run ∧
    (cancel (fun _ => none) id id { q, done := [{ key := k2 }] } { ids := [k2, k1], state := "running" }).any
      (fun o => o.code = 500 ∧ o.s.killed = [])) (by decide +kernel)
  simp only [Bool.decide_and, Bool.and_eq_true, decide_eq_true_eq] at h
  obtain ⟨h1, h2, h3⟩ := h
  obtain ⟨o, e2, h4⟩ := ex h3
  simp only [Bool.and_eq_true, decide_eq_true_eq] at h4
  exact ⟨q, o, e, .inl ⟨rfl, ⟨0, h1, h2⟩, rfl⟩, e2, h4.1, h4.2⟩

/-- C97 is violated: a word that names no state is taken as if no state was asked for, and a state is ignored when a job is
asked for by its key. -/
theorem C97_violated_word : ∃ q, runFrom new [(0, .add { key := k1 })] = some q ∧
    (status (fun _ => none) id id { q } { state := "complet" }).2.map (·.key) = [k1] ∧
    (status (fun _ => none) id id { q } { ids := [k1], state := "complete" }).2.map (·.state) = [.ready] := by
  obtain ⟨q, e, h⟩ := ex (e := runFrom new [(0, .add { key := k1 })]) (p := fun q =>
    (status (fun _ => none) id id { q } { state := "complet" }).2.map (·.key) = [k1] ∧
    (status (fun _ => none) id id { q } { ids := [k1], state := "complete" }).2.map (·.state) = [.ready]) (by decide +kernel)
  simp only [Bool.decide_and, Bool.and_eq_true, decide_eq_true_eq] at h
  exact ⟨q, e, h⟩

/-! ## The hypotheses are met -/

/-- two running jobs of a group, one of them lost -/
example : ∃ q, runFrom new [(0, .add { key := k1 }), (0, .add { key := k2 }), (1, .reserve ""), (1, .reserve "")] = some q ∧
    ∃ s : S, s.q = q ∧ s.dead = [] ∧ InState s k1 "running" ∧ InState s k2 "lost" ∧ k1 ∈ s.rpl "g" ∧
      ¬ ("g".length = 32 ∧ byKey s "g" ≠ []) := by
  obtain ⟨q, e, h⟩ := ex (e := runFrom new [(0, .add { key := k1 }), (0, .add { key := k2 }), (1, .reserve ""), (1, .reserve "")])
    (p := fun q => q.find k1 = some 0 ∧ (q.store 0).state = .run ∧ q.find k2 = some 1 ∧ (q.store 1).state = .run) (by decide +kernel)
  simp only [Bool.decide_and, Bool.and_eq_true, decide_eq_true_eq] at h
  refine ⟨q, e, { q, attr := fun k => { lost := k = k2 }, rpl := fun g => if g = "g" then [k1, k2] else [] }, rfl, rfl, ?_, ?_, ?_, ?_⟩
  · exact .inl ⟨rfl, ⟨0, h.1, h.2.1⟩, by show decide (k1 = k2) = false; decide⟩
  · exact .inr (.inl ⟨rfl, ⟨1, h.2.2.1, h.2.2.2⟩, by show decide (k2 = k2) = true; decide⟩)
  · simp
  · intro h; exact absurd h.1 (by decide)

/-- a ready job, which can be deleted -/
example : ∃ q, runFrom new [(0, .add { key := k1 })] = some q ∧ q.closed = false ∧ InState { q } k1 "deletable" ∧
    Along Safe new [(0, .add { key := k1 })] ∧ Along KeepsDeps new [(0, .add { key := k1 })] := by
  obtain ⟨q, e, h⟩ := ex (e := runFrom new [(0, .add { key := k1 })])
    (p := fun q => q.find k1 = some 0 ∧ (q.store 0).state = .ready ∧ q.closed = false) (by decide +kernel)
  simp only [Bool.decide_and, Bool.and_eq_true, decide_eq_true_eq] at h
  refine ⟨q, e, h.2.2, .inr (.inr ⟨rfl, ⟨0, h.1⟩, ?_⟩), ⟨trivial, fun _ _ => trivial⟩, ⟨trivial, fun _ _ => trivial⟩⟩
  rintro ⟨i, hi, hr⟩
  change q.find k1 = some i at hi
  change (q.store i).state = .run at hr
  rw [h.1] at hi
  cases hi
  rw [h.2.1] at hr
  cases hr

end Verif.Server.Rest
