import Verif.Server.Listing
/-!
# C31: filtering and limiting of job listings is exact
-/
namespace Verif.Server.Listing

/-- specification: the job is in the state asked for. Reserved and running count as the same state
(server.go:2612-2613), lost jobs are running jobs marked as lost, and deletable means neither running nor complete
(serverREST.go:641). -/
def HasState (j : Job) : Option JobState → Prop
  | none => True
  | some .running | some .reserved => j.state = .reserved ∨ j.state = .running ∧ j.lost = false
  | some .lost => j.state = .lost ∨ j.state = .running ∧ j.lost = true
  | some .deletable => j.state ≠ .running ∧ j.state ≠ .complete
  | some f => j.state = f

/-- specification: the job is one that is asked for -/
def Wanted (o : Opts) (j : Job) : Prop :=
  HasState j o.state ∧ (o.failReason = "" ∨ j.failReason = o.failReason ∧ j.exitcode = o.exitCode)

/-- specification: two jobs are of the same group: they have the same state, exit code and fail reason -/
def SameGroup (a b : Job) : Prop :=
  normalizeJobState a.state a.lost = normalizeJobState b.state b.lost ∧ a.exitcode = b.exitcode ∧ a.failReason = b.failReason

instance (a b : Job) : Decidable (SameGroup a b) := by unfold SameGroup; infer_instance

/-- specification: the last job has its `Similar` raised by `n` -/
def mark (n : Nat) : List Job → List Job
  | [] => []
  | [j] => [{ j with similar := j.similar + n }]
  | j :: k :: js => j :: mark n (k :: js)

private theorem wanted_iff (o : Opts) (hd : o.state ≠ some .deletable) (j : Job) :
    jobMatchesFilters (normalizeOptions o) j = true ↔ Wanted o j := by
  unfold jobMatchesFilters Wanted
  rw [Bool.and_eq_true]
  have h2 : matchesFailureFilter j.failReason j.exitcode (normalizeOptions o).failReason (normalizeOptions o).exitCode = true ↔
      (o.failReason = "" ∨ j.failReason = o.failReason ∧ j.exitcode = o.exitCode) := by
    unfold matchesFailureFilter normalizeOptions
    simp only
    by_cases h : o.failReason = "" <;> simp [h]
  have h1 : matchesStateFilter (normalizeJobState j.state j.lost) (normalizeOptions o).state = true ↔ HasState j o.state := by
    unfold normalizeOptions
    simp only
    cases hs : o.state with
    | none => simp [matchesStateFilter, HasState]
    | some f =>
      rw [hs] at hd
      cases f <;> cases hj : j.state <;> cases hl : j.lost <;>
        simp [matchesStateFilter, HasState, normalizeJobState, hj, hl] at hd ⊢
  rw [h1, h2]

private theorem dot_inj (a b x y : List Char) (ha : '.' ∉ a) (hb : '.' ∉ b) (e : a ++ '.' :: x = b ++ '.' :: y) :
    a = b ∧ x = y := by
  induction a generalizing b with
  | nil =>
    cases b with
    | nil => simpa using e
    | cons c b => simp at e; exact absurd e.1.symm (fun h => hb (by simp [h]))
  | cons c a ih =>
    cases b with
    | nil => simp at e; exact absurd e.1 (fun h => ha (by simp [h]))
    | cons c' b =>
      simp only [List.cons_append, List.cons.injEq] at e
      simp only [List.mem_cons, not_or] at ha hb
      obtain ⟨h1, h2⟩ := ih b ha.2 hb.2 e.2
      exact ⟨by rw [e.1, h1], h2⟩

private theorem nat_no_dot (n : Nat) : '.' ∉ (Nat.repr n).toList := by
  intro h
  have : (Nat.repr n).toList = Nat.toDigits 10 n := by simp [Nat.repr]
  rw [this] at h
  have := Nat.isDigit_of_mem_toDigits (by decide) (by decide) h
  exact absurd this (by decide)

private theorem int_no_dot (n : Int) : '.' ∉ (Int.repr n).toList := by
  cases n with
  | ofNat m => exact nat_no_dot m
  | negSucc m =>
    show '.' ∉ ("-" ++ Nat.repr (m + 1)).toList
    simp only [String.toList_append, List.mem_append, not_or]
    exact ⟨by decide, nat_no_dot _⟩

/-- The name of a group determines the group. -/
theorem groupName_inj (a b : Job) : groupName a = groupName b ↔ SameGroup a b := by
  unfold groupName SameGroup
  constructor
  · intro h
    have h := congrArg String.toList h
    simp only [String.toList_append, List.append_assoc] at h
    have hd : ".".toList = ['.'] := rfl
    rw [hd] at h
    simp only [List.singleton_append] at h
    have hs : ∀ s : JobState, '.' ∉ s.str.toList := by intro s; cases s <;> decide
    obtain ⟨h1, h2⟩ := dot_inj _ _ _ _ (hs _) (hs _) h
    obtain ⟨h3, h4⟩ := dot_inj _ _ _ _ (int_no_dot _) (int_no_dot _) h2
    refine ⟨?_, Int.repr_injective (String.toList_inj.1 h3), String.toList_inj.1 h4⟩
    have h1 := String.toList_inj.1 h1
    revert h1
    cases normalizeJobState a.state a.lost <;> cases normalizeJobState b.state b.lost <;> decide
  · rintro ⟨h1, h2, h3⟩; rw [h1, h2, h3]

private theorem mark_zero : ∀ js, mark 0 js = js
  | [] => rfl
  | [j] => rfl
  | j :: k :: js => by rw [mark, mark_zero (k :: js)]

private theorem mark_snoc (n : Nat) (js : List Job) (j : Job) : mark n (js ++ [j]) = js ++ [{ j with similar := j.similar + n }] := by
  induction js with
  | nil => rfl
  | cons a js ih =>
    cases hjs : js ++ [j] with
    | nil => simp at hjs
    | cons b l =>
      rw [hjs] at ih
      rw [List.cons_append, hjs, mark, ih]; rfl

private theorem bump_mark (n : Nat) (js : List Job) :
    (mark n js).dropLast ++ ((mark n js).getLast?.map fun l => { l with similar := l.similar + 1 }).toList = mark (n + 1) js := by
  rcases List.eq_nil_or_concat js with rfl | ⟨l, a, rfl⟩
  · rfl
  · rw [List.concat_eq_append, mark_snoc, mark_snoc]; simp; omega

private theorem mark_length (n : Nat) : ∀ js, (mark n js).length = js.length
  | [] => rfl
  | [j] => rfl
  | j :: k :: js => by rw [mark, List.length_cons, mark_length n (k :: js)]; rfl

private theorem mark_drop (n k : Nat) (js : List Job) : (mark n js).drop k = mark n (js.drop k) := by
  rcases List.eq_nil_or_concat js with rfl | ⟨l, a, rfl⟩
  · simp [mark]
  · rw [List.concat_eq_append, mark_snoc]
    by_cases h : k ≤ l.length
    · rw [List.drop_append_of_le_length h, List.drop_append_of_le_length h, mark_snoc]
    · rw [List.drop_eq_nil_of_le (by simp; omega), List.drop_eq_nil_of_le (by simp; omega)]; rfl

private theorem mark_name (n : Nat) : ∀ (js : List Job) (g : String), (∀ j ∈ js, groupName j = g) → ∀ j ∈ mark n js, groupName j = g
  | [], _, _ => by simp [mark]
  | [a], g, h => by
    intro j hj
    simp only [mark, List.mem_singleton] at hj
    subst hj
    exact h a (by simp)
  | a :: b :: js, g, h => by
    intro j hj
    rw [mark, List.mem_cons] at hj
    rcases hj with rfl | hj
    · exact h j (by simp)
    · exact mark_name n (b :: js) g (fun x hx => h x (List.mem_cons_of_mem _ hx)) j hj

/-- the jobs of a group in what is kept of `l` -/
private def kept (N : Nat) (l : List Job) : List Job := mark (l.length - N) (l.take N)

private theorem kept_snoc_full {N : Nat} (l : List Job) (j : Job) (h : N ≤ l.length) :
    kept N (l ++ [j]) = (kept N l).dropLast ++ ((kept N l).getLast?.map fun l => { l with similar := l.similar + 1 }).toList := by
  unfold kept
  rw [bump_mark, List.take_append_of_le_length h]
  congr 1
  simp; omega

private theorem kept_snoc_room {N : Nat} (l : List Job) (j : Job) (h : l.length < N) : kept N (l ++ [j]) = kept N l ++ [j] := by
  unfold kept
  rw [show (l ++ [j]).length - N = 0 by simp; omega, show l.length - N = 0 by omega, mark_zero, mark_zero,
    List.take_of_length_le (by simp; omega), List.take_of_length_le (by omega)]

private structure GInv (N : Nat) (m : Groups) (l : List Job) : Prop where
  nodup : (m.map (·.1)).Nodup
  mem : ∀ g js, (g, js) ∈ m → js = kept N (l.filter fun j => groupName j = g) ∧ l.filter (fun j => groupName j = g) ≠ []
  cover : ∀ j ∈ l, groupName j ∈ m.map (·.1)

private theorem add_keys (o : Opts) (j : Job) (g : String) (m : Groups) :
    (addJobToGroup o j g m).map (·.1) = if g ∈ m.map (·.1) then m.map (·.1) else m.map (·.1) ++ [g] := by
  induction m with
  | nil => simp [addJobToGroup]
  | cons p m ih =>
    obtain ⟨g', js⟩ := p
    simp only [addJobToGroup]
    split
    · rename_i h; subst h
      simp only [List.map_cons, List.mem_cons, true_or, if_true]
      split <;> rfl
    · rename_i h
      simp only [List.map_cons, ih, List.mem_cons, Ne.symm h, false_or]
      split <;> simp

private theorem add_mem (o : Opts) (j : Job) (g : String) (m : Groups) (hn : (m.map (·.1)).Nodup) (g' : String) (js : List Job)
    (h : (g', js) ∈ addJobToGroup o j g m) : (g' ≠ g ∧ (g', js) ∈ m) ∨ (g' = g ∧ g ∉ m.map (·.1) ∧ js = [j]) ∨
      (g' = g ∧ ∃ old, (g, old) ∈ m ∧ js = if (old.length : Int) = o.offset + o.limit then
        old.dropLast ++ (old.getLast?.map fun l => { l with similar := l.similar + 1 }).toList else old ++ [j]) := by
  induction m with
  | nil => simp [addJobToGroup] at h; exact Or.inr (Or.inl ⟨h.1, by simp, h.2⟩)
  | cons p m ih =>
    obtain ⟨g0, js0⟩ := p
    simp only [List.map_cons, List.nodup_cons] at hn
    simp only [addJobToGroup] at h
    split at h
    · rename_i hg; subst hg
      rcases List.mem_cons.1 h with h | h
      · refine Or.inr (Or.inr ?_)
        split at h <;> (rename_i hl; simp only [Prod.mk.injEq] at h; exact ⟨h.1, js0, by simp, by simp [hl, h.2]⟩)
      · refine Or.inl ⟨?_, List.mem_cons_of_mem _ h⟩
        intro e
        exact hn.1 (List.mem_map.2 ⟨(g', js), h, e⟩)
    · rename_i hg
      rcases List.mem_cons.1 h with h | h
      · simp only [Prod.mk.injEq] at h
        refine Or.inl ⟨by rw [h.1]; exact hg, by rw [h.1, h.2]; simp⟩
      · rcases ih hn.2 h with ⟨a, b⟩ | ⟨a, b, c⟩ | ⟨a, old, b, c⟩
        · exact Or.inl ⟨a, List.mem_cons_of_mem _ b⟩
        · exact Or.inr (Or.inl ⟨a, by simp [Ne.symm hg]; simpa using b, c⟩)
        · exact Or.inr (Or.inr ⟨a, old, List.mem_cons_of_mem _ b, c⟩)

private theorem kept_length (N : Nat) (l : List Job) : (kept N l).length = min N l.length := by
  unfold kept; rw [mark_length, List.length_take]

private theorem ginv_add {N : Nat} (hN : 0 < N) {o : Opts} (ho : o.offset + o.limit = (N : Int)) {m : Groups} {l : List Job} (h : GInv N m l)
    (j : Job) : GInv N (addJobToGroup o j (groupName j) m) (l ++ [j]) := by
  have hfil : ∀ g, (l ++ [j]).filter (fun x => groupName x = g) =
      if groupName j = g then l.filter (fun x => groupName x = g) ++ [j] else l.filter (fun x => groupName x = g) := by
    intro g; rw [List.filter_append]; by_cases hg : groupName j = g <;> simp [hg]
  refine ⟨?_, ?_, ?_⟩
  · rw [add_keys]; split
    · exact h.nodup
    · rename_i hn
      rw [List.nodup_append]
      refine ⟨h.nodup, by simp, ?_⟩
      intro a ha b hb e
      simp at hb; subst hb; subst e; exact hn ha
  · intro g js hm
    rcases add_mem o j _ m h.nodup g js hm with ⟨a, b⟩ | ⟨rfl, b, rfl⟩ | ⟨rfl, old, b, c⟩
    · rw [hfil, if_neg (Ne.symm a)]; exact h.mem g js b
    · have : l.filter (fun x => groupName x = groupName j) = [] := by
        rw [List.filter_eq_nil_iff]
        intro x hx he
        exact b (by have := h.cover x hx; rw [of_decide_eq_true he] at this; exact this)
      rw [hfil, if_pos rfl, this]
      refine ⟨?_, by simp⟩
      unfold kept
      rw [List.nil_append, List.take_of_length_le (by simp; omega), show [j].length - N = 0 by simp; omega, mark_zero]
    · obtain ⟨d, e⟩ := h.mem _ _ b
      rw [hfil, if_pos rfl]
      refine ⟨?_, by simp⟩
      have hlen : old.length = min N (l.filter (fun x => groupName x = groupName j)).length := by rw [d, kept_length]
      by_cases hf : N ≤ (l.filter (fun x => groupName x = groupName j)).length
      · rw [kept_snoc_full _ _ hf, ← d, c, if_pos]; omega
      · rw [kept_snoc_room _ _ (by omega), ← d, c, if_neg]; omega
  · intro x hx
    rw [add_keys]
    rcases List.mem_append.1 hx with hx | hx
    · have := h.cover x hx
      split
      · exact this
      · exact List.mem_append_left _ this
    · simp at hx; subst hx
      split
      · assumption
      · simp

private theorem ginv_group {N : Nat} (hN : 0 < N) {o : Opts} (ho : o.offset + o.limit = (N : Int)) (jobs : List Job) :
    GInv N (groupJobs o jobs) (jobs.filter (jobMatchesFilters o)) := by
  have key : ∀ (jobs : List Job) (m : Groups) (l : List Job), GInv N m l →
      GInv N (jobs.foldl (fun m j => if jobMatchesFilters o j then addJobToGroup o j (groupName j) m else m) m)
        (l ++ jobs.filter (jobMatchesFilters o)) := by
    intro jobs
    induction jobs with
    | nil => intro m l h; simpa using h
    | cons j jobs ih =>
      intro m l h
      simp only [List.foldl_cons]
      by_cases hj : jobMatchesFilters o j = true
      · rw [if_pos hj, List.filter_cons_of_pos hj]
        have := ih _ _ (ginv_add hN ho h j)
        rw [List.append_assoc] at this; exact this
      · rw [if_neg hj, List.filter_cons_of_neg hj]; exact ih _ _ h
  have := key jobs [] [] ⟨by simp, by simp, by simp⟩
  rw [List.nil_append] at this
  exact this

/-- picking one group out of the collected ones -/
private theorem flat_filter (m : Groups) (hn : (m.map (·.1)).Nodup) (hname : ∀ p ∈ m, ∀ j ∈ p.2, groupName j = p.1) (g : String) :
    (∀ js, (g, js) ∈ m → (m.flatMap (·.2)).filter (fun j => groupName j = g) = js) ∧
    (g ∉ m.map (·.1) → (m.flatMap (·.2)).filter (fun j => groupName j = g) = []) := by
  induction m with
  | nil => simp
  | cons p m ih =>
    obtain ⟨g0, js0⟩ := p
    simp only [List.map_cons, List.nodup_cons] at hn
    obtain ⟨h1, h2⟩ := ih hn.2 (fun p hp => hname p (List.mem_cons_of_mem _ hp))
    have h0 := hname (g0, js0) (by simp)
    simp only at h0
    rw [List.flatMap_cons, List.filter_append]
    by_cases hg : g0 = g
    · subst hg
      have ha : js0.filter (fun j => groupName j = g0) = js0 := List.filter_eq_self.2 fun j hj => by simpa using h0 j hj
      refine ⟨?_, fun h => absurd h (by simp)⟩
      intro js hjs
      rw [ha, h2 hn.1]
      rcases List.mem_cons.1 hjs with h | h
      · simp at h; simp [h]
      · exact absurd (List.mem_map.2 ⟨_, h, rfl⟩) hn.1
    · have ha : js0.filter (fun j => groupName j = g) = [] := List.filter_eq_nil_iff.2 fun j hj => by
        simp [h0 j hj, hg]
      rw [ha, List.nil_append]
      refine ⟨?_, ?_⟩
      · intro js hjs
        rcases List.mem_cons.1 hjs with h | h
        · simp at h; exact absurd h.1.symm hg
        · exact h1 js h
      · intro h
        simp only [List.map_cons, List.mem_cons, not_or] at h
        exact h2 h.2

/-- C31, with a limit, for all filters except "deletable": of every group, the jobs returned are those that are asked
for, in the original order, without the first `offset` and at most `limit` of them; the last one has `Similar` raised by
the number of further jobs of the group. This holds whatever the order in which the groups come. -/
theorem C31_limit_partial (order : Groups → Groups) (ho : ∀ m, (order m).Perm m) (o : Opts) (jobs : List Job) (hl : 0 < o.limit)
    (hd : o.state ≠ some .deletable) (j : Job) :
    open Classical in
    let all := jobs.filter fun x => Wanted o x ∧ SameGroup x j
    let off := o.offset.toNat
    let lim := o.limit.toNat
    (limitJobs order o jobs).filter (fun x => SameGroup x j) = mark (all.length - (off + lim)) ((all.drop off).take lim) := by
  intro all off lim
  have hN : 0 < off + lim := by show 0 < o.offset.toNat + o.limit.toNat; omega
  have hoff : (normalizeOptions o).offset = (off : Int) := by
    show (if o.offset < 0 then (0 : Int) else o.offset) = (o.offset.toNat : Int); split <;> omega
  have hlim : (normalizeOptions o).limit = (lim : Int) := by
    show (if o.limit < 0 then (0 : Int) else o.limit) = (o.limit.toNat : Int); split <;> omega
  have G := ginv_group (o := normalizeOptions o) hN (by rw [hoff, hlim]; omega) jobs
  have hres : limitJobs order o jobs = collect order (applyOffset (off : Int) (groupJobs (normalizeOptions o) jobs)) := by
    unfold limitJobs
    rw [if_neg (by simp [hl])]
    simp only
    rw [if_neg (by rw [hlim]; show ¬ ((o.limit.toNat : Int) = 0); omega), hoff]
  -- the groups after the offset
  have hmem : ∀ g js, (g, js) ∈ applyOffset (off : Int) (groupJobs (normalizeOptions o) jobs) ↔
      ∃ js0, (g, js0) ∈ groupJobs (normalizeOptions o) jobs ∧ js = js0.drop off ∧ off < js0.length := by
    intro g js
    unfold applyOffset
    split
    · rename_i h
      have : off = 0 := by omega
      rw [this]
      constructor
      · intro hm
        refine ⟨js, hm, by simp, ?_⟩
        obtain ⟨a, b⟩ := G.mem g js hm
        rw [a, kept_length]
        have := List.length_pos_iff.2 b
        omega
      · rintro ⟨js0, hm, rfl, -⟩; simpa using hm
    · rw [List.mem_filterMap]
      constructor
      · rintro ⟨⟨g0, js0⟩, hm, hif⟩
        split at hif
        · rename_i hlt
          simp at hif
          refine ⟨js0, by rw [← hif.1]; exact hm, hif.2.symm, by simpa using hlt⟩
        · cases hif
      · rintro ⟨js0, hm, rfl, hlt⟩
        exact ⟨(g, js0), hm, by rw [if_pos (by simpa using hlt)]; simp⟩
  have hkeys : ((applyOffset (off : Int) (groupJobs (normalizeOptions o) jobs)).map (·.1)).Nodup := by
    unfold applyOffset
    split
    · exact G.nodup
    · have : List.Sublist ((List.filterMap (fun p : String × List Job => if (off : Int) < p.2.length then
          some (p.1, p.2.drop (off : Int).toNat) else none) (groupJobs (normalizeOptions o) jobs)).map (·.1))
          ((groupJobs (normalizeOptions o) jobs).map (·.1)) := by
        generalize groupJobs (normalizeOptions o) jobs = m
        induction m with
        | nil => simp
        | cons p m ih =>
          rw [List.filterMap_cons]
          split
          · rw [List.map_cons]; exact ih.cons _
          · rename_i b hb
            split at hb
            · simp at hb; subst hb; exact ih.cons_cons _
            · cases hb
      exact G.nodup.sublist this
  have hperm := ho (applyOffset (off : Int) (groupJobs (normalizeOptions o) jobs))
  have hname : ∀ p ∈ order (applyOffset (off : Int) (groupJobs (normalizeOptions o) jobs)), ∀ x ∈ p.2, groupName x = p.1 := by
    rintro ⟨g, js⟩ hp x hx
    obtain ⟨js0, hm, rfl, -⟩ := (hmem g js).1 (hperm.mem_iff.1 hp)
    have hx := List.mem_of_mem_drop hx
    rw [(G.mem g js0 hm).1] at hx
    exact mark_name _ _ g (fun y hy => by
      have := List.mem_of_mem_take hy
      simpa using (List.mem_filter.1 this).2) x hx
  obtain ⟨f1, f2⟩ := flat_filter (order (applyOffset (off : Int) (groupJobs (normalizeOptions o) jobs)))
    ((hperm.map (·.1)).nodup_iff.2 hkeys) hname (groupName j)
  have hfilter : (limitJobs order o jobs).filter (fun x => decide (SameGroup x j)) =
      ((order (applyOffset (off : Int) (groupJobs (normalizeOptions o) jobs))).flatMap (·.2)).filter (fun x => groupName x = groupName j) := by
    rw [hres]; unfold collect
    congr 1; funext x; rw [decide_eq_decide, groupName_inj]
  have hall : all = (jobs.filter (jobMatchesFilters (normalizeOptions o))).filter (fun x => groupName x = groupName j) := by
    show jobs.filter _ = _
    rw [List.filter_filter]
    congr 1
    funext x
    have h1 := wanted_iff o hd x
    have h2 := groupName_inj x j
    rw [Bool.eq_iff_iff]
    simp [h1, h2, and_comm]
  have hgoal : (mark (all.length - (off + lim)) ((all.drop off).take lim)) = (kept (off + lim) all).drop off := by
    unfold kept
    rw [mark_drop]
    congr 1
    rw [List.drop_take]
    congr 1; omega
  have hlhs : ∀ d : ∀ x, Decidable (SameGroup x j), (limitJobs order o jobs).filter (fun x => @decide (SameGroup x j) (d x)) =
      ((order (applyOffset (off : Int) (groupJobs (normalizeOptions o) jobs))).flatMap (·.2)).filter (fun x => groupName x = groupName j) := by
    intro d; rw [← hfilter]; congr 1; funext x; congr
  rw [hlhs, hgoal]
  by_cases hin : groupName j ∈ (order (applyOffset (off : Int) (groupJobs (normalizeOptions o) jobs))).map (·.1)
  · obtain ⟨⟨g, js⟩, hp, rfl⟩ := List.mem_map.1 hin
    rw [f1 js hp]
    obtain ⟨js0, hm, rfl, -⟩ := (hmem _ js).1 (hperm.mem_iff.1 hp)
    rw [(G.mem _ js0 hm).1, hall]
  · rw [f2 hin]
    symm
    by_cases he : all = []
    · rw [he]; simp [kept, mark]
    · -- the group exists but is shorter than the offset
      obtain ⟨x, xs, hx⟩ := List.exists_cons_of_ne_nil he
      have hxm : x ∈ (jobs.filter (jobMatchesFilters (normalizeOptions o))).filter (fun x => groupName x = groupName j) := by
        rw [← hall, hx]; simp
      have hk := G.cover x (List.mem_filter.1 hxm).1
      rw [show groupName x = groupName j by simpa using (List.mem_filter.1 hxm).2] at hk
      obtain ⟨⟨g, js0⟩, hm, rfl⟩ := List.mem_map.1 hk
      have hjs := (G.mem _ js0 hm).1
      rw [← hall] at hjs
      rw [← hjs]
      apply List.drop_eq_nil_of_le
      apply Nat.le_of_not_lt
      intro hlt
      exact hin (List.mem_map.2 ⟨_, hperm.mem_iff.2 ((hmem _ _).2 ⟨js0, hm, rfl, hlt⟩), rfl⟩)

/-- C31, without a limit but with a state filter other than "deletable": the jobs returned are exactly those asked for,
in the original order. -/
theorem C31_filter_partial (order : Groups → Groups) (o : Opts) (jobs : List Job) (hl : o.limit ≤ 0) (hs : o.state ≠ none)
    (hd : o.state ≠ some .deletable) :
    open Classical in limitJobs order o jobs = jobs.filter fun x => Wanted o x := by
  unfold limitJobs
  rw [if_neg (by simp [hs])]
  simp only
  rw [if_pos (by simp [normalizeOptions]; omega)]
  congr 1
  funext x
  have h1 := wanted_iff o hd x
  rw [Bool.eq_iff_iff]
  simp [h1]

/-- C31 fails for "deletable": running jobs are returned. -/
theorem C31_violated_deletable (order : Groups → Groups) : ∃ j : Job, j.state = .running ∧
    ¬ HasState j (some .deletable) ∧ limitJobs order { state := some .deletable } [j] = [j] :=
  ⟨{ key := "", state := .running }, rfl, by simp [HasState], by simp [limitJobs, normalizeOptions, jobMatchesFilters,
    matchesStateFilter, normalizeJobState, matchesFailureFilter]⟩

/-- C31 fails without a limit and a state: the fail reason asked for is not looked at. -/
theorem C31_violated_reason (order : Groups → Groups) : ∃ (o : Opts) (j : Job), ¬ Wanted o j ∧ limitJobs order o [j] = [j] :=
  ⟨{ failReason := "a" }, { key := "", state := .buried, failReason := "b" }, by simp [Wanted], by simp [limitJobs]⟩

/-- A non-trivial case of `C31_limit_partial`: two groups, one longer than offset and limit allow. -/
example : limitJobs id { limit := 2, offset := 1, state := some .buried }
    [⟨"1", .buried, 1, "x", false, 0⟩, ⟨"2", .buried, 2, "y", false, 0⟩, ⟨"3", .buried, 1, "x", false, 0⟩, ⟨"4", .ready, 0, "", false, 0⟩,
      ⟨"5", .buried, 1, "x", false, 0⟩, ⟨"6", .buried, 1, "x", false, 0⟩, ⟨"7", .buried, 1, "x", false, 0⟩] =
    [⟨"3", .buried, 1, "x", false, 0⟩, ⟨"5", .buried, 1, "x", false, 2⟩] := by decide +kernel

end Verif.Server.Listing
