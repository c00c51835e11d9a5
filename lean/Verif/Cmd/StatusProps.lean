import Verif.Cmd.StatusLemmas
/-!
# C121: what `wr status` prints is what the jobs are

The counts, the summary and the plain format account for every job that was fetched, each once and under its own state and report group.
-/
namespace Verif.Cmd.Status
open Verif.Util

/-! ## specification, apart from the model -/

theorem filter_true' {α : Type} (l : List α) : l.filter (fun _ => true) = l := List.filter_eq_self.2 fun _ _ => rfl

/-- the number of jobs, with those they stand for, that satisfy `p` -/
def total (p : Job → Bool) (jobs : List Job) : Nat := ((jobs.filter p).map fun j => 1 + j.similar).sum

/-- the states a job can have in a listing (jobqueue/serverCLI.go:797-862; jobs of the database are complete) -/
def Listed (j : Job) : Prop := j.state ∈ [St.delayed, .ready, .reserved, .running, .lost, .buried, .dependent, .complete]

instance (j : Job) : Decidable (Listed j) := by unfold Listed; infer_instance

def Nums.sum (n : Nums) : Nat := n.complete + n.running + n.ready + n.dependent + n.lost + n.delayed + n.buried

/-! ## counts, plain, host -/

/-- C121: each number of the counts format is the number of jobs in that state; reserved jobs are running. -/
theorem C121_counts (jobs : List Job) :
    (counts jobs).complete = total (fun j => j.state = .complete) jobs ∧
    (counts jobs).running = total (fun j => j.state = .reserved ∨ j.state = .running) jobs ∧
    (counts jobs).ready = total (fun j => j.state = .ready) jobs ∧
    (counts jobs).dependent = total (fun j => j.state = .dependent) jobs ∧
    (counts jobs).lost = total (fun j => j.state = .lost) jobs ∧
    (counts jobs).delayed = total (fun j => j.state = .delayed) jobs ∧
    (counts jobs).buried = total (fun j => j.state = .buried) jobs := by
  unfold counts
  rw [foldl_count]
  simp [total, inState]

/-- C121: together they are all the jobs. -/
theorem C121_counts_total (jobs : List Job) (h : ∀ j ∈ jobs, Listed j) : (counts jobs).sum = total (fun _ => true) jobs := by
  unfold counts
  rw [foldl_count]
  induction jobs with
  | nil => simp [Nums.sum, total, inState]
  | cons j l ih =>
    have hj := h j (by simp)
    have ih := ih (fun x hx => h x (by simp [hx]))
    simp only [Nums.sum, total, inState, filter_true'] at ih ⊢
    simp only [Listed, List.mem_cons, List.not_mem_nil, or_false] at hj
    rcases hj with hj | hj | hj | hj | hj | hj | hj | hj <;> simp [hj] at ih ⊢ <;> omega

/-- C121: the counts, summary and plain formats ask for every job, whatever the limit. -/
theorem C121_unlimited (limit : Nat) : limitFor ['c', 'o', 'u', 'n', 't', 's'] limit = 0 ∧ limitFor ['s'] limit = 0 ∧
    limitFor ['p', 'l', 'a', 'i', 'n'] limit = 0 ∧ limitFor ['d'] limit = limit ∧ limitFor ['j', 's', 'o', 'n'] limit = limit := by
  simp [limitFor]

/-- C121: the plain format has a line for every job, in order, with its state, and the exit code is 0 just when none is buried. -/
theorem C121_plain (jobs : List Job) : (plain jobs).1.length = jobs.length ∧
    (∀ i : Nat, (plain jobs).1[i]? = (jobs[i]?).map fun j => (j.key, j.state)) ∧
    ((plain jobs).2 = 0 ↔ ∀ j ∈ jobs, j.state ≠ .buried) := by
  refine ⟨by simp [plain], fun i => by simp [plain], ?_⟩
  simp only [plain]
  split
  · rename_i h
    obtain ⟨j, hj, hb⟩ := List.any_eq_true.1 h
    simp only [decide_eq_true_eq] at hb
    constructor
    · intro h; cases h
    · intro h; exact absurd hb (h j hj)
  · rename_i h
    refine ⟨fun _ j hj hb => h (List.any_eq_true.2 ⟨j, hj, by simp [hb]⟩), fun _ => rfl⟩

/-- C121: with a host only the jobs of that host (its name, id or address) are shown, in the same order; without, all. -/
theorem C121_host (h : List Char) (jobs : List Job) : (byHost h jobs).Sublist jobs ∧
    (h = [] → byHost h jobs = jobs) ∧
    (h ≠ [] → ∀ j, j ∈ byHost h jobs ↔ j ∈ jobs ∧ (j.host = h ∨ j.hostID = h ∨ j.hostIP = h)) := by
  unfold byHost
  split
  · exact ⟨List.Sublist.refl _, fun _ => rfl, fun hh => absurd ‹h = []› hh⟩
  · refine ⟨List.filter_sublist, fun hh => absurd hh ‹_›, fun _ j => ?_⟩
    simp [or_assoc]

/-! ## summary -/

theorem le_trans' (a b c : List Char) (h : decide (a ≤ b) = true) (h' : decide (b ≤ c) = true) : decide (a ≤ c) = true := by
  simp only [decide_eq_true_eq] at h h' ⊢
  exact List.le_trans h h'

theorem le_total' (a b : List Char) : decide (a ≤ b) = true ∨ decide (b ≤ a) = true := by
  simp only [decide_eq_true_eq]
  exact List.le_total a b

theorem line_some (text : Int → List Char) (jobs : List Job) (a : Acc) (g : Good jobs a) (rg : List Char) : (line text a rg).isSome := by
  unfold line
  simp only
  split
  · rename_i h
    rw [g.counts rg] at h
    split at h
    · simp only [Option.getD_some, cnt] at h
      obtain ⟨u, e, _⟩ := pushAll_usage (inState .complete (own rg jobs)) (by
        intro e
        unfold inState at e
        rw [e] at h
        simp at h)
      rw [g.usage rg, e]
      rfl
    · simp at h
  · rfl

theorem summary_lines (text : Int → List Char) (jobs : List Job) (h : ∀ j ∈ jobs, j.rg ≠ allAbove) :
    ∃ ls, summary text jobs = some ls ∧ ls.map (·.rg) = names (jobs.foldl sumJob {}) ∧
      ∀ l ∈ ls, line text (jobs.foldl sumJob {}) l.rg = some l := by
  exact lines_some text _ _ fun rg _ => line_some text jobs _ (good jobs h) rg

/-- C121: the summary has one line for each report group of the jobs, in order of name, and, if there are several, a last one for all. -/
theorem C121_summary_lines_partial (text : Int → List Char) (jobs : List Job) (h : ∀ j ∈ jobs, j.rg ≠ allAbove) :
    ∃ (ls : List Line) (rgs : List (List Char)), summary text jobs = some ls ∧
      rgs.Pairwise (· < ·) ∧ (∀ g, g ∈ rgs ↔ ∃ j ∈ jobs, j.rg = g) ∧
      ls.map (·.rg) = if 1 < rgs.length then rgs ++ [allAbove] else rgs := by
  obtain ⟨ls, e, hn, _⟩ := summary_lines text jobs h
  have g := good jobs h
  let ks := (erase allAbove (jobs.foldl sumJob {}).counts).map (·.1)
  refine ⟨ls, sortBy (fun x y => decide (x ≤ y)) ks, e, ?_, ?_, hn⟩
  · have hs := sortBy_sorted (fun x y : List Char => decide (x ≤ y)) le_trans' le_total' ks
    have hd : (sortBy (fun x y : List Char => decide (x ≤ y)) ks).Nodup :=
      (sortBy_perm _ ks).nodup_iff.2 (nodup_erase _ _ g.nodup)
    refine (hs.and hd).imp ?_
    intro a b ⟨hab, hne⟩
    simp only [decide_eq_true_eq] at hab
    exact Decidable.byContradiction fun hlt => hne (List.le_antisymm hab (List.not_lt.1 hlt))
  · intro k
    rw [(sortBy_perm _ ks).mem_iff, mem_keys_erase, get_isSome_iff, g.counts k]
    constructor
    · rintro ⟨hne, hk⟩
      split at hk
      · rename_i hh
        rcases hh with hh | hh
        · exact absurd hh hne
        · obtain ⟨j, hj, e⟩ := List.mem_map.1 hh
          exact ⟨j, hj, e⟩
      · simp at hk
    · rintro ⟨j, hj, rfl⟩
      refine ⟨h j hj, ?_⟩
      rw [if_pos (Or.inr (List.mem_map.2 ⟨j, hj, rfl⟩))]
      rfl

/-- the jobs that a line of the summary is about: all for the last line, those of the group for the others -/
def About (rg : List Char) (j : Job) : Bool := decide (rg = allAbove ∨ j.rg = rg)

theorem own_eq (rg : List Char) (jobs : List Job) : own rg jobs = jobs.filter (About rg) := by
  unfold own About
  split
  · rename_i h; simp [h, filter_true']
  · rename_i h; simp [h]

theorem line_eq (text : Int → List Char) (jobs : List Job) (h : ∀ j ∈ jobs, j.rg ≠ allAbove) (ls : List Line)
    (e : summary text jobs = some ls) (l : Line) (hl : l ∈ ls) :
    line text (jobs.foldl sumJob {}) l.rg = some l ∧ get l.rg (jobs.foldl sumJob {}).counts = some (cnt (own l.rg jobs)) := by
  obtain ⟨ls', e', hn, hh⟩ := summary_lines text jobs h
  rw [e] at e'
  obtain rfl := Option.some.inj e'
  have g := good jobs h
  refine ⟨hh l hl, ?_⟩
  have hm : l.rg ∈ names (jobs.foldl sumJob {}) := by rw [← hn]; exact List.mem_map.2 ⟨l, hl, rfl⟩
  have : l.rg = allAbove ∨ l.rg ∈ (jobs.foldl sumJob {}).counts.map (·.1) := by
    unfold names at hm
    simp only at hm
    split at hm
    · rcases List.mem_append.1 hm with hm | hm
      · right
        exact ((mem_keys_erase _ _ _).1 ((sortBy_perm _ _).mem_iff.1 hm)).2
      · left; simpa using hm
    · right
      exact ((mem_keys_erase _ _ _).1 ((sortBy_perm _ _).mem_iff.1 hm)).2
  rw [g.counts]
  rcases this with hh | hh
  · rw [if_pos (Or.inl hh)]
  · rw [get_isSome_iff, g.counts] at hh
    split at hh
    · rename_i h1; rw [if_pos h1]
    · simp at hh

/-- C121: each number of a line is the number of the jobs it is about that are in that state. Missing: reserved jobs, which are running
to every other format, are not counted at all. -/
theorem C121_summary_numbers_partial (text : Int → List Char) (jobs : List Job) (h : ∀ j ∈ jobs, j.rg ≠ allAbove) (ls : List Line)
    (e : summary text jobs = some ls) (l : Line) (hl : l ∈ ls) :
    let js := jobs.filter (About l.rg)
    l.nums.complete = (js.filter fun j => j.state = .complete).length ∧
    l.nums.running = (js.filter fun j => j.state = .running).length ∧
    l.nums.ready = (js.filter fun j => j.state = .ready).length ∧
    l.nums.dependent = (js.filter fun j => j.state = .dependent).length ∧
    l.nums.lost = (js.filter fun j => j.state = .lost).length ∧
    l.nums.delayed = (js.filter fun j => j.state = .delayed).length ∧
    l.nums.buried = (js.filter fun j => j.state = .buried).length := by
  obtain ⟨hl', hc⟩ := line_eq text jobs h ls e l hl
  intro js
  have hjs : js = own l.rg jobs := (own_eq _ _).symm
  rw [hjs]
  have key : l.nums = { complete := cnt (own l.rg jobs) .complete, running := cnt (own l.rg jobs) .running, ready := cnt (own l.rg jobs) .ready, dependent := cnt (own l.rg jobs) .dependent, lost := cnt (own l.rg jobs) .lost, delayed := cnt (own l.rg jobs) .delayed, buried := cnt (own l.rg jobs) .buried } := by
    unfold line at hl'
    simp only [hc, Option.getD_some] at hl'
    split at hl'
    · split at hl'
      · simp at hl'
      · have := Option.some.inj hl'; rw [← this]
    · have := Option.some.inj hl'; rw [← this]
  rw [key]
  exact ⟨rfl, rfl, rfl, rfl, rfl, rfl, rfl⟩

theorem count_all : ∀ js : List Job, (∀ j ∈ js, Listed j ∧ j.state ≠ .reserved) →
    (js.filter fun j => j.state = .complete).length + (js.filter fun j => j.state = .running).length +
    (js.filter fun j => j.state = .ready).length + (js.filter fun j => j.state = .dependent).length +
    (js.filter fun j => j.state = .lost).length + (js.filter fun j => j.state = .delayed).length +
    (js.filter fun j => j.state = .buried).length = js.length
  | [], _ => rfl
  | j :: l, h => by
    have ih := count_all l (fun x hx => h x (by simp [hx]))
    obtain ⟨hj, hr⟩ := h j (by simp)
    simp only [Listed, List.mem_cons, List.not_mem_nil, or_false] at hj
    rcases hj with hj | hj | hj | hj | hj | hj | hj | hj <;> first | exact absurd hj hr | (simp [hj]; omega)

/-- C121: the numbers of a line add up to the jobs it is about. Missing: when one of them is reserved. -/
theorem C121_summary_total_partial (text : Int → List Char) (jobs : List Job) (h : ∀ j ∈ jobs, j.rg ≠ allAbove)
    (hs : ∀ j ∈ jobs, Listed j ∧ j.state ≠ .reserved) (ls : List Line) (e : summary text jobs = some ls) (l : Line) (hl : l ∈ ls) :
    l.nums.sum = (jobs.filter (About l.rg)).length := by
  obtain ⟨h1, h2, h3, h4, h5, h6, h7⟩ := C121_summary_numbers_partial text jobs h ls e l hl
  have := count_all (jobs.filter (About l.rg)) (fun j hj => hs j (List.mem_filter.1 hj).1)
  simp only [Nums.sum]
  omega

/-- C121: the statistics of a line are those of its complete jobs, each once; the period, shown for two or more, goes from the first start
to the last end. -/
theorem C121_summary_usage_partial (text : Int → List Char) (jobs : List Job) (h : ∀ j ∈ jobs, j.rg ≠ allAbove) (ls : List Line)
    (e : summary text jobs = some ls) (l : Line) (hl : l ∈ ls) :
    let cs := jobs.filter fun j => About l.rg j && decide (j.state = .complete)
    (l.usage = none ↔ cs = []) ∧
    (∀ u, l.usage = some u → u.ram = cs.map (·.ram) ∧ u.disk = cs.map (·.disk) ∧ u.wall = cs.map (·.wall) ∧ u.cpu = cs.map (·.cpu)) ∧
    (l.period.isSome ↔ 1 < cs.length) ∧
    (∀ s t, l.period = some (s, t) → (∃ j ∈ cs, j.start = s) ∧ (∀ j ∈ cs, s ≤ j.start) ∧ (∃ j ∈ cs, j.fin = t) ∧ ∀ j ∈ cs, j.fin ≤ t) := by
  obtain ⟨hl', hc⟩ := line_eq text jobs h ls e l hl
  have g := good jobs h
  intro cs
  have hcs : cs = inState .complete (own l.rg jobs) := by
    rw [own_eq]; simp only [cs, inState, List.filter_filter]; congr 1; funext j; rw [Bool.and_comm]
  unfold line at hl'
  simp only [hc, Option.getD_some] at hl'
  have hlen : cnt (own l.rg jobs) .complete = cs.length := by rw [hcs]; rfl
  rw [hlen] at hl'
  have hu := g.usage l.rg
  rw [← hcs] at hu
  by_cases h0 : 0 < cs.length
  · obtain ⟨u, eu, hU⟩ := pushAll_usage cs (by intro e; simp [e] at h0)
    rw [if_pos h0, hu, eu] at hl'
    simp only at hl'
    have hle := Option.some.inj hl'
    rw [← hle]
    refine ⟨?_, ?_, ?_, ?_⟩
    · constructor
      · intro hh; cases hh
      · intro hh; rw [hh] at h0; simp at h0
    · intro u' hu'
      obtain rfl := Option.some.inj hu'
      exact ⟨hU.ram, hU.disk, hU.wall, hU.cpu⟩
    · by_cases h1 : 1 < cs.length <;> simp [h1]
    · intro s t hst
      simp only at hst
      split at hst
      · simp only [Option.some.injEq, Prod.mk.injEq] at hst
        obtain ⟨rfl, rfl⟩ := hst
        exact ⟨hU.start.1, hU.start.2, hU.fin.1, hU.fin.2⟩
      · cases hst
  · rw [if_neg h0] at hl'
    have hle := Option.some.inj hl'
    rw [← hle]
    have : cs = [] := List.eq_nil_of_length_eq_zero (by omega)
    simp [this]

/-- C121: the line of a report group names every buried job of the group once, under its exit code and reason, and no other job; the
groups are in order of their text, each once. The line of all groups names none. -/
theorem C121_summary_buried_partial (text : Int → List Char) (jobs : List Job) (h : ∀ j ∈ jobs, j.rg ≠ allAbove) (ls : List Line)
    (e : summary text jobs = some ls) (l : Line) (hl : l ∈ ls) :
    (l.rg = allAbove → l.dead = []) ∧
    (l.rg ≠ allAbove → (∀ (code : Int) (why : List Char) (keys : List Nat), ((code, why), keys) ∈ l.dead ↔ keys ≠ [] ∧
      keys = (jobs.filter fun j => j.rg = l.rg ∧ j.state = .buried ∧ j.exit = code ∧ j.reason = why).map (·.key)) ∧
      (l.dead.map (·.1)).Nodup ∧
      l.dead.Pairwise fun x y => text x.1.1 ++ [',', '"'] ++ x.1.2 ++ ['"'] ≤ text y.1.1 ++ [',', '"'] ++ y.1.2 ++ ['"']) := by
  obtain ⟨hl', hc⟩ := line_eq text jobs h ls e l hl
  have g := good jobs h
  have hd : l.dead = if 0 < cnt (own l.rg jobs) .buried then sortBy (leGroup text) ((get l.rg (jobs.foldl sumJob {}).buried).getD []) else [] := by
    unfold line at hl'
    simp only [hc, Option.getD_some] at hl'
    split at hl'
    · split at hl'
      · simp at hl'
      · have := Option.some.inj hl'; rw [← this]
    · have := Option.some.inj hl'; rw [← this]
  rw [hd]
  constructor
  · intro hr
    rw [g.buried, if_pos hr]
    simp [sortBy]
  · intro hr
    rw [g.buried, if_neg hr]
    obtain ⟨hnd, hget⟩ := buryAll_spec (inState .buried (own l.rg jobs))
    have hkeys : ∀ (code : Int) (why : List Char), keysOf (code, why) (inState .buried (own l.rg jobs)) =
        (jobs.filter fun j => j.rg = l.rg ∧ j.state = .buried ∧ j.exit = code ∧ j.reason = why).map (·.key) := by
      intro code why
      simp only [keysOf, inState, own, if_neg hr, List.filter_filter]
      congr 1
      congr 1
      funext j
      rw [Bool.eq_iff_iff]
      simp only [Bool.and_eq_true, decide_eq_true_eq]
      grind
    split
    · refine ⟨?_, ?_, ?_⟩
      · intro code why keys
        rw [(sortBy_perm _ _).mem_iff, mem_iff_get _ _ _ hnd, hget, hkeys]
        split
        · rename_i he
          rw [he]
          constructor
          · intro hh; cases hh
          · rintro ⟨h1, h2⟩; exact absurd h2 h1
        · rename_i he
          constructor
          · intro hh
            have := Option.some.inj hh
            rw [← this]
            exact ⟨he, rfl⟩
          · rintro ⟨_, h2⟩; rw [h2]
      · exact (((sortBy_perm (leGroup text) _).map (·.1)).nodup_iff).2 hnd
      · have := sortBy_sorted (leGroup text) (fun a b c => le_trans' _ _ _) (fun a b => le_total' _ _)
          ((buryAll (inState .buried (own l.rg jobs))).getD [])
        exact this.imp fun hh => by simpa [leGroup] using hh
    · rename_i h0
      have hnil : inState .buried (own l.rg jobs) = [] := by
        unfold inState
        exact List.eq_nil_of_length_eq_zero (by unfold cnt at h0; omega)
      refine ⟨?_, by simp, by simp⟩
      intro code why keys
      rw [← hkeys, hnil]
      simp [keysOf]

/-- C121: the text that names a bury group determines the exit code and the reason, given that codes are written in digits. -/
theorem C121_group_text (text : Int → List Char) (inj : ∀ a b, text a = text b → a = b) (dig : ∀ a, ',' ∉ text a) (a b : Int) (x y : List Char)
    (h : text a ++ [',', '"'] ++ x ++ ['"'] = text b ++ [',', '"'] ++ y ++ ['"']) : a = b ∧ x = y := by
  have key : ∀ (p q : List Char) (u v : List Char), ',' ∉ p → ',' ∉ q → p ++ ',' :: u = q ++ ',' :: v → p = q ∧ u = v := by
    intro p
    induction p with
    | nil =>
      intro q u v _ hq he
      cases q with
      | nil => simpa using he
      | cons c q => simp at he; exact absurd he.1 (by simp at hq; exact hq.1)
    | cons c p ih =>
      intro q u v hp hq he
      cases q with
      | nil => simp at he; exact absurd he.1.symm (by simp at hp; exact hp.1)
      | cons d q =>
        simp only [List.cons_append, List.cons.injEq] at he
        obtain ⟨rfl, h2⟩ := ih q u v (by simp_all) (by simp_all) he.2
        exact ⟨by rw [he.1], h2⟩
  have := key (text a) (text b) ('"' :: (x ++ ['"'])) ('"' :: (y ++ ['"'])) (dig a) (dig b) (by simpa using h)
  refine ⟨inj _ _ this.1, ?_⟩
  have h2 := this.2
  simp only [List.cons.injEq, true_and] at h2
  exact List.append_cancel_right h2

/-! ## details and JSON -/

/-- C121: the details format has an entry for every job, and with the numbers of others it stands for the entries account for all of them. -/
theorem C121_details (extra : Bool) (jobs : List Job) : (details extra jobs).map (·.key) = jobs.map (·.key) ∧
    ((details extra jobs).map fun d => 1 + d.others.getD 0).sum = total (fun _ => true) jobs := by
  refine ⟨by simp [details, detail], ?_⟩
  simp only [details, total, List.map_map, filter_true']
  congr 1
  apply List.map_congr_left
  intro j _
  simp only [Function.comp, detail]
  split <;> simp <;> omega

/-- C121: a job's output is shown just when the job ended with a code other than 0 (and its jobs were not chosen by a file); a job that
could be listed has a status, running only if it is reserved or running. -/
theorem C121_details_job (extra : Bool) (j : Job) :
    ((detail extra j).std = some (j.stdout, j.stderr) ↔ j.exited = true ∧ extra = true ∧ j.exit ≠ 0) ∧
    ((detail extra j).std ≠ none → (detail extra j).stats ≠ none) ∧
    (Listed j → (detail extra j).status = some (if j.state = .reserved then .running else j.state)) := by
  refine ⟨?_, ?_, ?_⟩
  · simp only [detail]; split <;> simp_all
  · simp only [detail]
    split
    · rename_i h; simp [h.1]
    · simp
  · intro h
    simp only [Listed, List.mem_cons, List.not_mem_nil, or_false] at h
    rcases h with h | h | h | h | h | h | h | h <;> simp [detail, statusOf, h]

/-- C121: statistics are shown of jobs that exited, called those of a previous attempt unless the job is complete, and of jobs that run; what
is known about a job that neither exited nor runs is shown as details. -/
theorem C121_details_stats (extra : Bool) (j : Job) :
    ((detail extra j).stats = some false ↔ j.exited = true ∧ j.state ≠ .complete) ∧
    ((detail extra j).stats = some true ↔ (j.exited = true ∧ j.state = .complete) ∨ (j.exited = false ∧ (j.state = .running ∨ j.state = .lost))) ∧
    ((detail extra j).details ≠ none ↔ (detail extra j).stats = none ∧ extra = true ∧ j.stderr ≠ []) ∧
    ((detail extra j).problem = true ↔ j.reason ≠ []) := by
  simp only [detail]
  cases j.exited <;> cases extra <;> cases j.state <;> simp

/-- C121: the state of the JSON format is the state of the job, or lost for a running job that was lost. -/
theorem C121_json (j : Job) : (jsonState j = .lost ↔ j.state = .lost ∨ (j.state = .running ∧ j.lost = true)) ∧
    (jsonState j ≠ .lost → jsonState j = j.state) := by
  unfold jsonState
  split
  · rename_i h; simp [h]
  · rename_i h; grind

/-! ## what the code does not do -/

/-- C121 violated: a reserved job, running to the counts format, is in no number of the summary. -/
theorem C121_violated_reserved : ∃ j : Job, Listed j ∧ (counts [j]).running = 1 ∧
    (summary (fun _ => []) [j]).map (·.map fun l => l.nums.sum) = some [0] :=
  ⟨{ key := 1, rg := ['g'], state := .reserved }, by decide, by decide, by decide⟩

/-- C121 violated: the jobs of a report group named "all above" are not in the summary, or are counted twice. -/
theorem C121_violated_name : (∃ j : Job, Listed j ∧ summary (fun _ => []) [j] = some []) ∧
    ∃ jobs : List Job, jobs.length = 3 ∧ (∀ j ∈ jobs, Listed j) ∧
      (summary (fun _ => []) jobs).map (·.map fun l => (l.rg, l.nums.ready)) = some [(['a'], 1), (['b'], 1), (allAbove, 4)] :=
  ⟨⟨{ key := 1, rg := allAbove, state := .ready }, by decide, by decide⟩,
   [{ key := 1, rg := ['b'], state := .ready }, { key := 2, rg := ['a'], state := .ready }, { key := 3, rg := allAbove, state := .ready }],
   rfl, by decide, by decide⟩

/-! ## a case -/

def ex : List Job :=
  [{ key := 1, rg := ['b'], state := .complete, exited := true, ram := 5, start := 10, fin := 20 },
   { key := 2, rg := ['a'], state := .buried, exited := true, exit := 1, reason := ['x'] },
   { key := 3, rg := ['b'], state := .complete, exited := true, ram := 7, start := 5, fin := 15 },
   { key := 4, rg := ['a'], state := .buried, exited := true, exit := 1, reason := ['x'] },
   { key := 5, rg := ['a'], state := .buried, exited := true, exit := 0, reason := ['w'] },
   { key := 6, rg := ['a'], state := .running, similar := 2, host := ['h'] }]

example : (∀ j ∈ ex, j.rg ≠ allAbove) ∧ (∀ j ∈ ex, Listed j ∧ j.state ≠ .reserved) := by decide
example : (summary (fun n => if n = 0 then ['0'] else ['1']) ex).map (·.map fun l => (l.rg, l.nums.complete, l.nums.buried)) =
    some [(['a'], 0, 3), (['b'], 2, 0), (allAbove, 2, 3)] := by decide
example : (summary (fun n => if n = 0 then ['0'] else ['1']) ex).map (·.map (·.dead)) =
    some [[((0, ['w']), [5]), ((1, ['x']), [2, 4])], [], []] := by decide
example : (summary (fun n => if n = 0 then ['0'] else ['1']) ex).map (·.map (·.period)) = some [none, some (5, 20), some (5, 20)] := by decide
example : (counts ex).running = 3 ∧ (counts ex).sum = 8 := by decide
example : (plain ex).2 = 1 ∧ (byHost ['h'] ex).map (·.key) = [6] := by decide

end Verif.Cmd.Status
