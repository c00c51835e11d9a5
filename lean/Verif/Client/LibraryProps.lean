import Verif.Client.Library
/-! # C109: the client library -/
namespace Verif.Client.Library

/-! ## Matching report groups -/

/-- specification: what the modes of matching mean -/
def Matches (group query : Str) : Match → Prop
  | .exact => group = query
  | .subStr => ∃ a b, group = a ++ query ++ b
  | .pre => ∃ b, group = query ++ b
  | .suf => ∃ a, group = a ++ query

private theorem contains_iff (s sub : Str) : contains s sub = true ↔ ∃ a b, s = a ++ sub ++ b := by
  induction s with
  | nil =>
    simp only [contains, List.isEmpty_iff]
    constructor
    · rintro rfl; exact ⟨[], [], rfl⟩
    · rintro ⟨a, b, h⟩
      have := congrArg List.length h
      simp at this
      exact List.eq_nil_of_length_eq_zero (by omega)
  | cons c s ih =>
    simp only [contains, Bool.or_eq_true, ih, List.isPrefixOf_iff_prefix]
    constructor
    · rintro (⟨b, h⟩ | ⟨a, b, h⟩)
      · exact ⟨[], b, by simp [h]⟩
      · exact ⟨c :: a, b, by simp [h]⟩
    · rintro ⟨a, b, h⟩
      cases a with
      | nil => left; exact ⟨b, by simpa using h.symm⟩
      | cons x a => right; simp at h; exact ⟨a, b, by simp [h.2]⟩

/-- C109: report groups match as the mode says. -/
theorem C109_matches (group query : Str) (m : Match) : repGroupMatches group query m = true ↔ Matches group query m := by
  cases m with
  | exact => simp [repGroupMatches, Matches]
  | subStr => exact contains_iff group query
  | pre =>
    simp only [repGroupMatches, Matches, List.isPrefixOf_iff_prefix]
    exact ⟨fun ⟨b, h⟩ => ⟨b, h.symm⟩, fun ⟨b, h⟩ => ⟨b, h.symm⟩⟩
  | suf =>
    simp only [repGroupMatches, Matches, List.isSuffixOf_iff_suffix]
    exact ⟨fun ⟨b, h⟩ => ⟨b, h.symm⟩, fun ⟨b, h⟩ => ⟨b, h.symm⟩⟩

example : Matches "abc".toList "b".toList .subStr ∧ ¬ Matches "abc".toList "b".toList .pre :=
  ⟨⟨['a'], ['c'], rfl⟩, by rintro ⟨b, h⟩; simp at h⟩

/-! ## The pretend server -/

/-- what the program does: submit jobs (append having left room for `extra` more, if it had to make a new array), remove the jobs with these
keys, or change the state and the end time of a job that it has a pointer to -/
inductive Ev where
  | submit (jobs : List Nat) (extra : Nat)
  | remove (keys : List Nat)
  | change (job : Nat) (state : State) (endTime : Nat)
  deriving DecidableEq, Repr

def step (p : Pretend) : Ev → Option Pretend
  | .submit js n => some (p.add js n)
  | .remove ks => p.remove ks
  | .change j st t => some { p with vals := fun i => if i = j then { p.vals i with state := st, endTime := t } else p.vals i }

def run (p : Pretend) : List Ev → Option Pretend
  | [] => some p
  | e :: es => (step p e).bind fun p => run p es

/-- specification: the jobs submitted and not removed since, in the order in which they were submitted -/
def there (key : Nat → Nat) (l : List Nat) : List Ev → List Nat
  | [] => l
  | .submit js _ :: es => there key (l ++ js) es
  | .remove ks :: es => there key (l.filter fun j => !ks.contains (key j)) es
  | .change _ _ _ :: es => there key l es

private theorem mem_get_set (m : Mem) (a b : Nat) (l : List (Option Nat)) (h : a < m.length) :
    arrAt (List.set m a l) b = if a = b then l else arrAt m b := by
  unfold arrAt
  by_cases hab : a = b
  · subst hab; simp [h]
  · simp [hab, List.getElem?_set]

private structure Ok (p : Pretend) (key : Nat → Nat) (l : List Nat) : Prop where
  read : elems p.mem p.buf = l.map some
  arr : p.buf.arr < p.mem.length
  len : p.buf.len = l.length
  cap : p.buf.len ≤ (arrAt p.mem p.buf.arr).length
  key : ∀ j, (p.vals j).key = key j

private theorem ok_step (p : Pretend) (key : Nat → Nat) (l : List Nat) (h : Ok p key l) (e : Ev) :
    ∃ p', step p e = some p' ∧ Ok p' key (there key l [e]) := by
  cases e with
  | change j st t => 
    refine ⟨_, rfl, ⟨h.read, h.arr, h.len, h.cap, ?_⟩⟩
    intro i; simp only; split <;> exact h.key i
  | submit js n =>
    refine ⟨_, rfl, ?_⟩
    have hk : ∀ j, (if j ∈ js then { p.vals j with state := State.delayed } else p.vals j).key = key j := by
      intro j; split <;> exact h.key j
    simp only [Pretend.add, append, there]
    split
    · rename_i hc
      simp only [List.length_map] at hc
      refine ⟨?_, by simpa using h.arr, by simp [h.len], ?_, hk⟩
      · simp only [elems, mem_get_set _ _ _ _ h.arr, if_true]
        rw [show (arrAt p.mem p.buf.arr).take p.buf.len = l.map some from h.read]
        rw [List.take_left' (by simp [h.len])]
        simp
      · simp only [mem_get_set _ _ _ _ h.arr, if_true]
        simp [h.read, h.len]
    · refine ⟨?_, by simp, by simp [h.len], ?_, hk⟩
      · simp only [elems, arrAt]
        simp only [List.getElem?_concat_length, Option.getD_some]
        have := h.read
        simp only [elems, arrAt] at this
        rw [this, List.take_left' (by simp [h.len])]
        simp
      · simp only [arrAt, List.getElem?_concat_length, Option.getD_some]
        simp [h.read, h.len]
  | remove ks =>
    have hn : none ∉ elems p.mem p.buf := by rw [h.read]; simp
    simp only [step, Pretend.remove, if_neg hn, deleteFunc]
    refine ⟨_, rfl, ?_⟩
    have hf : (elems p.mem p.buf).filter (fun x => !doomed p.vals ks x) =
        (l.filter fun j => !ks.contains (key j)).map some := by
      rw [h.read, List.filter_map]
      congr 1
      apply List.filter_congr
      intro j _
      simp [doomed, h.key j]
    have hle : (l.filter fun j => !ks.contains (key j)).length ≤ l.length := List.length_filter_le _ _
    refine ⟨?_, by simpa using h.arr, ?_, ?_, h.key⟩
    · simp only [elems, mem_get_set _ _ _ _ h.arr, if_true]
      simp only [elems] at hf
      rw [hf, List.append_assoc, List.take_left' (by simp)]
      rfl
    · rw [hf]; simp [there]
    · simp only [mem_get_set _ _ _ _ h.arr, if_true]
      rw [hf]; simp

private theorem ok_run (key : Nat → Nat) (es : List Ev) : ∀ (p : Pretend) (l : List Nat), Ok p key l →
    ∃ p', run p es = some p' ∧ Ok p' key (there key l es) := by
  induction es with
  | nil => intro p l h; exact ⟨p, rfl, h⟩
  | cons e es ih =>
    intro p l h
    obtain ⟨p1, h1, h2⟩ := ok_step p key l h e
    obtain ⟨p2, h3, h4⟩ := ih p1 _ h2
    refine ⟨p2, by simp [run, h1, h3], ?_⟩
    cases e <;> exact h4

private theorem ok_new (ps : Str) (vals : Nat → Job) : Ok (newPretend ps vals) (fun j => (vals j).key) [] :=
  ⟨rfl, by simp [newPretend], rfl, by simp [newPretend], fun _ => rfl⟩

/-- C109: after any submissions and removals the pretend server has exactly the jobs submitted and not removed since, in the
order in which they were submitted; it never panics. -/
theorem C109_there (ps : Str) (vals : Nat → Job) (es : List Ev) :
    ∃ p, run (newPretend ps vals) es = some p ∧ elems p.mem p.submittedJobs = (there (fun j => (vals j).key) [] es).map some := by
  obtain ⟨p, h1, h2⟩ := ok_run _ es _ [] (ok_new ps vals)
  exact ⟨p, h1, h2.read⟩

/-- C109: the memory of the pretend server behaves as Go's: no array ever changes its size, whatever is appended to or deleted
from a slice of it. -/
theorem C109_arrays (ps : Str) (vals : Nat → Job) (es : List Ev) (e : Ev) (p q : Pretend) (hp : run (newPretend ps vals) es = some p)
    (hq : step p e = some q) (a : Nat) (ha : a < p.mem.length) : (arrAt q.mem a).length = (arrAt p.mem a).length := by
  obtain ⟨p', h1, h2⟩ := ok_run _ es _ [] (ok_new ps vals)
  rw [hp] at h1; cases h1
  have hl : (elems p.mem p.buf).length = p.buf.len := by rw [h2.read, h2.len]; simp
  have hcap := h2.cap
  cases e with
  | change j st t => cases hq; rfl
  | submit js n =>
    cases hq
    simp only [Pretend.add, append]
    split
    · rename_i hc
      simp only [mem_get_set _ _ _ _ h2.arr]
      split
      · rename_i hb; subst hb
        simp only [List.length_append, List.length_drop, hl]
        omega
      · rfl
    · simp [arrAt, List.getElem?_append, ha]
  | remove ks =>
    have hn : none ∉ elems p.mem p.buf := by rw [h2.read]; simp
    simp only [step, Pretend.remove, if_neg hn, deleteFunc] at hq
    cases hq
    simp only [mem_get_set _ _ _ _ h2.arr]
    split
    · rename_i hb; subst hb
      have := List.length_filter_le (fun x => !doomed p.vals ks x) (elems p.mem p.buf)
      simp only [List.length_append, List.length_drop, List.length_replicate]
      omega
    · rfl

example : ∃ p q, run (newPretend [] (fun j => ⟨j, [], .new, 0⟩)) [.submit [1, 2] 1] = some p ∧ step p (.submit [3] 0) = some q ∧
    p.buf.arr < p.mem.length := ⟨_, _, rfl, rfl, by decide⟩

private theorem filterMap_some_ite {α : Type} (l : List α) (f : α → Bool) :
    (l.map some).filterMap (fun x => x.bind fun j => if f j then some j else none) = l.filter f := by
  induction l with
  | nil => rfl
  | cons a l ih =>
    simp only [List.map_cons, List.filterMap_cons, Option.bind_some, List.filter_cons]
    cases f a <;> simp [ih]

private theorem state_ok (st : Option State) (x : State) : (st == none || st == some x) = true ↔ ∀ s, st = some s → x = s := by
  cases st with
  | none => simp
  | some s => simp; exact ⟨Eq.symm, Eq.symm⟩

/-- C109: the jobs found by report group, and by state if one is given, are those that are there and match, in order. An empty report group is
refused. -/
theorem C109_found (ps : Str) (vals : Nat → Job) (es : List Ev) (p : Pretend) (hp : run (newPretend ps vals) es = some p) (query : Str) (m : Match)
    (st : Option State) :
    (p.getByRepGroupMatch query m st = none ↔ query = []) ∧
    ∀ l, p.getByRepGroupMatch query m st = some l →
      l.Sublist (there (fun j => (vals j).key) [] es) ∧
      ∀ j, j ∈ l ↔ j ∈ there (fun j => (vals j).key) [] es ∧ Matches (p.vals j).repGroup query m ∧ ∀ s, st = some s → (p.vals j).state = s := by
  obtain ⟨p', h1, h2⟩ := ok_run _ es _ [] (ok_new ps vals)
  have : p' = p := by rw [hp] at h1; exact (Option.some.inj h1).symm
  subst this
  simp only [Pretend.getByRepGroupMatch]
  by_cases hq : query = []
  · simp [hq]
  · rw [if_neg hq]
    refine ⟨by simp [hq], ?_⟩
    intro l hl
    have hl2 := (Option.some.inj hl).symm
    rw [h2.read, filterMap_some_ite] at hl2
    subst hl2
    refine ⟨List.filter_sublist, fun j => ?_⟩
    rw [List.mem_filter, Bool.and_eq_true, C109_matches]
    rw [state_ok]

/-- C109: the incomplete jobs found, likewise; an empty report group stands for all. -/
theorem C109_incomplete (ps : Str) (vals : Nat → Job) (es : List Ev) (p : Pretend) (hp : run (newPretend ps vals) es = some p) (query : Str) (m : Match)
    (st : Option State) :
    (p.getIncomplete query m st).Sublist (there (fun j => (vals j).key) [] es) ∧
    ∀ j, j ∈ p.getIncomplete query m st ↔ j ∈ there (fun j => (vals j).key) [] es ∧ (query = [] ∨ Matches (p.vals j).repGroup query m) ∧
      (p.vals j).state ≠ .complete ∧ ∀ s, st = some s → (p.vals j).state = s := by
  obtain ⟨p', h1, h2⟩ := ok_run _ es _ [] (ok_new ps vals)
  have : p' = p := by rw [hp] at h1; exact (Option.some.inj h1).symm
  subst this
  have e : p'.getIncomplete query m st = (there (fun j => (vals j).key) [] es).filter fun j =>
      matchesIncompleteRepGroup (p'.vals j).repGroup query m && isIncompleteStateMatch (p'.vals j).state st := by
    rw [← filterMap_some_ite]
    simp only [Pretend.getIncomplete, h2.read]
    congr 1
    funext x
    congr 1
    funext j
    cases matchesIncompleteRepGroup (p'.vals j).repGroup query m <;> cases isIncompleteStateMatch (p'.vals j).state st <;> simp
  rw [e]
  refine ⟨List.filter_sublist, fun j => ?_⟩
  rw [List.mem_filter, Bool.and_eq_true]
  have a1 : matchesIncompleteRepGroup (p'.vals j).repGroup query m = true ↔ query = [] ∨ Matches (p'.vals j).repGroup query m := by
    unfold matchesIncompleteRepGroup
    by_cases hq : query = [] <;> simp [hq, C109_matches]
  have a2 : isIncompleteStateMatch (p'.vals j).state st = true ↔ (p'.vals j).state ≠ .complete ∧ ∀ s, st = some s → (p'.vals j).state = s := by
    unfold isIncompleteStateMatch
    by_cases hc : (p'.vals j).state = .complete
    · simp [hc]
    · rw [if_neg hc, state_ok]; simp [hc]
  rw [a1, a2]

/-- specification: the last end time of the complete jobs in the list that are in this group, if the group matches -/
def IsLast (vals : Nat → Job) (l : List Nat) (query : Str) (m : Match) (g : Str) : Option Nat → Prop
  | none => ¬ ∃ j ∈ l, (vals j).state = .complete ∧ (vals j).repGroup = g ∧ Matches g query m
  | some t => (∃ j ∈ l, (vals j).state = .complete ∧ (vals j).repGroup = g ∧ Matches g query m ∧ (vals j).endTime = t) ∧
      ∀ j ∈ l, (vals j).state = .complete → (vals j).repGroup = g → (vals j).endTime ≤ t

private theorem last_fold (vals : Nat → Job) (query : Str) (m : Match) (l : List Nat) : ∀ (seen : List Nat) (acc : Str → Option Nat),
    (∀ g, IsLast vals seen query m g (acc g)) → ∀ g, IsLast vals (seen ++ l) query m g ((l.map some).foldl (lastStep vals query m) acc g) := by
  induction l with
  | nil => intro seen acc h g; simpa using h g
  | cons j l ih =>
    intro seen acc h g
    have := ih (seen ++ [j]) (lastStep vals query m acc (some j)) ?_ g
    · simpa using this
    intro g
    have hg := h g
    have hm := C109_matches (vals j).repGroup query m
    simp only [lastStep]
    by_cases hc : (vals j).state = .complete
    · rw [if_neg (by simp [hc])]
      by_cases hmm : repGroupMatches (vals j).repGroup query m = true
      · rw [if_neg (by simp [hmm])]
        have hM := hm.1 hmm
        have hj := h (vals j).repGroup
        by_cases hgj : g = (vals j).repGroup
        · subst hgj
          rcases ha : acc (vals j).repGroup with _ | t
          · rw [ha] at hj
            simp only [if_true, IsLast]
            refine ⟨⟨j, by simp, hc, rfl, hM, rfl⟩, ?_⟩
            intro i hi hic hig
            simp only [List.mem_append, List.mem_singleton] at hi
            rcases hi with hi | hi
            · exact (hj ⟨i, hi, hic, hig, hM⟩).elim
            · subst hi; exact Nat.le_refl _
          · rw [ha] at hj
            obtain ⟨⟨i, hi, hic, hig, hiM, hit⟩, hall⟩ := hj
            simp only
            by_cases hlt : t < (vals j).endTime
            · simp only [if_pos hlt, if_true, IsLast]
              refine ⟨⟨j, by simp, hc, rfl, hM, rfl⟩, ?_⟩
              intro k hk hkc hkg
              simp only [List.mem_append, List.mem_singleton] at hk
              rcases hk with hk | hk
              · have := hall k hk hkc hkg; omega
              · subst hk; exact Nat.le_refl _
            · simp only [if_neg hlt, ha, IsLast]
              refine ⟨⟨i, by simp [hi], hic, hig, hiM, hit⟩, ?_⟩
              intro k hk hkc hkg
              simp only [List.mem_append, List.mem_singleton] at hk
              rcases hk with hk | hk
              · exact hall k hk hkc hkg
              · subst hk; omega
        · have key : IsLast vals (seen ++ [j]) query m g (acc g) := by
            rcases ha : acc g with _ | t
            · rw [ha] at hg
              rintro ⟨i, hi, hic, hig, hiM⟩
              simp only [List.mem_append, List.mem_singleton] at hi
              rcases hi with hi | hi
              · exact hg ⟨i, hi, hic, hig, hiM⟩
              · subst hi; exact hgj hig.symm
            · rw [ha] at hg
              obtain ⟨⟨i, hi, hr⟩, hall⟩ := hg
              refine ⟨⟨i, by simp [hi], hr⟩, ?_⟩
              intro k hk hkc hkg
              simp only [List.mem_append, List.mem_singleton] at hk
              rcases hk with hk | hk
              · exact hall k hk hkc hkg
              · subst hk; exact (hgj hkg.symm).elim
          rcases acc (vals j).repGroup with _ | t
          · simpa [hgj] using key
          · by_cases hlt : t < (vals j).endTime
            · simpa [hgj, hlt] using key
            · simpa [hlt] using key
      · rw [if_pos (by simpa using hmm)]
        have hM : ¬ Matches (vals j).repGroup query m := fun h => hmm (hm.2 h)
        rcases ha : acc g with _ | t
        · rw [ha] at hg
          rintro ⟨i, hi, hic, hig, hiM⟩
          simp only [List.mem_append, List.mem_singleton] at hi
          rcases hi with hi | hi
          · exact hg ⟨i, hi, hic, hig, hiM⟩
          · subst hi; subst hig; exact hM hiM
        · rw [ha] at hg
          obtain ⟨⟨i, hi, hic, hig, hiM, hit⟩, hall⟩ := hg
          refine ⟨⟨i, by simp [hi], hic, hig, hiM, hit⟩, ?_⟩
          intro k hk hkc hkg
          simp only [List.mem_append, List.mem_singleton] at hk
          rcases hk with hk | hk
          · exact hall k hk hkc hkg
          · subst hk; subst hkg; exact (hM hiM).elim
    · rw [if_pos hc]
      rcases ha : acc g with _ | t
      · rw [ha] at hg
        rintro ⟨i, hi, hic, hig, hiM⟩
        simp only [List.mem_append, List.mem_singleton] at hi
        rcases hi with hi | hi
        · exact hg ⟨i, hi, hic, hig, hiM⟩
        · subst hi; exact hc hic
      · rw [ha] at hg
        obtain ⟨⟨i, hi, hr⟩, hall⟩ := hg
        refine ⟨⟨i, by simp [hi], hr⟩, ?_⟩
        intro k hk hkc hkg
        simp only [List.mem_append, List.mem_singleton] at hk
        rcases hk with hk | hk
        · exact hall k hk hkc hkg
        · subst hk; exact (hc hkc).elim

/-- C109: the last completion time given for a group is that of the last of its complete jobs that are there. -/
theorem C109_last (ps : Str) (vals : Nat → Job) (es : List Ev) (p : Pretend) (hp : run (newPretend ps vals) es = some p) (query : Str) (m : Match) (g : Str) :
    IsLast p.vals (there (fun j => (vals j).key) [] es) query m g (p.getLast query m g) := by
  obtain ⟨p', h1, h2⟩ := ok_run _ es _ [] (ok_new ps vals)
  have : p' = p := by rw [hp] at h1; exact (Option.some.inj h1).symm
  subst this
  have := last_fold p'.vals query m (there (fun j => (vals j).key) [] es) [] (fun _ => none) (fun g => by simp [IsLast]) g
  simpa [Pretend.getLast, h2.read] using this

/-- the jobs of the cases below -/
private def vs : Nat → Job := fun j => ⟨j % 3, if j = 0 then "ab".toList else "bc".toList, .new, 0⟩

/-- Non-trivial cases: four jobs are submitted, two of them the same, one is removed, and one completes. -/
example : (run (newPretend "3".toList vs) [.submit [0, 1] 1, .submit [2, 4] 0, .remove [0], .change 2 .complete 7]).map
    (fun p => (elems p.mem p.submittedJobs, p.getByRepGroupMatch "b".toList .pre none, p.getIncomplete [] .exact none, p.getLast "c".toList .suf "bc".toList)) =
    some ([some 1, some 2, some 4], some [1, 2, 4], [1, 4], some 7) := by decide +kernel

private theorem submit_held (p : Pretend) (js : List Nat) (n : Nat) (s : Slice) (hs : s.arr < p.mem.length) (hb : p.buf.arr < p.mem.length)
    (hle : s.arr = p.buf.arr → s.len ≤ p.buf.len) (hcap : p.buf.len ≤ (arrAt p.mem p.buf.arr).length) :
    elems (p.add js n).mem s = elems p.mem s ∧ s.arr < (p.add js n).mem.length ∧ (p.add js n).buf.arr < (p.add js n).mem.length ∧
    (s.arr = (p.add js n).buf.arr → s.len ≤ (p.add js n).buf.len) ∧
    (p.add js n).buf.len ≤ (arrAt (p.add js n).mem (p.add js n).buf.arr).length := by
  simp only [Pretend.add, append]
  split
  · rename_i hc
    refine ⟨?_, by simpa using hs, by simpa using hb, fun h => Nat.le_trans (hle h) (by simp), ?_⟩
    · simp only [elems, mem_get_set _ _ _ _ hb]
      split
      · rename_i he
        have := hle he.symm
        rw [List.append_assoc, List.take_append_of_le_length (by simp; omega), List.take_take, he]
        congr 1; omega
      · rfl
    · simp only [mem_get_set _ _ _ _ hb, if_true]
      simp only [elems, List.length_append, List.length_map, List.length_take, List.length_drop] at hc ⊢
      omega
  · rename_i hc
    refine ⟨?_, by simp; omega, by simp, fun h => ?_, ?_⟩
    · simp only [elems, arrAt]; rw [List.getElem?_append_left hs]
    · simp only at h; omega
    · simp only [arrAt, List.getElem?_concat_length, Option.getD_some]
      simp only [elems, List.length_append, List.length_map, List.length_take, List.length_replicate, arrAt] at hcap ⊢
      omega

private theorem submits_held (subs : List (List Nat × Nat)) : ∀ (p q : Pretend) (s : Slice), s.arr < p.mem.length → p.buf.arr < p.mem.length →
    (s.arr = p.buf.arr → s.len ≤ p.buf.len) → p.buf.len ≤ (arrAt p.mem p.buf.arr).length →
    run p (subs.map fun x => .submit x.1 x.2) = some q → elems q.mem s = elems p.mem s := by
  induction subs with
  | nil => intro p q s _ _ _ _ h; simp [run] at h; rw [h]
  | cons x subs ih =>
    intro p q s h1 h2 h3 h4 h
    obtain ⟨a, b, c, d, e⟩ := submit_held p x.1 x.2 s h1 h2 h3 h4
    simp only [List.map_cons, run, step, Option.bind_some] at h
    rw [ih _ q s b c d e h, a]

/-- C109: a list of submitted jobs that the program got is not changed by later submissions. Missing: removals (below). -/
theorem C109_held_partial (ps : Str) (vals : Nat → Job) (es : List Ev) (p q : Pretend) (hp : run (newPretend ps vals) es = some p)
    (subs : List (List Nat × Nat)) (hq : run p (subs.map fun x => .submit x.1 x.2) = some q) :
    elems q.mem p.submittedJobs = elems p.mem p.submittedJobs := by
  obtain ⟨p', h1, h2⟩ := ok_run _ es _ [] (ok_new ps vals)
  have : p' = p := by rw [hp] at h1; exact (Option.some.inj h1).symm
  subst this
  exact submits_held subs p' q _ h2.arr h2.arr (fun _ => Nat.le_refl _) h2.cap hq

/-- The code violates C109: removing a job changes a list of submitted jobs got earlier: it now ends with nil. -/
theorem C109_violated_held : ∃ (vals : Nat → Job) (es : List Ev) (p q : Pretend), run (newPretend "Y".toList vals) es = some p ∧
    elems p.mem p.submittedJobs = [some 0, some 1, some 2] ∧ run p [.remove [0]] = some q ∧ elems q.mem p.submittedJobs = [some 1, some 2, none] :=
  ⟨vs, [.submit [0, 1, 2] 0], _, _, rfl, by decide +kernel, rfl, by decide +kernel⟩

/-- C109: a program that disconnects from the pretend server does not panic if `PretendSubmissions` is a number, and does otherwise. -/
theorem C109_disconnect_partial (ps : Str) (vals : Nat → Job) (es : List Ev) (p : Pretend) (hp : run (newPretend ps vals) es = some p) :
    p.disconnect = none ↔ isUint ps = false := by
  have key : ∀ (es : List Ev) (p q : Pretend), run p es = some q → q.output = p.output := by
    intro es
    induction es with
    | nil => intro p q h; simp [run] at h; rw [h]
    | cons e es ih =>
      intro p q h
      simp only [run] at h
      rcases hs : step p e with _ | p1
      · simp [hs] at h
      · rw [hs] at h
        rw [ih p1 q h]
        cases e with
        | submit js n => simp only [step, Option.some.injEq] at hs; subst hs; rfl
        | change j st t => simp only [step, Option.some.injEq] at hs; subst hs; rfl
        | remove ks =>
          simp only [step, Pretend.remove] at hs
          split at hs
          · cases hs
          · simp only [Option.some.injEq] at hs; subst hs; rfl
  have h := key es _ p hp
  have h2 : (newPretend ps vals).output = isUint ps := rfl
  unfold Pretend.disconnect
  rw [h, h2]
  cases isUint ps <;> simp

/-- The code violates C109: with `PretendSubmissions` set to the value that its documentation gives, "Y", disconnecting panics. -/
theorem C109_violated_disconnect (vals : Nat → Job) : (newPretend "Y".toList vals).disconnect = none := rfl

example : isUint "3".toList = true ∧ isUint "-3".toList = false := by decide +kernel

/-! ## NewJob -/

/-- specification: the value of an entry of the map `Other` of requirements -/
def entry (h : Heap) (r : Nat) (k : String) : Option String :=
  (h.reqs[r]?).bind fun q => q.other.bind fun o => (h.maps[o]?).bind fun m => get m k

/-- specification: the numbers in requirements -/
def amounts (h : Heap) (r : Nat) : Option (Nat × Nat × Nat × Nat) := (h.reqs[r]?).map fun q => (q.ram, q.time, q.cores, q.disk)

/-- specification: all pointers are to something -/
def Sound (h : Heap) : Prop := ∀ q ∈ h.reqs, ∀ o, q.other = some o → o < h.maps.length

private theorem get_put (m : List (String × String)) (k v k' : String) : get (put m k v) k' = if k' = k then some v else get m k' := by
  unfold get put
  by_cases h : k' = k
  · subst h; simp
  · have h' : ¬ k = k' := fun e => h e.symm
    simp only [List.find?_cons, beq_iff_eq, h', h, if_false]
    have : (k == k') = false := by simpa using h'
    simp only [this]
    congr 1
    induction m with
    | nil => rfl
    | cons x m ih =>
      simp only [List.filter_cons]
      by_cases hx : x.1 = k
      · have : (x.1 == k') = false := by rw [hx]; simpa using h'
        simp [hx, ih, List.find?_cons, h']
      · simp only [bne_iff_ne, ne_eq, hx, not_false_eq_true, if_true, List.find?_cons, ih]

private theorem set_spec (h : Heap) (r : Nat) (k v : String) (hr : r < h.reqs.length) (hs : Sound h) :
    Sound (h.setOther r k v) ∧ (h.setOther r k v).reqs.length = h.reqs.length ∧ (∀ i, amounts (h.setOther r k v) i = amounts h i) ∧
    (∀ k', entry (h.setOther r k v) r k' = if k' = k then some v else entry h r k') ∧
    (∀ i, entry h i k = some v → ∀ k', entry (h.setOther r k v) i k' = entry h i k') := by
  have hq : h.reqs[r]? = some h.reqs[r] := List.getElem?_eq_getElem hr
  rcases ho : h.reqs[r].other with _ | o
  · have e : h.setOther r k v = { reqs := h.reqs.set r { h.reqs[r] with other := some h.maps.length }, maps := h.maps ++ [put [] k v] } := by
      simp only [Heap.setOther, hq, ho]
    rw [e]
    refine ⟨?_, by simp, ?_, ?_, ?_⟩
    · intro q hq' o' ho'
      simp only [List.length_append, List.length_cons, List.length_nil]
      rcases List.mem_or_eq_of_mem_set hq' with hm | hm
      · have := hs q hm o' ho'; omega
      · subst hm; simp at ho'; omega
    · intro i
      simp only [amounts, List.getElem?_set]
      by_cases hi : r = i
      · subst hi; simp [hr]
      · simp [hi]
    · intro k'
      simp only [entry, List.getElem?_set_self hr, Option.bind_some, List.getElem?_concat_length, get_put, hq, ho]
      simp [get]
    · intro i hi k'
      have hne : r ≠ i := by
        rintro rfl; simp [entry, hq, ho] at hi
      simp only [entry, List.getElem?_set_ne hne]
      rcases hx : h.reqs[i]? with _ | q
      · rfl
      · simp only [Option.bind_some]
        rcases hy : q.other with _ | o'
        · rfl
        · simp only [Option.bind_some]
          have := hs q (List.mem_of_getElem? hx) o' hy
          rw [List.getElem?_append_left this]
  · have hlt : o < h.maps.length := hs _ (List.getElem_mem hr) o ho
    have hm : h.maps[o]? = some h.maps[o] := List.getElem?_eq_getElem hlt
    have e : h.setOther r k v = { h with maps := h.maps.set o (put h.maps[o] k v) } := by
      simp only [Heap.setOther, hq, ho, hm, Option.getD_some]
    rw [e]
    refine ⟨?_, rfl, fun _ => rfl, ?_, ?_⟩
    · intro q hq' o' ho'; simpa using hs q hq' o' ho'
    · intro k'
      simp only [entry, hq, Option.bind_some, ho, List.getElem?_set_self hlt, get_put, hm]
    · intro i hi k'
      simp only [entry] at hi ⊢
      rcases hx : h.reqs[i]? with _ | q
      · rfl
      · simp only [Option.bind_some]
        rcases hy : q.other with _ | o'
        · rfl
        · simp only [Option.bind_some]
          by_cases hoo : o = o'
          · subst hoo
            rw [List.getElem?_set_self hlt, hm]
            simp only [hx, hy, hm, Option.bind_some] at hi
            simp only [Option.bind_some, get_put]
            split
            · rename_i hk; rw [hk, hi]
            · rfl
          · rw [List.getElem?_set_ne hoo]

/-- the requirements that `NewJob` starts from: those given, or new ones -/
private def base (h : Heap) : Option Nat → Heap × Nat
  | some r => (h, r)
  | none => ({ h with reqs := h.reqs ++ [{ ram := 100, time := 10, cores := 1, disk := 1, other := none }] }, h.reqs.length)

/-- specification: what entry `k` of `Other` should be for a job of this scheduler, if it was `old` -/
def Wanted (s : Sched) (k : String) (old : Option String) : Option String :=
  if k = "scheduler_queue" ∧ s.queue ≠ "" then some s.queue
  else if k = "scheduler_queues_avoid" ∧ s.queuesAvoid ≠ "" then some s.queuesAvoid else old

private theorem det_spec (s : Sched) (h : Heap) (req : Option Nat) (hs : Sound h) (hr : ∀ r, req = some r → r < h.reqs.length) :
    (determineOverrideAndReq s h req).2.1 = (base h req).2 ∧ Sound (determineOverrideAndReq s h req).1 ∧
    (determineOverrideAndReq s h req).1.reqs.length = (base h req).1.reqs.length ∧
    (∀ i, amounts (determineOverrideAndReq s h req).1 i = amounts (base h req).1 i) ∧
    (∀ k, entry (determineOverrideAndReq s h req).1 (base h req).2 k = Wanted s k (entry (base h req).1 (base h req).2 k)) ∧
    (∀ i, (s.queue ≠ "" → entry (base h req).1 i "scheduler_queue" = some s.queue) →
      (s.queuesAvoid ≠ "" → entry (base h req).1 i "scheduler_queues_avoid" = some s.queuesAvoid) →
      ∀ k, entry (determineOverrideAndReq s h req).1 i k = entry (base h req).1 i k) := by
  have hbase : Sound (base h req).1 ∧ (base h req).2 < (base h req).1.reqs.length := by
    cases req with
    | some r => exact ⟨hs, hr r rfl⟩
    | none =>
      refine ⟨?_, by simp [base]⟩
      intro q hq o ho
      simp only [base, List.mem_append, List.mem_singleton] at hq
      rcases hq with hq | hq
      · exact hs q hq o ho
      · subst hq; simp at ho
  have hov : (determineOverrideAndReq s h req).2.1 = (base h req).2 := by cases req <;> rfl
  have e : (determineOverrideAndReq s h req).1 =
      (if s.queuesAvoid ≠ "" then (if s.queue ≠ "" then (base h req).1.setOther (base h req).2 "scheduler_queue" s.queue else (base h req).1).setOther
          (base h req).2 "scheduler_queues_avoid" s.queuesAvoid
        else (if s.queue ≠ "" then (base h req).1.setOther (base h req).2 "scheduler_queue" s.queue else (base h req).1)) := by
    cases req <;> rfl
  refine ⟨hov, ?_⟩
  rw [e]
  obtain ⟨hs0, hr0⟩ := hbase
  revert hs0 hr0
  generalize (base h req).1 = g
  generalize (base h req).2 = r
  intro hs0 hr0
  obtain ⟨a1, a2, a3, a4, a5⟩ := set_spec g r "scheduler_queue" s.queue hr0 hs0
  by_cases hq : s.queue = ""
  · simp only [hq, ne_eq, not_true_eq_false, if_false, not_false_eq_true, false_implies]
    by_cases ha : s.queuesAvoid = ""
    · simp [ha, Wanted, hq, hs0]
    · obtain ⟨b1, b2, b3, b4, b5⟩ := set_spec g r "scheduler_queues_avoid" s.queuesAvoid hr0 hs0
      simp only [ha, if_true, ne_eq, not_false_eq_true]
      refine ⟨b1, b2, b3, ?_, ?_⟩
      · intro k; rw [b4 k]; simp [Wanted, hq, ha]
      · intro i _ h2 k; exact b5 i (h2 trivial) k
  · simp only [hq, ne_eq, not_false_eq_true, if_true, true_implies]
    by_cases ha : s.queuesAvoid = ""
    · simp only [ha, not_true_eq_false, if_false, ne_eq]
      refine ⟨a1, a2, a3, ?_, ?_⟩
      · intro k; rw [a4 k]; simp [Wanted, hq, ha]
      · intro i h1 _ k; exact a5 i h1 k
    · obtain ⟨b1, b2, b3, b4, b5⟩ := set_spec _ r "scheduler_queues_avoid" s.queuesAvoid (by rw [a2]; exact hr0) a1
      simp only [ha, if_true, ne_eq, not_false_eq_true]
      refine ⟨b1, by rw [b2, a2], fun i => by rw [b3, a3], ?_, ?_⟩
      · intro k
        rw [b4 k, a4 k]
        unfold Wanted
        by_cases h1 : k = "scheduler_queue"
        · subst h1; simp [hq]
        · simp [h1, ha]
      · intro i h1 h2 k
        have e1 := a5 i h1
        rw [b5 i (by rw [e1]; exact h2 trivial) k, e1]

/-- C109: what `NewJob` makes: the command (with sudo if asked for), the scheduler's directory, which matters, the groups given, the amounts given or
the default ones, and the scheduler's queues in `Other`, whose other entries are as given. -/
theorem C109_newjob_partial (s : Sched) (h : Heap) (hs : Sound h) (cmd repGroup reqGroup depGroup dep : String) (req : Option Nat)
    (hr : ∀ r, req = some r → r < h.reqs.length) (h' : Heap) (j : NewJob) (hj : newJob s h cmd repGroup reqGroup depGroup dep req = (h', j)) :
    Sound h' ∧ j.req < h'.reqs.length ∧ j.cmd = (if s.sudo then "sudo " ++ cmd else cmd) ∧ j.cwd = s.cwd ∧ j.cwdMatters = true ∧
    j.repGroup = repGroup ∧ j.reqGroup = reqGroup ∧
    j.depGroups = (if depGroup = "" then [] else [depGroup]) ∧ j.dependencies = (if dep = "" then [] else [dep]) ∧
    (∀ r, req = some r → j.override = 1 ∧ amounts h' j.req = amounts h r ∧ ∀ k, entry h' j.req k = Wanted s k (entry h r k)) ∧
    (req = none → j.override = 0 ∧ amounts h' j.req = some (100, 10, 1, 1) ∧ ∀ k, entry h' j.req k = Wanted s k none) := by
  obtain ⟨d1, d2, d3, d4, d5, d6⟩ := det_spec s h req hs hr
  simp only [newJob, Prod.mk.injEq] at hj
  obtain ⟨rfl, rfl⟩ := hj
  simp only
  rw [d1]
  refine ⟨d2, ?_, trivial, trivial, trivial, trivial, trivial, by split <;> simp_all, by split <;> simp_all, ?_, ?_⟩
  · rw [d3]; cases req with
    | some r => exact hr r rfl
    | none => simp [base]
  · rintro r rfl
    exact ⟨rfl, d4 r, fun k => d5 k⟩
  · rintro rfl
    refine ⟨rfl, ?_, fun k => ?_⟩
    · rw [d4]; simp [base, amounts]
    · rw [d5 k]; congr 1; simp [base, entry]

/-- a call of `NewJob`; the groups do not matter here -/
abbrev Call := String × Option Nat

/-- many calls of one scheduler -/
def newJobs (s : Sched) (h : Heap) : List Call → Heap
  | [] => h
  | c :: cs => newJobs s (newJob s h c.1 "" "" "" "" c.2).1 cs

/-- C109: what a job needs is not changed by making more jobs with the same scheduler, whatever requirements are given for them.
Missing: other schedulers (below). -/
theorem C109_kept_partial (s : Sched) (h : Heap) (hs : Sound h) (cmd repGroup reqGroup depGroup dep : String) (req : Option Nat)
    (hr : ∀ r, req = some r → r < h.reqs.length) (h' : Heap) (j : NewJob) (hj : newJob s h cmd repGroup reqGroup depGroup dep req = (h', j))
    (cs : List Call) (hc : ∀ c ∈ cs, ∀ r, c.2 = some r → r < h'.reqs.length) :
    amounts (newJobs s h' cs) j.req = amounts h' j.req ∧ ∀ k, entry (newJobs s h' cs) j.req k = entry h' j.req k := by
  obtain ⟨e1, e2, -, -, -, -, -, -, -, e3, e4⟩ := C109_newjob_partial s h hs cmd repGroup reqGroup depGroup dep req hr h' j hj
  have hw : ∀ k, ∃ old, entry h' j.req k = Wanted s k old := by
    intro k
    cases req with
    | some r => exact ⟨_, (e3 r rfl).2.2 k⟩
    | none => exact ⟨_, (e4 rfl).2.2 k⟩
  clear hj e3 e4 hr hs
  induction cs generalizing h' with
  | nil => exact ⟨rfl, fun _ => rfl⟩
  | cons c cs ih =>
    obtain ⟨d1, d2, d3, d4, d5, d6⟩ := det_spec s h' c.2 e1 (fun r hr => hc c (by simp) r hr)
    have hlen : h'.reqs.length ≤ (base h' c.2).1.reqs.length := by
      cases c.2 <;> simp [base]
    have hb : amounts (base h' c.2).1 j.req = amounts h' j.req ∧ ∀ k, entry (base h' c.2).1 j.req k = entry h' j.req k := by
      cases c.2 with
      | some r => exact ⟨rfl, fun _ => rfl⟩
      | none => simp only [base, amounts, entry]; rw [List.getElem?_append_left e2]; exact ⟨rfl, fun _ => rfl⟩
    have hk : ∀ k, entry (newJob s h' c.1 "" "" "" "" c.2).1 j.req k = entry h' j.req k := by
      intro k
      simp only [newJob]
      rw [d6 j.req ?_ ?_ k, hb.2]
      · intro hq; rw [hb.2]; obtain ⟨o, ho⟩ := hw "scheduler_queue"; rw [ho]; simp [Wanted, hq]
      · intro hq; rw [hb.2]; obtain ⟨o, ho⟩ := hw "scheduler_queues_avoid"; rw [ho]; simp [Wanted, hq]
    have ha : amounts (newJob s h' c.1 "" "" "" "" c.2).1 j.req = amounts h' j.req := by
      simp only [newJob]; rw [d4, hb.1]
    have hl : h'.reqs.length ≤ (newJob s h' c.1 "" "" "" "" c.2).1.reqs.length := by
      simp only [newJob]; rw [d3]; exact hlen
    obtain ⟨i1, i2⟩ := ih (newJob s h' c.1 "" "" "" "" c.2).1 (fun c' hc' r hr => by have := hc c' (by simp [hc']) r hr; omega) d2 (by omega)
      (fun k => by rw [hk k]; exact hw k)
    simp only [newJobs]
    exact ⟨by rw [i1, ha], fun k => by rw [i2, hk]⟩

/-- Non-trivial cases: one set of requirements is used for two jobs of a scheduler with a queue. -/
example : Sound ⟨[⟨500, 60, 2, 0, some 0⟩], [[("cloud_os", "ubuntu")]]⟩ := by
  intro q hq o ho; simp at hq; subst hq; simp at ho; subst ho; decide
example : let r := newJob { cwd := "/", queue := "long", sudo := true } ⟨[⟨500, 60, 2, 0, some 0⟩], [[("cloud_os", "ubuntu")]]⟩ "ls" "a" "b" "" "d" (some 0)
    r.2.cmd = "sudo ls" ∧ entry r.1 0 "scheduler_queue" = some "long" ∧ entry r.1 0 "cloud_os" = some "ubuntu" := by decide +kernel

/-- The code violates C109: making a job with another scheduler changes the queue of a job made before from the same requirements. -/
theorem C109_violated_shared : ∃ (s s' : Sched) (h : Heap), Sound h ∧
    entry (newJob s h "a" "" "" "" "" (some 0)).1 (newJob s h "a" "" "" "" "" (some 0)).2.req "scheduler_queue" = some "long" ∧
    entry (newJob s' (newJob s h "a" "" "" "" "" (some 0)).1 "b" "" "" "" "" (some 0)).1 (newJob s h "a" "" "" "" "" (some 0)).2.req "scheduler_queue" =
      some "short" :=
  ⟨{ cwd := "/", queue := "long" }, { cwd := "/", queue := "short" }, ⟨[⟨500, 60, 2, 0, none⟩], []⟩,
    by intro q hq o ho; simp at hq; subst hq; simp at ho, by decide +kernel, by decide +kernel⟩

/-- The code violates C109: the documentation of `NewJob` says that the job has 3 retries; it has 30. -/
theorem C109_violated_retries (s : Sched) (h : Heap) (cmd repGroup reqGroup depGroup dep : String) (req : Option Nat) :
    (newJob s h cmd repGroup reqGroup depGroup dep req).2.retries = 30 := rfl

end Verif.Client.Library
