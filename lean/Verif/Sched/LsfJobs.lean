import Verif.Sched.Lsf

/-!
# LSF: property C76, the jobs that `Schedule` leaves in LSF

Between the listing of the jobs, bkill and bsub nothing happens to the jobs in this model; the code's comment (lsf.go:754-765)
accepts the race.
-/
namespace Verif.Sched.Lsf

namespace Spec

/-- a job of the command (or of any command, for the shorter prefix) that has not ended -/
def Mine (pre : List Char) (j : Job) : Prop := j.stat ≠ "EXIT".toList ∧ j.stat ≠ "DONE".toList ∧ pre <+: j.name

def Running (j : Job) : Prop := j.stat = "RUN".toList

instance (pre : List Char) (j : Job) : Decidable (Mine pre j) := inferInstanceAs (Decidable (_ ∧ _ ∧ _))
instance (j : Job) : Decidable (Running j) := inferInstanceAs (Decidable (_ = _))

/-- how many jobs of the command there are -/
def live (pre : List Char) (js : List Job) : Nat := (js.filter fun j => decide (Mine pre j)).length

/-- how many of those run -/
def running (pre : List Char) (js : List Job) : Nat := (js.filter fun j => decide (Mine pre j) && decide (Running j)).length

end Spec

/-- What LSF shows: ids and indices are digits, no two jobs are called the same, and a job name that is not that of an array
element does not end like one. -/
structure Shown (js : List Job) : Prop where
  id : ∀ j ∈ js, ∀ c ∈ j.id, c.isDigit = true
  idx : ∀ j ∈ js, ∀ i, j.idx = some i → i ≠ [] ∧ ∀ c ∈ i, c.isDigit = true
  base : ∀ j ∈ js, j.base.getLast? ≠ some ']'
  uniq : (js.map Job.target).Nodup

theorem takeWhile_digits (ds rest : List Char) (h : ∀ c ∈ ds, c.isDigit = true) :
    (ds ++ '[' :: rest).takeWhile Char.isDigit = ds ∧ (ds ++ '[' :: rest).dropWhile Char.isDigit = '[' :: rest := by
  induction ds with
  | nil => simp
  | cons d ds ih =>
    have hd := h d (by simp)
    have ih' := ih fun c hc => h c (List.mem_cons_of_mem _ hc)
    simp [hd, ih'.1, ih'.2]

theorem arrayIndex_some (base i : List Char) (hne : i ≠ []) (h : ∀ c ∈ i, c.isDigit = true) :
    arrayIndex (base ++ '[' :: i ++ [']']) = some i := by
  have e : (base ++ '[' :: i ++ [']']).reverse = ']' :: (i.reverse ++ '[' :: base.reverse) := by simp
  have hw := takeWhile_digits i.reverse base.reverse (fun c hc => h c (by simpa using hc))
  unfold arrayIndex
  rw [e]
  simp only [hw.1, hw.2]
  rw [if_neg (by simpa using hne)]
  simp

theorem arrayIndex_none (base : List Char) (h : base.getLast? ≠ some ']') : arrayIndex base = none := by
  unfold arrayIndex
  split
  · rename_i rest e
    exfalso
    apply h
    have : base = rest.reverse ++ [']'] := by
      have := congrArg List.reverse e
      simpa using this
    rw [this]
    simp
  · rfl

theorem killID_line (inID : Bool) (j : Job) (hid : ∀ c ∈ j.id, c.isDigit = true)
    (hidx : ∀ i, j.idx = some i → i ≠ [] ∧ ∀ c ∈ i, c.isDigit = true) (hb : j.base.getLast? ≠ some ']') :
    killID (j.line inID) = if j.idx.isSome then some j.target else none := by
  have hdig : j.id.getLast? ≠ some ']' := by
    intro h
    have hm : ']' ∈ j.id := List.mem_of_getLast? h
    have := hid _ hm
    exact absurd this (by decide)
  cases hi : j.idx with
  | none =>
    have ht : j.target = j.id := by simp [Job.target, hi]
    have hl : (j.line inID).jobID = j.id := by simp [Job.line, ht]
    have hn : (j.line inID).name = j.base := by simp [Job.line, Job.name, hi]
    unfold killID
    rw [hl, hn, if_neg hdig, arrayIndex_none _ hb]
    simp
  | some i =>
    have hii := hidx i hi
    have hn : (j.line inID).name = j.base ++ '[' :: i ++ [']'] := by simp [Job.line, Job.name, hi]
    have ht : j.target = j.id ++ '[' :: i ++ [']'] := by simp [Job.target, hi]
    unfold killID
    cases inID with
    | true =>
      have hl : (j.line true).jobID = j.target := by simp [Job.line]
      rw [hl, if_pos (by rw [ht, List.getLast?_append]; simp)]
      simp
    | false =>
      have hl : (j.line false).jobID = j.id := by simp [Job.line]
      rw [hl, hn, if_neg hdig, arrayIndex_some _ _ hii.1 hii.2, ht]
      simp

/-- the jobs that the loop puts aside, and the count it ends with -/
def sel (lim : Nat) : List Job → Nat → List Job × Nat
  | [], n => ([], n)
  | j :: js, n =>
    if n + 1 > lim ∧ ¬ j.stat = "RUN".toList then (j :: (sel lim js n).1, (sel lim js n).2)
    else sel lim js (n + 1)

theorem checkLoop_sel (inID : Bool) (lim : Nat) : ∀ (js : List Job) (n : Nat) (ks : List (List Char)),
    (∀ j ∈ js, killID (j.line inID) = if j.idx.isSome then some j.target else none) →
    checkLoop lim (js.map (Job.line inID)) n ks =
      ((sel lim js n).2, ks ++ ((sel lim js n).1.filter fun j => j.idx.isSome).map Job.target)
  | [], n, ks, _ => by simp [checkLoop, sel]
  | j :: js, n, ks, h => by
    have ih := fun n ks => checkLoop_sel inID lim js n ks fun x hx => h x (List.mem_cons_of_mem _ hx)
    have hs : (j.line inID).stat = j.stat := rfl
    simp only [List.map_cons, checkLoop, hs, sel]
    split
    · rw [ih, h j (by simp)]
      cases hi : j.idx.isSome <;> simp [hi]
    · rw [ih]

theorem sel_sublist (lim : Nat) : ∀ (js : List Job) (n : Nat), (sel lim js n).1.Sublist js
  | [], n => by simp [sel]
  | j :: js, n => by
    unfold sel
    split
    · exact (sel_sublist lim js n).cons₂ j
    · exact (sel_sublist lim js (n + 1)).cons j

theorem sel_notrun (lim : Nat) : ∀ (js : List Job) (n : Nat), ∀ j ∈ (sel lim js n).1, ¬ Spec.Running j
  | [], n, j, h => by simp [sel] at h
  | x :: js, n, j, h => by
    unfold sel at h
    split at h
    · rename_i hx
      rcases List.mem_cons.1 h with rfl | h
      · exact hx.2
      · exact sel_notrun lim js n j h
    · exact sel_notrun lim js (n + 1) j h

theorem sel_count (lim : Nat) : ∀ (js : List Job) (n : Nat), (sel lim js n).2 + (sel lim js n).1.length = n + js.length
  | [], n => by simp [sel]
  | j :: js, n => by
    unfold sel
    split
    · have := sel_count lim js n
      simp only [List.length_cons]
      omega
    · have := sel_count lim js (n + 1)
      simp only [List.length_cons]
      omega

/-- the count is not above `lim` but for running jobs -/
theorem sel_le (lim : Nat) : ∀ (js : List Job) (n : Nat),
    (sel lim js n).2 ≤ max n lim + (js.filter fun j => decide (Spec.Running j)).length
  | [], n => by simp [sel]; exact Nat.le_max_left n lim
  | j :: js, n => by
    unfold sel
    by_cases hr : Spec.Running j
    · have hr' : j.stat = "RUN".toList := hr
      rw [if_neg (by simp [hr'])]
      have := sel_le lim js (n + 1)
      simp only [List.filter_cons, hr, decide_true, if_true, List.length_cons]
      have : max (n + 1) lim ≤ max n lim + 1 := by
        omega
      omega
    · simp only [List.filter_cons, hr, decide_false]
      split
      · exact sel_le lim js n
      · rename_i hx
        have hr' : ¬ j.stat = "RUN".toList := hr
        have hlt : n + 1 ≤ lim := by
          simp only [hr', not_false_iff, and_true] at hx
          omega
        have := sel_le lim js (n + 1)
        have e1 : max (n + 1) lim = lim := Nat.max_eq_right hlt
        have e2 : max n lim = lim := Nat.max_eq_right (by omega)
        rw [e1] at this
        rw [e2]
        exact this

/-- if the running jobs are listed first, the count is exactly this -/
theorem sel_first (lim : Nat) : ∀ (js : List Job) (n : Nat),
    js.Pairwise (fun a b => Spec.Running b → Spec.Running a) →
    (sel lim js n).2 = max (n + (js.filter fun j => decide (Spec.Running j)).length) (min lim (n + js.length)) ∨
      lim < n ∧ (sel lim js n).2 = n + (js.filter fun j => decide (Spec.Running j)).length
  | [], n, _ => by
    left
    simp [sel]
    exact (Nat.max_eq_left (Nat.min_le_right _ _)).symm
  | j :: js, n, hp => by
    have hp' := List.pairwise_cons.1 hp
    unfold sel
    by_cases hr : Spec.Running j
    · have hr' : j.stat = "RUN".toList := hr
      rw [if_neg (by simp [hr'])]
      have ih := sel_first lim js (n + 1) hp'.2
      simp only [List.filter_cons, hr, decide_true, if_true, List.length_cons]
      generalize (js.filter fun j => decide (Spec.Running j)).length = k at ih ⊢
      rcases ih with h | h
      · left; omega
      · by_cases hm : lim < n
        · right; omega
        · left; omega
    · have hnone : js.filter (fun j => decide (Spec.Running j)) = [] := by
        rw [List.filter_eq_nil_iff]
        intro x hx
        simp only [decide_eq_true_eq]
        exact fun h => hr (hp'.1 x hx h)
      have hr' : ¬ j.stat = "RUN".toList := hr
      simp only [List.filter_cons, hr, decide_false]
      split
      · rename_i hx
        have ih := sel_first lim js n hp'.2
        rw [hnone] at ih ⊢
        simp only [Bool.false_eq_true, if_false, List.length_nil, List.length_cons] at ih ⊢
        have := sel_count lim js n
        rcases ih with h | h
        · by_cases hm : lim < n
          · right; omega
          · left; omega
        · right; omega
      · rename_i hx
        have hlt : n + 1 ≤ lim := by
          simp only [hr', not_false_iff, and_true] at hx
          omega
        have ih := sel_first lim js (n + 1) hp'.2
        rw [hnone] at ih ⊢
        simp only [Bool.false_eq_true, if_false, List.length_nil, List.length_cons] at ih ⊢
        rcases ih with h | h
        · left; omega
        · omega

/-- the listed jobs of the command -/
def mine (pre : List Char) (js : List Job) : List Job := js.filter fun j => decide (Spec.Mine pre j)

theorem passed_line (inID : Bool) (pre : List Char) (j : Job) : passed pre (j.line inID) = decide (Spec.Mine pre j) := by
  unfold passed
  have e1 : (j.line inID).stat = j.stat := rfl
  have e2 : (j.line inID).name = j.name := rfl
  rw [e1, e2, Bool.eq_iff_iff, decide_eq_true_iff]
  simp [Spec.Mine, and_assoc, -String.reduceToList]

theorem checkCmd_sel (inID : Bool) (pre : List Char) (lim : Nat) (js : List Job) (h : Shown js) :
    checkCmd pre lim (js.map (Job.line inID)) =
      ((sel lim (mine pre js) 0).2, ((sel lim (mine pre js) 0).1.filter fun j => j.idx.isSome).map Job.target) := by
  unfold checkCmd
  rw [List.filter_map]
  have e : (passed pre ∘ Job.line inID) = fun j => decide (Spec.Mine pre j) := by
    funext j; exact passed_line inID pre j
  rw [e]
  have := checkLoop_sel inID lim (mine pre js) 0 [] (by
    intro j hj
    have hj' : j ∈ js := (List.mem_filter.1 hj).1
    exact killID_line inID j (h.id j hj') (h.idx j hj') (h.base j hj'))
  rw [List.nil_append] at this
  exact this

theorem target_inj (js : List Job) (h : (js.map Job.target).Nodup) : ∀ a ∈ js, ∀ b ∈ js, a.target = b.target → a = b := by
  induction js with
  | nil => intro a ha; simp at ha
  | cons x l ih =>
    intro a ha b hb hab
    have hn' := List.nodup_cons.1 h
    rcases List.mem_cons.1 ha with rfl | ha' <;> rcases List.mem_cons.1 hb with rfl | hb'
    · rfl
    · exact absurd (List.mem_map.2 ⟨b, hb', hab.symm⟩) hn'.1
    · exact absurd (List.mem_map.2 ⟨a, ha', hab⟩) hn'.1
    · exact ih hn'.2 a ha' b hb' hab

/-- the ids bkill is called with are those of the jobs put aside that are array elements -/
theorem killed_iff (pre : List Char) (lim : Nat) (js : List Job) (h : Shown js) (j : Job) (hj : j ∈ js) :
    j.target ∈ ((sel lim (mine pre js) 0).1.filter fun j => j.idx.isSome).map Job.target ↔
      j ∈ (sel lim (mine pre js) 0).1 ∧ j.idx.isSome = true := by
  constructor
  · intro hm
    obtain ⟨x, hx, hxt⟩ := List.mem_map.1 hm
    have hx' := List.mem_filter.1 hx
    have hxj : x ∈ js := (List.mem_filter.1 ((sel_sublist lim _ 0).subset hx'.1)).1
    have := target_inj js h.uniq x hxj j hj hxt
    subst this
    exact hx'
  · intro hm
    exact List.mem_map.2 ⟨j, List.mem_filter.2 hm, rfl⟩

/-- C76: a job that is gone after `Schedule` was one of the command's, and was not running. -/
theorem C76_kill (inID : Bool) (pre : List Char) (count : Nat) (js : List Job) (h : Shown js) (j : Job) (hj : j ∈ js)
    (hgone : j ∉ (schedule inID pre count js).1) : Spec.Mine pre j ∧ ¬ Spec.Running j := by
  unfold schedule at hgone
  rw [checkCmd_sel inID pre count js h] at hgone
  simp only [bkill, List.mem_filter, hj, true_and, Bool.not_eq_true', Bool.not_eq_false] at hgone
  rw [List.contains_iff_mem, killed_iff pre count js h j hj] at hgone
  refine ⟨?_, sel_notrun count _ 0 j hgone.1⟩
  simpa using (List.mem_filter.1 ((sel_sublist count _ 0).subset hgone.1)).2

/-- C76: no job appears from nowhere, and those that are left are unchanged. -/
theorem C76_left (inID : Bool) (pre : List Char) (count : Nat) (js : List Job) :
    (schedule inID pre count js).1.Sublist js := by
  unfold schedule bkill
  exact List.filter_sublist

theorem live_after (inID : Bool) (pre : List Char) (count : Nat) (js : List Job) (h : Shown js) :
    Spec.live pre (schedule inID pre count js).1 =
      (sel count (mine pre js) 0).2 + ((sel count (mine pre js) 0).1.filter fun j => !j.idx.isSome).length := by
  have hsub := sel_sublist count (mine pre js) 0
  have hmine : (mine pre js).Nodup := by
    have : (js.map Job.target).Nodup := h.uniq
    have hjs : js.Nodup := by
      refine List.Pairwise.imp ?_ (List.pairwise_map.1 this)
      intro a b hab e
      exact hab (congrArg Job.target e)
    exact hjs.sublist List.filter_sublist
  unfold schedule Spec.live
  rw [checkCmd_sel inID pre count js h]
  simp only [bkill]
  rw [List.filter_filter]
  have e1 : (js.filter fun j => decide (Spec.Mine pre j) &&
      !(((sel count (mine pre js) 0).1.filter fun j => j.idx.isSome).map Job.target).contains j.target) =
      (mine pre js).filter fun j => !decide (j ∈ (sel count (mine pre js) 0).1 ∧ j.idx.isSome = true) := by
    unfold mine
    rw [List.filter_filter]
    apply List.filter_congr
    intro j hj
    have hk := killed_iff pre count js h j hj
    unfold mine at hk
    rw [Bool.and_comm]
    congr 2
    rw [Bool.eq_iff_iff, List.contains_iff_mem, hk]
    simp
  rw [e1]
  have hc := sel_count count (mine pre js) 0
  have hsplit := (List.filter_append_perm (fun j => decide (j ∈ (sel count (mine pre js) 0).1 ∧ j.idx.isSome = true))
    (mine pre js)).length_eq
  rw [List.length_append] at hsplit
  have hsel : ((mine pre js).filter fun j => decide (j ∈ (sel count (mine pre js) 0).1 ∧ j.idx.isSome = true)).length =
      ((sel count (mine pre js) 0).1.filter fun j => j.idx.isSome).length := by
    apply List.Perm.length_eq
    rw [List.perm_ext_iff_of_nodup (hmine.sublist List.filter_sublist) ((hmine.sublist hsub).sublist List.filter_sublist)]
    intro j
    simp only [List.mem_filter, decide_eq_true_eq]
    constructor
    · exact fun hj => hj.2
    · exact fun hj => ⟨hsub.subset hj.1, hj⟩
  have hsplit2 := (List.filter_append_perm (fun j : Job => j.idx.isSome) (sel count (mine pre js) 0).1).length_eq
  rw [List.length_append] at hsplit2
  omega

/-- C76: with those that are submitted there are at least as many jobs as asked for. -/
theorem C76_enough (inID : Bool) (pre : List Char) (count : Nat) (js : List Job) (h : Shown js) :
    count ≤ Spec.live pre (schedule inID pre count js).1 + (schedule inID pre count js).2 := by
  rw [live_after inID pre count js h]
  unfold schedule
  rw [checkCmd_sel inID pre count js h]
  simp only
  omega

theorem running_eq (pre : List Char) (js : List Job) :
    Spec.running pre js = ((mine pre js).filter fun j => decide (Spec.Running j)).length := by
  unfold Spec.running mine
  rw [List.filter_filter]
  congr 1
  apply List.filter_congr
  intro j _
  rw [Bool.and_comm]

/-- C76, for waiting jobs that are all array elements: there are no more jobs than asked for plus those that run. Without the
assumption, `C76_violated_single`. -/
theorem C76_atmost_partial (inID : Bool) (pre : List Char) (count : Nat) (js : List Job) (h : Shown js)
    (harr : ∀ j ∈ js, Spec.Mine pre j → ¬ Spec.Running j → j.idx.isSome = true) :
    Spec.live pre (schedule inID pre count js).1 + (schedule inID pre count js).2 ≤ count + Spec.running pre js := by
  have hl := live_after inID pre count js h
  have hz : ((sel count (mine pre js) 0).1.filter fun j => !j.idx.isSome).length = 0 := by
    rw [List.length_eq_zero_iff, List.filter_eq_nil_iff]
    intro j hj
    have hm := List.mem_filter.1 ((sel_sublist count _ 0).subset hj)
    simp [harr j hm.1 (by simpa using hm.2) (sel_notrun count _ 0 j hj)]
  rw [hz] at hl
  rw [hl, running_eq]
  have hle := sel_le count (mine pre js) 0
  unfold schedule
  rw [checkCmd_sel inID pre count js h]
  simp only
  have : max 0 count = count := Nat.max_eq_right (Nat.zero_le _)
  rw [this] at hle
  omega

/-- C76, if moreover the running jobs of the command are listed before the others: there are exactly as many jobs as asked for,
or as many as run if those are more. Without that, `C76_violated_order`. -/
theorem C76_partial (inID : Bool) (pre : List Char) (count : Nat) (js : List Job) (h : Shown js)
    (harr : ∀ j ∈ js, Spec.Mine pre j → ¬ Spec.Running j → j.idx.isSome = true)
    (hord : (js.filter fun j => decide (Spec.Mine pre j)).Pairwise fun a b => Spec.Running b → Spec.Running a) :
    Spec.live pre (schedule inID pre count js).1 + (schedule inID pre count js).2 = max count (Spec.running pre js) := by
  have hl := live_after inID pre count js h
  have hz : ((sel count (mine pre js) 0).1.filter fun j => !j.idx.isSome).length = 0 := by
    rw [List.length_eq_zero_iff, List.filter_eq_nil_iff]
    intro j hj
    have hm := List.mem_filter.1 ((sel_sublist count _ 0).subset hj)
    simp [harr j hm.1 (by simpa using hm.2) (sel_notrun count _ 0 j hj)]
  rw [hz] at hl
  rw [hl, running_eq]
  have hf := sel_first count (mine pre js) 0 hord
  have hc := sel_count count (mine pre js) 0
  have hrl : ((mine pre js).filter fun j => decide (Spec.Running j)).length ≤ (mine pre js).length := List.length_filter_le _ _
  unfold schedule
  rw [checkCmd_sel inID pre count js h]
  simp only
  generalize ((mine pre js).filter fun j => decide (Spec.Running j)).length = k at *
  rcases hf with hf | hf
  · omega
  · omega

/-- C76: `Scheduled` says how many jobs of the command there are. -/
theorem C76_scheduled (inID : Bool) (pre : List Char) (js : List Job) :
    countCmd pre (js.map (Job.line inID)) = Spec.live pre js := by
  unfold countCmd Spec.live
  rw [List.filter_map, List.length_map]
  congr 1
  apply List.filter_congr
  intro j _
  exact passed_line inID pre j

/-! examples and violations -/

def exJob (id : String) (idx : Option String) (stat base : String) : Job :=
  { id := id.toList, idx := idx.map String.toList, stat := stat.toList, base := base.toList }

/-- an array of four of which one runs, another command's job, and a job that has ended -/
def exJobs : List Job :=
  [exJob "7" (some "1") "RUN" "wrp_a_r", exJob "7" (some "2") "PEND" "wrp_a_r", exJob "8" none "PEND" "wrp_b_r",
   exJob "7" (some "3") "PEND" "wrp_a_r", exJob "7" (some "4") "PEND" "wrp_a_r", exJob "5" none "DONE" "wrp_a_q"]

example : Shown exJobs where
  id := by decide +kernel
  idx := by
    intro j hj i hi
    simp only [exJobs, List.mem_cons, List.not_mem_nil, or_false] at hj
    rcases hj with rfl | rfl | rfl | rfl | rfl | rfl <;> simp [exJob] at hi <;> subst hi <;> decide
  base := by decide +kernel
  uniq := by decide +kernel

/-- down to two: the last two elements go, the running one and the other command's job stay -/
example : schedule false "wrp_a".toList 2 exJobs =
    ([exJob "7" (some "1") "RUN" "wrp_a_r", exJob "7" (some "2") "PEND" "wrp_a_r", exJob "8" none "PEND" "wrp_b_r",
      exJob "5" none "DONE" "wrp_a_q"], 0) := by decide +kernel

example : (∀ j ∈ exJobs, Spec.Mine "wrp_a".toList j → ¬ Spec.Running j → j.idx.isSome = true) ∧
    (exJobs.filter fun j => decide (Spec.Mine "wrp_a".toList j)).Pairwise fun a b => Spec.Running b → Spec.Running a := by
  constructor <;> decide +kernel

/-- C76 is violated: a waiting job that was submitted on its own (as when one is needed) is not killed when none is wanted any
more, and is not counted either. -/
theorem C76_violated_single : ∃ js : List Job, Shown js ∧ Spec.running "wrp_a".toList js = 0 ∧
    Spec.live "wrp_a".toList (schedule false "wrp_a".toList 0 js).1 = 1 ∧
    (checkCmd "wrp_a".toList 0 (js.map (Job.line false))).1 = 0 := by
  refine ⟨[exJob "7" none "PEND" "wrp_a_r"], ⟨by decide +kernel, ?_, by decide +kernel, by decide +kernel⟩,
    by decide +kernel, by decide +kernel, by decide +kernel⟩
  intro j hj i hi
  simp only [List.mem_cons, List.not_mem_nil, or_false] at hj
  subst hj
  simp [exJob] at hi

/-- C76 is violated: with a waiting job listed before a running one, both stay when one is wanted. -/
theorem C76_violated_order : ∃ js : List Job, Shown js ∧ Spec.running "wrp_a".toList js = 1 ∧
    (∀ j ∈ js, j.idx.isSome = true) ∧ Spec.live "wrp_a".toList (schedule false "wrp_a".toList 1 js).1 = 2 := by
  refine ⟨[exJob "7" (some "1") "PEND" "wrp_a_r", exJob "7" (some "2") "RUN" "wrp_a_r"],
    ⟨by decide +kernel, ?_, by decide +kernel, by decide +kernel⟩, by decide +kernel, by decide +kernel, by decide +kernel⟩
  intro j hj i hi
  simp only [List.mem_cons, List.not_mem_nil, or_false] at hj
  rcases hj with rfl | rfl <;> simp [exJob] at hi <;> subst hi <;> decide

end Verif.Sched.Lsf
