import Verif.Sched.Bjobs
/-! # C145: the jobs that wr finds in LSF's listing, and those it kills at the end -/
namespace Verif.Sched.Bjobs
open Verif.Sched.Lsf Verif.Sched.LsfParse
open Verif.Sched.LsfText (Word pad)

theorem readLine_row (inID : Bool) (r : Row) (h : r.Ok inID) : readLine (r.text inID) = some (r.job.line inID) := by
  obtain ⟨h0, h1, h2, h3, h4, h5, h6, h7, h8⟩ := h
  unfold readLine Row.text
  have hw : ∀ x ∈ r.user :: r.job.stat :: r.queue :: r.fromHost :: r.execHost :: r.job.name :: r.more, Word x := by
    intro x hx
    simp only [List.mem_cons] at hx
    rcases hx with rfl | rfl | rfl | rfl | rfl | rfl | hx <;> first | assumption | exact h8 x hx
  rw [fields_line r.gaps h0 hw]
  cases hm : r.more with
  | nil => exact absurd hm h7
  | cons a b =>
    have : (b.length + 1 + 1 + 1 + 1 + 1 + 1 + 1 + 1 > 7) := by omega
    simp [Job.line, this]

theorem header_read : ∃ l, readLine header = some l ∧ l.name = "JOB_NAME".toList := by
  exact ⟨_, rfl, by decide +kernel⟩

/-- what the names of wr's jobs begin with -/
def Ours (pre : Str) : Prop := "wr".toList <+: pre

theorem header_not (pre : Str) (h : Ours pre) : ((readLine header).toList).filter (passed pre) = [] := by
  obtain ⟨l, hl, hn⟩ := header_read
  rw [hl]
  have : passed pre l = false := by
    unfold passed
    rw [hn]
    have : pre.isPrefixOf "JOB_NAME".toList = false := by
      obtain ⟨t, rfl⟩ := h
      rfl
    simp only [this, Bool.and_false]
  simp [List.filter, this]

theorem scan_ok (max : Nat) : ∀ (t : List Str), (∀ l ∈ t, l.length < max) → scan max t = (t, true)
  | [], _ => rfl
  | l :: t, h => by
    have ih := scan_ok max t (fun x hx => h x (List.mem_cons_of_mem _ hx))
    unfold scan
    rw [if_pos (h l (List.mem_cons_self ..)), ih]

theorem scan_bad (max : Nat) : ∀ (t : List Str), (∃ l ∈ t, max ≤ l.length) → (scan max t).2 = false
  | [], h => by obtain ⟨l, hl, _⟩ := h; simp at hl
  | l :: t, h => by
    unfold scan
    split
    · rename_i hlt
      obtain ⟨x, hx, hle⟩ := h
      rcases List.mem_cons.1 hx with rfl | hx
      · omega
      · exact scan_bad max t ⟨x, hx, hle⟩
    · rfl

theorem read_rows (inID : Bool) : ∀ (rows : List Row), (∀ r ∈ rows, r.Ok inID) →
    (rows.map (Row.text inID)).filterMap readLine = (rows.map (·.job)).map (Job.line inID)
  | [], _ => rfl
  | r :: rows, h => by
    have ih := read_rows inID rows (fun x hx => h x (List.mem_cons_of_mem _ hx))
    rw [List.map_cons, List.filterMap_cons, readLine_row inID r (h r (List.mem_cons_self ..))]
    simp only [List.map_cons]
    rw [ih]

theorem parse_listing (max : Nat) (inID : Bool) (pre : Str) (rows : List Row) (hp : Ours pre) (h : ∀ r ∈ rows, r.Ok inID)
    (hl : ∀ l ∈ listing inID rows, l.length < max) :
    parseBjobs max true pre (listing inID rows) = (((rows.map (·.job)).map (Job.line inID)).filter (passed pre), true) := by
  unfold parseBjobs
  rw [scan_ok max _ hl]
  simp only [Bool.and_true, Prod.mk.injEq, and_true]
  unfold listing
  rw [← List.singleton_append, List.filterMap_append, List.filter_append, read_rows inID rows h]
  have := header_not pre hp
  have e : [header].filterMap readLine = (readLine header).toList := by
    cases hh : readLine header <;> simp [hh]
  rw [e, this, List.nil_append]

/-- C145: whatever the widths of the columns, the number of jobs found of a command (or, for the shorter prefix, of the deployment) is the
number of those listed that have not ended; the heading is not counted, nor are jobs with other names. -/
theorem C145_count (max : Nat) (inID : Bool) (pre : Str) (rows : List Row) (hp : Ours pre) (h : ∀ r ∈ rows, r.Ok inID)
    (hl : ∀ l ∈ listing inID rows, l.length < max) :
    countText max true pre (listing inID rows) = (Spec.live pre (rows.map (·.job)), true) := by
  unfold countText
  rw [parse_listing max inID pre rows hp h hl]
  have := C76_scheduled inID pre (rows.map (·.job))
  unfold countCmd at this
  simp only [this]

/-- C145: what `Schedule` makes of the listing is what C76 says of the jobs that are listed. -/
theorem C145_schedule (max : Nat) (inID : Bool) (pre : Str) (lim : Nat) (rows : List Row) (hp : Ours pre) (h : ∀ r ∈ rows, r.Ok inID)
    (hl : ∀ l ∈ listing inID rows, l.length < max) :
    let t := checkText max true pre lim (listing inID rows)
    let s := schedule inID pre lim (rows.map (·.job))
    (bkill t.2.1 (rows.map (·.job)), lim - t.1) = s ∧ t.2.2 = true := by
  simp only [checkText, schedule, checkCmd]
  rw [parse_listing max inID pre rows hp h hl]
  exact ⟨rfl, rfl⟩

/-- C145: a listing that could not be read to its end, or that bjobs did not complete, is not taken for the whole. -/
theorem C145_error (max : Nat) (exit : Bool) (pre : Str) (lim : Nat) (text : List Str)
    (h : exit = false ∨ ∃ l ∈ text, max ≤ l.length) :
    (checkText max exit pre lim text).2.2 = false ∧ (countText max exit pre text).2 = false := by
  unfold checkText countText parseBjobs
  rcases h with rfl | h
  · simp
  · simp [scan_bad max text h]

/-! ## the end -/

theorem prefix_base (pre base x : Str) (hb : '[' ∉ pre) : pre <+: base ++ '[' :: x ↔ pre <+: base := by
  constructor
  · intro h
    rcases List.prefix_or_prefix_of_prefix h (List.prefix_append base ('[' :: x)) with h1 | h1
    · exact h1
    · obtain ⟨t, rfl⟩ := h1
      rw [List.prefix_append_right_inj] at h
      cases t with
      | nil => simp
      | cons c t =>
        rw [List.cons_prefix_cons] at h
        exact absurd (h.1 ▸ List.mem_append_right base (List.mem_cons_self ..)) hb
  · intro h
    exact h.trans (List.prefix_append _ _)

theorem mine_base (pre : Str) (hb : '[' ∉ pre) (j : Job) :
    Spec.Mine pre j ↔ j.stat ≠ "EXIT".toList ∧ j.stat ≠ "DONE".toList ∧ pre <+: j.base := by
  unfold Spec.Mine Job.name
  cases j.idx with
  | none => exact Iff.rfl
  | some i =>
    have := prefix_base pre j.base (i ++ [']']) hb
    simp only [List.append_assoc, List.cons_append] at this ⊢
    rw [this]

theorem target_digits (j : Job) (h : ∀ c ∈ j.target, c.isDigit = true) : j.target = j.id := by
  unfold Job.target at h ⊢
  cases hi : j.idx with
  | none => rfl
  | some i =>
    rw [hi] at h
    have := h '[' (by simp)
    exact absurd this (by decide)

theorem depPrefix_ours (d : Str) : Ours (depPrefix d) := ⟨d.take 1 ++ "_".toList, by simp [depPrefix]⟩

/-- The jobs of an array are called the same. -/
def SameName (js : List Job) : Prop := ∀ a ∈ js, ∀ b ∈ js, a.id = b.id → a.base = b.base

theorem cleanup_eq (max : Nat) (inID : Bool) (d : Str) (rows : List Row) (hd : '[' ∉ depPrefix d) (h : ∀ r ∈ rows, r.Ok inID)
    (hl : ∀ l ∈ listing inID rows, l.length < max) (hs : Shown (rows.map (·.job))) (hn : SameName (rows.map (·.job))) :
    bkillAny (cleanup max true d (listing inID rows)) (rows.map (·.job)) =
      (rows.map (·.job)).filter fun j => !decide (Spec.Mine (depPrefix d) j) := by
  unfold cleanup
  rw [parse_listing max inID _ rows (depPrefix_ours d) h hl]
  generalize rows.map (·.job) = js at hs hn ⊢
  unfold bkillAny
  apply List.filter_congr
  intro j hj
  have hm := mine_base (depPrefix d) hd
  have key : ∀ x : Str, (((js.map (Job.line inID)).filter (passed (depPrefix d))).map (·.jobID)).contains x = true ↔
      ∃ a ∈ js, Spec.Mine (depPrefix d) a ∧ (a.line inID).jobID = x := by
    intro x
    simp only [List.contains_iff_mem, List.mem_map, List.mem_filter]
    constructor
    · rintro ⟨l, ⟨⟨a, ha, rfl⟩, hp⟩, he⟩
      rw [passed_line] at hp
      exact ⟨a, ha, of_decide_eq_true hp, he⟩
    · rintro ⟨a, ha, hp, he⟩
      exact ⟨_, ⟨⟨a, ha, rfl⟩, by rw [passed_line]; exact decide_eq_true hp⟩, he⟩
  generalize hids : ((js.map (Job.line inID)).filter (passed (depPrefix d))).map (·.jobID) = ids at key ⊢
  by_cases hmj : Spec.Mine (depPrefix d) j
  · have hc : ids.contains j.target = true ∨ ids.contains j.id = true := by
      cases inID with
      | true => exact Or.inl ((key _).2 ⟨j, hj, hmj, rfl⟩)
      | false => exact Or.inr ((key _).2 ⟨j, hj, hmj, rfl⟩)
    have h1 : (ids.contains j.target || ids.contains j.id) = true := by
      rcases hc with hc | hc <;> simp only [hc, Bool.true_or, Bool.or_true]
    rw [h1, decide_eq_true hmj, decide_eq_false hmj.1, decide_eq_false hmj.2.1]
    rfl
  · rw [decide_eq_false hmj]
    by_cases he : j.stat = "EXIT".toList
    · rw [decide_eq_true he]; rfl
    by_cases hd' : j.stat = "DONE".toList
    · rw [decide_eq_true hd', Bool.or_true]; rfl
    have hno : ∀ a ∈ js, Spec.Mine (depPrefix d) a → a.id = j.id → False := by
      intro a ha hma hid
      exact hmj ((hm j).2 ⟨he, hd', (hn a ha j hj hid) ▸ ((hm a).1 hma).2.2⟩)
    have h1 : ids.contains j.target = false := by
      rw [Bool.eq_false_iff]
      intro hc
      obtain ⟨a, ha, hma, hx⟩ := (key _).1 hc
      cases inID with
      | true =>
        have hx : a.target = j.target := hx
        exact hmj (target_inj js hs.uniq a ha j hj hx ▸ hma)
      | false =>
        have hx : a.id = j.target := hx
        exact hno a ha hma (hx.trans (target_digits j (fun c hc => hs.id a ha c (hx ▸ hc))))
    have h2 : ids.contains j.id = false := by
      rw [Bool.eq_false_iff]
      intro hc
      obtain ⟨a, ha, hma, hx⟩ := (key _).1 hc
      cases inID with
      | true =>
        have hx : a.target = j.id := hx
        exact hno a ha hma ((target_digits a (fun c hc => hs.id j hj c (hx ▸ hc))).symm.trans hx)
      | false => exact hno a ha hma hx
    rw [h1, h2, Bool.or_false, Bool.not_false, Bool.or_true]

/-- C145: when the manager ends, of the jobs in LSF exactly those of its deployment that have not ended are killed: those that were submitted
under the names `names`, if no other job has a name that begins as they do. That is what is missing: nothing keeps users from giving their own
jobs such names. -/
theorem C145_cleanup_partial (max : Nat) (inID : Bool) (d : Str) (names : List Str) (rows : List Row) (hd : '[' ∉ depPrefix d)
    (h : ∀ r ∈ rows, r.Ok inID) (hl : ∀ l ∈ listing inID rows, l.length < max)
    (hs : Shown (rows.map (·.job))) (hn : SameName (rows.map (·.job)))
    (hours : ∀ n ∈ names, depPrefix d <+: n) (hother : ∀ r ∈ rows, depPrefix d <+: r.job.base → r.job.base ∈ names) :
    bkillAny (cleanup max true d (listing inID rows)) (rows.map (·.job)) =
      (rows.map (·.job)).filter fun j => decide (j.stat = "EXIT".toList ∨ j.stat = "DONE".toList ∨ j.base ∉ names) := by
  rw [cleanup_eq max inID d rows hd h hl hs hn]
  apply List.filter_congr
  intro j hj
  obtain ⟨r, hr, rfl⟩ := List.mem_map.1 hj
  rw [← decide_not]
  apply decide_eq_decide.2
  rw [mine_base _ hd]
  constructor
  · intro hx
    by_cases h1 : r.job.stat = "EXIT".toList
    · exact Or.inl h1
    by_cases h2 : r.job.stat = "DONE".toList
    · exact Or.inr (Or.inl h2)
    exact Or.inr (Or.inr fun hm => hx ⟨h1, h2, hours _ hm⟩)
  · rintro hx ⟨h1, h2, h3⟩
    rcases hx with hx | hx | hx
    · exact h1 hx
    · exact h2 hx
    · exact hx (hother r hr h3)

/-- C145: the manager is taken to be idle only if LSF lists none of its deployment's jobs that have not ended, and said so completely. -/
theorem C145_idle (max : Nat) (inID exit : Bool) (d : Str) (rows : List Row) (h : ∀ r ∈ rows, r.Ok inID) :
    busy max exit (depPrefix d) (listing inID rows) = false ↔
      exit = true ∧ (∀ l ∈ listing inID rows, l.length < max) ∧ ∀ r ∈ rows, ¬ Spec.Mine (depPrefix d) r.job := by
  by_cases hb : exit = false ∨ ∃ l ∈ listing inID rows, max ≤ l.length
  · have := (C145_error max exit (depPrefix d) 0 _ hb).2
    simp only [busy]
    rw [this]
    constructor
    · intro hx; simp at hx
    · rintro ⟨h1, h2, _⟩
      rcases hb with hb | ⟨l, hl, hle⟩
      · rw [h1] at hb; cases hb
      · have := h2 l hl; omega
  · have he : exit = true := by cases exit <;> simp_all
    have hl : ∀ l ∈ listing inID rows, l.length < max := by
      intro l hl
      apply Nat.lt_of_not_le
      intro hle
      exact hb (Or.inr ⟨l, hl, hle⟩)
    subst he
    unfold busy
    rw [C145_count max inID _ rows (depPrefix_ours d) h hl]
    unfold Spec.live
    simp only [Bool.not_true, Bool.false_eq_true, if_false, gt_iff_lt, decide_eq_false_iff_not, Nat.not_lt, Nat.le_zero,
      List.length_eq_zero_iff, List.filter_eq_nil_iff, decide_eq_true_eq, List.mem_map, forall_exists_index, and_imp,
      forall_apply_eq_imp_iff₂, true_and]
    exact ⟨fun hx => ⟨hl, hx⟩, fun hx => hx.2⟩

/-! examples -/

def exRow (id : String) (idx : Option String) (stat base : String) : Row :=
  { job := exJob id idx stat base, user := "sb10".toList, queue := "normal".toList, fromHost := "head1".toList, execHost := "-".toList,
    more := ["Nov".toList, "17".toList, "10:00".toList], gaps := fun i => i }

def exRows : List Row :=
  [exRow "7" (some "1") "RUN" "wrp_a_r", exRow "7" (some "2") "PEND" "wrp_a_r", exRow "8" none "PEND" "wrp_b_r", exRow "9" none "RUN" "wrd_a_r",
   exRow "5" none "DONE" "wrp_a_q", exRow "6" none "PEND" "mine"]

instance (w : Str) : Decidable (Word w) := inferInstanceAs (Decidable (_ ∧ _))
instance (b : Bool) (r : Row) : Decidable (r.Ok b) := inferInstanceAs (Decidable (_ ∧ _))

example : (exRow "7" (some "1") "RUN" "wrp_a_r").text false = "7 sb10  RUN   normal    head1     -      wrp_a_r[1]       Nov        17         10:00".toList := by decide +kernel

example : (∀ r ∈ exRows, r.Ok false) ∧ (∀ r ∈ exRows, r.Ok true) ∧ '[' ∉ depPrefix "production".toList ∧
    (∀ l ∈ listing false exRows, l.length < 65536000) := by
  refine ⟨by decide +kernel, by decide +kernel, by decide +kernel, by decide +kernel⟩

example : countText 65536000 true "wrp_a".toList (listing false exRows) = (2, true) := by decide +kernel

/-- what is left when the manager of the production deployment ends -/
example : bkillAny (cleanup 65536000 true "production".toList (listing false exRows)) (exRows.map (·.job)) =
    [exJob "9" none "RUN" "wrd_a_r", exJob "5" none "DONE" "wrp_a_q", exJob "6" none "PEND" "mine"] := by decide +kernel

example : (∀ n ∈ ["wrp_a_r".toList, "wrp_b_r".toList, "wrp_a_q".toList], depPrefix "production".toList <+: n) ∧
    ∀ r ∈ exRows, depPrefix "production".toList <+: r.job.base → r.job.base ∈ ["wrp_a_r".toList, "wrp_b_r".toList, "wrp_a_q".toList] := by
  decide +kernel

example : Shown (exRows.map (·.job)) where
  id := by decide +kernel
  idx := by
    intro j hj i hi
    simp only [exRows, exRow, List.map_cons, List.map_nil, List.mem_cons, List.not_mem_nil, or_false] at hj
    rcases hj with rfl | rfl | rfl | rfl | rfl | rfl <;> simp [exJob] at hi <;> subst hi <;> decide
  base := by decide +kernel
  uniq := by decide +kernel

example : SameName (exRows.map (·.job)) := by unfold SameName; decide +kernel

/-- C145 is violated: a job that the user submitted to LSF under a name of their own that begins with "wrp_" is killed when the manager of
the production deployment ends, and keeps it busy until then. -/
theorem C145_violated_foreign : ∃ rows : List Row, (∀ r ∈ rows, r.Ok false) ∧
    (rows.map (·.job)) = [exJob "6" none "RUN" "wrp_analysis"] ∧
    busy 65536000 true (depPrefix "production".toList) (listing false rows) = true ∧
    bkillAny (cleanup 65536000 true "production".toList (listing false rows)) (rows.map (·.job)) = [] :=
  ⟨[exRow "6" none "RUN" "wrp_analysis"], by decide +kernel, rfl, by decide +kernel, by decide +kernel⟩

theorem scan_insert {max : Nat} {junk : Str} (hj : junk.length < max) (pre post : List Str) :
    (scan max (pre ++ junk :: post)).2 = (scan max (pre ++ post)).2 ∧
      (readLine junk = none → (scan max (pre ++ junk :: post)).1.filterMap readLine = (scan max (pre ++ post)).1.filterMap readLine) := by
  induction pre with
  | nil =>
    simp only [List.nil_append, scan, if_pos hj]
    exact ⟨trivial, fun h => by simp [h]⟩
  | cons l ls ih =>
    simp only [List.cons_append, scan]
    split
    · refine ⟨ih.1, fun h => ?_⟩
      simp only [List.filterMap_cons]
      rw [ih.2 h]
    · exact ⟨rfl, fun _ => rfl⟩

/-- C145: whatever else bjobs prints, lines of at most seven words change neither what is counted nor what is killed -/
theorem C145_short {max : Nat} {junk : Str} (hj : junk.length < max) (hs : (fields junk).length ≤ 7) (exit : Bool) (dep : Str) (lim : Nat)
    (pre post : List Str) :
    checkText max exit (depPrefix dep) lim (pre ++ junk :: post) = checkText max exit (depPrefix dep) lim (pre ++ post) ∧
    countText max exit (depPrefix dep) (pre ++ junk :: post) = countText max exit (depPrefix dep) (pre ++ post) ∧
    cleanup max exit dep (pre ++ junk :: post) = cleanup max exit dep (pre ++ post) := by
  have hn : readLine junk = none := by
    simp only [readLine]
    rw [if_neg (by omega)]
  have h := scan_insert hj pre post
  have hp : ∀ p, parseBjobs max exit p (pre ++ junk :: post) = parseBjobs max exit p (pre ++ post) := by
    intro p
    simp only [parseBjobs]
    rw [h.1, h.2 hn]
  simp only [checkText, countText, cleanup, hp, and_self]

example : (fields "12 sb10 PEND normal host wrp_abc".toList).length ≤ 7 := by decide +kernel

end Verif.Sched.Bjobs
