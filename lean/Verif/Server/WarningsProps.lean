import Verif.Server.Warnings
/-
C118: warnings of the scheduler.
-/
namespace Verif.Server.Warnings

/-! ### Specification, from the history alone -/

/-- does the event take the message away? -/
def clears (m : Nat) : Ev → Bool
  | .get _ => true
  | .dismiss m' => m' = m
  | .dismissAll => true
  | _ => false

/-- the times of the warnings with this message since the last time it was taken away -/
def since (m : Nat) (es : List Ev) : List Nat :=
  es.foldl (fun ts e => if clears m e then [] else match e with
    | .warn m' now => if m' = m then ts ++ [now] else ts
    | _ => ts) []

/-- how often the scheduler gave this warning -/
def given (m : Nat) (es : List Ev) : Nat := es.countP fun | .warn m' _ => m' = m | _ => false

/-- how often a list of issues says the message was given -/
def says (m : Nat) (is : List Issue) : Nat := ((is.filter (·.msg = m)).map (·.count)).sum

/-! ### Lemmas -/

theorem find_warned (is : List Issue) (m now m' : Nat) : find (warned is m now) m' =
    if m' = m then some (match find is m with
      | some i => { i with last := now, count := i.count + 1 }
      | none => ⟨m, now, now, 1⟩)
    else find is m' := by
  induction is with
  | nil =>
    simp only [warned, find]
    by_cases h : m' = m
    · subst h; simp
    · simp [h, Ne.symm h]
  | cons i is ih =>
    simp only [warned]
    by_cases hi : i.msg = m
    · rw [if_pos hi]
      by_cases h : m' = m
      · subst h; simp [find, hi]
      · have : ¬ i.msg = m' := by omega
        simp [find, h, this]
    · rw [if_neg hi]
      by_cases h : m' = m
      · subst h
        simp only [find, List.find?_cons, hi, decide_false, if_true] at ih ⊢
        exact ih
      · by_cases hm : i.msg = m'
        · simp [find, hm, h]
        · simp only [find, List.find?_cons, hm, decide_false, if_neg h] at ih ⊢
          exact ih

theorem find_filter (is : List Issue) (m m' : Nat) : find (is.filter (·.msg ≠ m)) m' = if m' = m then none else find is m' := by
  induction is with
  | nil => simp [find]
  | cons i is ih =>
    simp only [find] at ih
    by_cases hi : i.msg = m
    · simp only [find, List.filter_cons, hi]
      by_cases h : m' = m
      · subst h; simpa using ih
      · have : ¬ m = m' := by omega
        simpa [h, this, hi] using ih
    · by_cases h : m' = m
      · subst h; simp [find, List.filter_cons, hi]
      · simp only [find, List.filter_cons, hi, ne_eq, not_false_iff, decide_true, if_true, List.find?_cons, h, if_false]
        simp only [h, if_false] at ih
        split <;> first | rfl | simpa using ih

/-- the issue that stands for a list of times -/
def issueOf (m : Nat) : List Nat → Option Issue
  | [] => none
  | t :: ts => some ⟨m, t, ts.getLast?.getD t, ts.length + 1⟩

theorem issueOf_snoc (m now : Nat) (ts : List Nat) : issueOf m (ts ++ [now]) = some (match issueOf m ts with
    | some i => { i with last := now, count := i.count + 1 }
    | none => ⟨m, now, now, 1⟩) := by
  cases ts with
  | nil => rfl
  | cons t ts => simp [issueOf]

theorem find_msg {is : List Issue} {m : Nat} {i : Issue} (h : find is m = some i) : i.msg = m := by
  simpa using List.find?_some h

theorem since_snoc (m : Nat) (es : List Ev) (e : Ev) : since m (es ++ [e]) = if clears m e then [] else match e with
    | .warn m' now => if m' = m then since m es ++ [now] else since m es
    | _ => since m es := by
  simp only [since, List.foldl_append, List.foldl_cons, List.foldl_nil]

theorem run_snoc (s : S) (es : List Ev) (e : Ev) : run s (es ++ [e]) = step (run s es) e := by
  simp [run, List.foldl_append]

theorem reverseRec {P : List Ev → Prop} (h0 : P []) (hs : ∀ es e, P es → P (es ++ [e])) (es : List Ev) : P es := by
  have : ∀ l : List Ev, P l.reverse := by
    intro l
    induction l with
    | nil => exact h0
    | cons a l ih => rw [List.reverse_cons]; exact hs _ _ ih
  have h := this es.reverse
  rwa [List.reverse_reverse] at h

/-! ### Theorems -/

/-- **C118**, outstanding: after every history the server has, for every message, exactly one issue if the scheduler gave that warning since
it was last read or dismissed, with how often, when first and when last; and none otherwise. -/
theorem C118_outstanding (es : List Ev) (m : Nat) : find (run {} es).issues m = issueOf m (since m es) := by
  induction es using reverseRec with
  | h0 => rfl
  | hs es e ih =>
    rw [run_snoc, since_snoc]
    cases e with
    | warn m' now =>
      simp only [step, find_warned, clears]
      by_cases h : m = m'
      · subst h
        simp only [if_true, Bool.false_eq_true, if_false, issueOf_snoc, ih]
      · have : ¬ m' = m := by omega
        simp [h, this, ih]
    | get ok => cases ok <;> simp [step, clears, find, issueOf]
    | dismiss m' =>
      simp only [step, clears, find_filter]
      by_cases h : m = m'
      · subst h; simp [issueOf]
      · have : ¬ m' = m := by omega
        simp [h, this, ih]
    | dismissAll => simp [step, clears, find, issueOf]
    | openPage p => simpa [step, clears] using ih
    | join p =>
      simp only [step, clears, Bool.false_eq_true, if_false]
      split <;> exact ih
    | current p =>
      simp only [step, clears, Bool.false_eq_true, if_false]
      split <;> exact ih
    | closePage p => simpa [step, clears] using ih

theorem warned_msgs (is : List Issue) (m now : Nat) : (warned is m now).map (·.msg) =
    if m ∈ is.map (·.msg) then is.map (·.msg) else is.map (·.msg) ++ [m] := by
  induction is with
  | nil => simp [warned]
  | cons i is ih =>
    simp only [warned]
    by_cases hi : i.msg = m
    · simp [hi]
    · have : ¬ m = i.msg := by omega
      rw [if_neg hi, List.map_cons, ih]
      by_cases h : m ∈ is.map (·.msg)
      · rw [if_pos h, if_pos (by simp [h])]; rfl
      · rw [if_neg h, if_neg (by simp only [List.map_cons, List.mem_cons, not_or]; exact ⟨this, h⟩)]; rfl

theorem msgs_nodup (es : List Ev) : ((run {} es).issues.map (·.msg)).Nodup := by
  induction es using reverseRec with
  | h0 => simp [run]
  | hs es e ih =>
    rw [run_snoc]
    cases e with
    | warn m now =>
      simp only [step, warned_msgs]
      split
      · exact ih
      · rename_i h
        rw [List.nodup_append]
        refine ⟨ih, by simp, ?_⟩
        intro a ha b hb
        simp at hb; subst hb
        intro hab; subst hab; exact h ha
    | get ok => cases ok <;> simp [step]
    | dismiss m =>
      simp only [step]
      exact List.Nodup.sublist (List.Sublist.map _ List.filter_sublist) ih
    | dismissAll => simp [step]
    | openPage p => exact ih
    | join p => simp only [step]; split <;> exact ih
    | current p => simp only [step]; split <;> exact ih
    | closePage p => exact ih

/-- **C118**, answers: what a REST client is answered has every message at most once; a message is in it exactly if the warning was given since
it was last taken away, and then with how often, when first and when last. -/
theorem C118_answer (es : List Ev) : ∃ is, (run {} (es ++ [.get true])).replies = (run {} es).replies ++ [is] ∧
    (is.map (·.msg)).Nodup ∧ (∀ m, find is m = issueOf m (since m es)) ∧ (run {} (es ++ [.get true])).issues = [] := by
  refine ⟨(run {} es).issues, ?_, msgs_nodup es, C118_outstanding es, ?_⟩
  · rw [run_snoc]; rfl
  · rw [run_snoc]; rfl

/-- three warnings, one of them twice; read; again; dismissed -/
def story : List Ev :=
  [.openPage 1, .join 1, .warn 5 10, .warn 6 11, .warn 5 12, .current 1, .get true, .warn 5 13, .warn 7 14, .dismiss 7, .warn 7 20,
    .warn 7 21]

example : (run {} story).replies = [[⟨5, 10, 12, 2⟩, ⟨6, 11, 11, 1⟩]] ∧ (run {} story).issues = [⟨5, 13, 13, 1⟩, ⟨7, 20, 21, 2⟩] ∧
    since 7 story = [20, 21] ∧ issueOf 7 (since 7 story) = some ⟨7, 20, 21, 2⟩ := by decide

theorem says_append (m : Nat) (a b : List Issue) : says m (a ++ b) = says m a + says m b := by
  simp [says, List.filter_append, List.sum_append]

theorem says_warned (is : List Issue) (m now m' : Nat) : says m' (warned is m now) = says m' is + if m = m' then 1 else 0 := by
  induction is with
  | nil => by_cases h : m = m' <;> simp [warned, says, h]
  | cons i is ih =>
    simp only [warned]
    by_cases hi : i.msg = m
    · rw [if_pos hi]
      by_cases h : m = m'
      · subst h; simp [says, hi, List.filter_cons]; omega
      · have : ¬ i.msg = m' := by omega
        simp [says, this, h, List.filter_cons]
    · rw [if_neg hi]
      have h1 : says m' (i :: warned is m now) = says m' [i] + says m' (warned is m now) := says_append m' [i] _
      have h2 : says m' (i :: is) = says m' [i] + says m' is := says_append m' [i] _
      omega

theorem says_split (is : List Issue) (m m' : Nat) : says m (is.filter (·.msg ≠ m')) + says m (is.filter (·.msg = m')) = says m is := by
  induction is with
  | nil => simp [says]
  | cons i is ih =>
    have h2 : says m (i :: is) = says m [i] + says m is := says_append m [i] _
    by_cases h : i.msg = m'
    · have e1 : (i :: is).filter (·.msg ≠ m') = is.filter (·.msg ≠ m') := by simp [List.filter_cons, h]
      have e2 : (i :: is).filter (·.msg = m') = [i] ++ is.filter (·.msg = m') := by simp [List.filter_cons, h]
      rw [e1, e2, says_append, h2]; omega
    · have e1 : (i :: is).filter (·.msg ≠ m') = [i] ++ is.filter (·.msg ≠ m') := by simp [List.filter_cons, h]
      have e2 : (i :: is).filter (·.msg = m') = is.filter (·.msg = m') := by simp [List.filter_cons, h]
      rw [e1, e2, says_append, h2]; omega

/-- **C118**, nothing twice and nothing lost inside the server: every warning the scheduler gave is counted in exactly one place: an answer, an
answer that could not be sent, what was dismissed, or what is outstanding. -/
theorem C118_conserved (es : List Ev) (m : Nat) : given m es =
    says m (run {} es).replies.flatten + says m (run {} es).unsent.flatten + says m (run {} es).dismissed + says m (run {} es).issues := by
  induction es using reverseRec with
  | h0 => simp [given, run, says]
  | hs es e ih =>
    have hg : given m (es ++ [e]) = given m es + given m [e] := by simp [given, List.countP_append]
    rw [run_snoc, hg, ih]
    cases e with
    | warn m' now =>
      simp only [step, says_warned, given]
      by_cases h : m' = m <;> simp [h] <;> omega
    | get ok =>
      cases ok <;> simp only [step, List.flatten_append, List.flatten_cons, List.flatten_nil, List.append_nil, says_append] <;>
        simp [given, says] <;> omega
    | dismiss m' =>
      have := says_split (run {} es).issues m m'
      simp only [step, says_append]
      simp [given]
      simp at this
      omega
    | dismissAll => simp only [step, says_append]; simp [given, says]; omega
    | openPage p => simp [step, given]
    | join p => simp only [step]; split <;> simp [given]
    | current p => simp only [step]; split <;> simp [given]
    | closePage p => simp [step, given]

/-- **C118**, read (partial: when all answers reach the clients and nothing is dismissed): a REST client has been told of every warning exactly
once after the last reading. -/
theorem C118_read_partial (es : List Ev) (m : Nat) (h : ∀ e, e ∈ es → e ≠ .get false ∧ e ≠ .dismissAll ∧ ∀ m', e ≠ .dismiss m') :
    says m (run {} (es ++ [.get true])).replies.flatten = given m es := by
  have hz : (run {} es).unsent = [] ∧ (run {} es).dismissed = [] := by
    induction es using reverseRec with
    | h0 => exact ⟨rfl, rfl⟩
    | hs es e ih =>
      have ih := ih (fun e he => h e (by simp [he]))
      have he := h e (by simp)
      rw [run_snoc]
      cases e with
      | warn m' now => exact ih
      | get ok => cases ok with
        | true => exact ih
        | false => exact absurd rfl he.1
      | dismiss m' => exact absurd rfl (he.2.2 m')
      | dismissAll => exact absurd rfl he.2.1
      | openPage p => exact ih
      | join p => simp only [step]; split <;> exact ih
      | current p => simp only [step]; split <;> exact ih
      | closePage p => exact ih
  have hc := C118_conserved es m
  rw [hz.1, hz.2] at hc
  rw [run_snoc]
  simp only [step, List.flatten_append, List.flatten_cons, List.flatten_nil, List.append_nil, says_append]
  simp [says] at hc ⊢
  omega

example : says 5 (run {} (story.take 9 ++ [.get true])).replies.flatten = 3 ∧ given 5 (story.take 9) = 3 := by decide

/-- **C118**, violated by the code: the warnings are forgotten before the answer is sent: when the client has gone they are in no answer. -/
theorem C118_violated_unsent : ∃ es : List Ev, given 5 es = 1 ∧ (∀ e, e ∈ es → e ≠ .dismissAll ∧ ∀ m, e ≠ .dismiss m) ∧
    says 5 (run {} (es ++ [.get true])).replies.flatten = 0 :=
  ⟨[.warn 5 1, .get false], by decide, by intro e he; simp at he; rcases he with rfl | rfl <;> simp, by decide⟩

theorem mem_warned {is : List Issue} {m now : Nat} {i : Issue} (h : i ∈ warned is m now) : i.msg = m ∨ i ∈ is := by
  induction is with
  | nil => simp [warned] at h; left; rw [h]
  | cons a is ih =>
    simp only [warned] at h
    by_cases ha : a.msg = m
    · rw [if_pos ha] at h
      rcases List.mem_cons.1 h with h | h
      · left; rw [h]; exact ha
      · right; simp [h]
    · rw [if_neg ha] at h
      rcases List.mem_cons.1 h with h | h
      · right; simp [h]
      · rcases ih h with h | h
        · left; exact h
        · right; simp [h]

/-- what a listening page was told -/
def toldAll (s : S) (p : Nat) : Prop := p ∈ s.joined ∧ ∀ i, i ∈ s.issues → (p, i.msg, i.count) ∈ s.got

theorem toldAll_step (s : S) (e : Ev) (p : Nat) (h : toldAll s p) (he : e ≠ .closePage p) : toldAll (step s e) p := by
  obtain ⟨h1, h2⟩ := h
  cases e with
  | warn m now =>
    refine ⟨h1, ?_⟩
    intro i hi
    have hi : i ∈ warned s.issues m now := hi
    show _ ∈ s.got ++ _
    by_cases hm : i.msg = m
    · apply List.mem_append_right
      refine List.mem_flatMap.2 ⟨i, List.mem_filter.2 ⟨hi, by simpa using hm⟩, ?_⟩
      exact List.mem_map.2 ⟨p, h1, rfl⟩
    · rcases mem_warned hi with h | h
      · exact absurd h hm
      · exact List.mem_append_left _ (h2 i h)
  | get ok => cases ok <;> exact ⟨h1, by simp [step]⟩
  | dismiss m => exact ⟨h1, fun i hi => h2 i (List.mem_filter.1 hi).1⟩
  | dismissAll => exact ⟨h1, by simp [step]⟩
  | openPage q => exact ⟨h1, h2⟩
  | join q =>
    simp only [step]
    split
    · exact ⟨List.mem_cons_of_mem _ h1, h2⟩
    · exact ⟨h1, h2⟩
  | current q =>
    simp only [step]
    split
    · exact ⟨h1, fun i hi => List.mem_append_left _ (h2 i hi)⟩
    · exact ⟨h1, h2⟩
  | closePage q =>
    refine ⟨List.mem_filter.2 ⟨h1, ?_⟩, h2⟩
    simp
    intro hp; exact he (by rw [hp])

/-- **C118**, pages (partial: for pages that listen when they ask for the current state): from then on, until it is closed, such a page has
been told of every outstanding warning with how often it was given. -/
theorem C118_page_partial (es fs : List Ev) (p : Nat) (hj : p ∈ (run {} es).joined) (ho : p ∈ (run {} es).pages)
    (hf : .closePage p ∉ fs) (i : Issue) (hi : i ∈ (run {} (es ++ .current p :: fs)).issues) :
    (p, i.msg, i.count) ∈ (run {} (es ++ .current p :: fs)).got := by
  have h0 : toldAll (step (run {} es) (.current p)) p := by
    simp only [step, if_pos ho]
    refine ⟨hj, ?_⟩
    intro i hi
    apply List.mem_append_right
    exact List.mem_flatMap.2 ⟨i, hi, List.mem_map.2 ⟨p, hj, rfl⟩⟩
  have e : run {} (es ++ .current p :: fs) = run (step (run {} es) (.current p)) fs := by
    simp [run, List.foldl_append]
  rw [e] at hi ⊢
  revert h0 hi
  generalize step (run {} es) (.current p) = s
  intro hi h0
  have : ∀ (fs : List Ev) (s : S), .closePage p ∉ fs → toldAll s p → toldAll (run s fs) p := by
    intro fs
    induction fs with
    | nil => intro s _ h; exact h
    | cons e fs ih =>
      intro s hn h
      simp only [List.mem_cons, not_or] at hn
      exact ih (step s e) hn.2 (toldAll_step s e p h (fun hx => hn.1 hx.symm))
  exact (this fs s hf h0).2 i hi

example : 1 ∈ (run {} (story.take 5)).joined ∧ 1 ∈ (run {} (story.take 5)).pages ∧
    (run {} (story.take 5 ++ .current 1 :: story.drop 6)).issues.map (fun i => (1, i.msg, i.count)) = [(1, 5, 1), (1, 7, 2)] := by decide

/-- **C118**, violated by the code: a page asks for the current state before the goroutine that listens for it does: it is never told of a
warning that is outstanding. -/
theorem C118_violated_join : ∃ es : List Ev, 1 ∈ (run {} es).joined ∧ Ev.current 1 ∈ es ∧ (run {} es).issues = [⟨5, 3, 3, 1⟩] ∧
    (run {} es).got = [] :=
  ⟨[.warn 5 3, .openPage 1, .current 1, .join 1], by decide, by decide, by decide, by decide⟩

/-- **C118**, violated by the code: a page that had not been told of a warning dismisses all: it is gone unseen. -/
theorem C118_violated_unseen : ∃ es : List Ev, given 5 es = 1 ∧ (run {} es).issues = [] ∧ (run {} es).got = [] ∧
    (run {} es).replies.flatten = [] ∧ (run {} es).unsent = [] :=
  ⟨[.openPage 1, .warn 5 3, .join 1, .dismissAll], by decide, by decide, by decide, by decide, by decide⟩

/-- **C118**: reading, or dismissing on one page, tells the other pages nothing: they go on showing it. -/
theorem C118_not_told (s : S) (e : Ev) (he : (∃ ok, e = .get ok) ∨ e = .dismissAll ∨ ∃ m, e = .dismiss m) : (step s e).got = s.got := by
  rcases he with ⟨ok, rfl⟩ | rfl | ⟨m, rfl⟩
  · cases ok <;> rfl
  · rfl
  · rfl

/-- **C118**: dismissing a message leaves the others as they are, and takes the message away. -/
theorem C118_dismiss (s : S) (m m' : Nat) : find (step s (.dismiss m)).issues m' = if m' = m then none else find s.issues m' :=
  find_filter s.issues m m'

end Verif.Server.Warnings
