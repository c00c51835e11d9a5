import Verif.Bsub.Props
/-! # C48: rewriting a second time, and rewriting what does not speak of memory and hosts -/
namespace Verif.Bsub

/-! ### Specification: where a name occurs -/

mutual
/-- the name occurs somewhere -/
def Primary.mentions (k : Str) : Primary → Prop
  | .word d => d = k
  | .lit _ _ => False
  | .parens cs => cs.mentions k
  | .braces cs => cs.mentions k
def Clauses.mentions (k : Str) : Clauses → Prop
  | .one c => c.mentions k
  | .more c cs => c.mentions k ∨ cs.mentions k
def Clause.mentions (k : Str) : Clause → Prop
  | .bare l => l.mentions k
  | .cond l c => l.mentions k ∨ c.mentions k
def Logic.mentions (k : Str) : Logic → Prop
  | .one b => b.mentions k
  | .ext b _ l => b.mentions k ∨ l.mentions k
def Binary.mentions (k : Str) : Binary → Prop
  | .one c => c.mentions k
  | .bin c _ b => c.mentions k ∨ b.mentions k
def Call.mentions (k : Str) : Call → Prop
  | .bare p => p.mentions k
  | .app p l => p.mentions k ∨ l.mentions k
end

/-- The clause at this place is in no section that has something to replace: a clause without a section counts as `select` if it is
the first. -/
def Clause.elsewhere (i : Nat) : Clause → Prop
  | .bare _ => i ≠ 0
  | .cond l _ => ∀ n, l.firstName = some n → n ≠ "select".toList ∧ n ≠ "rusage".toList ∧ n ≠ "span".toList

/-! ### Proofs -/

theorem isKey_mentions {k : Str} : ∀ {c : Call}, c.isKey k = true → c.mentions k
  | .bare (.word d), h => by simpa [Call.isKey, Call.mentions, Primary.mentions] using h
  | .bare (.lit _ _), h | .bare (.parens _), h | .bare (.braces _), h | .app _ _, h => by simp [Call.isKey] at h

mutual
theorem Primary.same {k : Str} {o v} : ∀ p : Primary, ¬ p.mentions k → p.replace k o v = p
  | .word _, _ | .lit _ _, _ => by simp only [Primary.replace]
  | .parens cs, h => by simp only [Primary.mentions] at h; simp only [Primary.replace, Clauses.same cs h]
  | .braces cs, h => by simp only [Primary.mentions] at h; simp only [Primary.replace, Clauses.same cs h]
theorem Clauses.same {k : Str} {o v} : ∀ p : Clauses, ¬ p.mentions k → p.replace k o v = p
  | .one c, h => by simp only [Clauses.mentions] at h; simp only [Clauses.replace, Clause.same c h]
  | .more c cs, h => by
    simp only [Clauses.mentions, not_or] at h; simp only [Clauses.replace, Clause.same c h.1, Clauses.same cs h.2]
theorem Clause.same {k : Str} {o v} : ∀ p : Clause, ¬ p.mentions k → p.replace k o v = p
  | .bare l, h => by simp only [Clause.mentions] at h; simp only [Clause.replace, Logic.same l h]
  | .cond l c, h => by
    simp only [Clause.mentions, not_or] at h; simp only [Clause.replace, Logic.same l h.1, Logic.same c h.2]
theorem Logic.same {k : Str} {o v} : ∀ p : Logic, ¬ p.mentions k → p.replace k o v = p
  | .one b, h => by simp only [Logic.mentions] at h; simp only [Logic.replace, Binary.same b h]
  | .ext b _ l, h => by
    simp only [Logic.mentions, not_or] at h; simp only [Logic.replace, Binary.same b h.1, Logic.same l h.2]
theorem Binary.same {k : Str} {o v} : ∀ p : Binary, ¬ p.mentions k → p.replace k o v = p
  | .one c, h => by simp only [Binary.mentions] at h; simp only [Binary.replace, Call.same c h]
  | .bin c _ _, h => by
    simp only [Binary.mentions, not_or] at h
    simp only [Binary.replace]
    rw [if_neg (fun hk => h.1 (isKey_mentions hk))]
theorem Call.same {k : Str} {o v} : ∀ p : Call, ¬ p.mentions k → p.replace k o v = p
  | .bare p, h => by simp only [Call.mentions] at h; simp only [Call.replace, Primary.same p h]
  | .app p l, h => by
    simp only [Call.mentions, not_or] at h; simp only [Call.replace, Primary.same p h.1, Logic.same l h.2]
end

mutual
theorem Primary.twice {k : Str} {o v} : ∀ p : Primary, (p.replace k o v).replace k o v = p.replace k o v
  | .word _ | .lit _ _ => by simp only [Primary.replace]
  | .parens cs => by simp only [Primary.replace, Clauses.twice cs]
  | .braces cs => by simp only [Primary.replace, Clauses.twice cs]
theorem Clauses.twice {k : Str} {o v} : ∀ p : Clauses, (p.replace k o v).replace k o v = p.replace k o v
  | .one c => by simp only [Clauses.replace, Clause.twice c]
  | .more c cs => by simp only [Clauses.replace, Clause.twice c, Clauses.twice cs]
theorem Clause.twice {k : Str} {o v} : ∀ p : Clause, (p.replace k o v).replace k o v = p.replace k o v
  | .bare l => by simp only [Clause.replace, Logic.twice l]
  | .cond l c => by simp only [Clause.replace, Logic.twice l, Logic.twice c]
theorem Logic.twice {k : Str} {o v} : ∀ p : Logic, (p.replace k o v).replace k o v = p.replace k o v
  | .one b => by simp only [Logic.replace, Binary.twice b]
  | .ext b _ l => by simp only [Logic.replace, Binary.twice b, Logic.twice l]
theorem Binary.twice {k : Str} {o v} : ∀ p : Binary, (p.replace k o v).replace k o v = p.replace k o v
  | .one c => by simp only [Binary.replace, Call.twice c]
  | .bin c o' b => by
    by_cases h : c.isKey k = true
    · simp only [Binary.replace, h, if_true]
    · simp only [Binary.replace, h, if_false, Bool.false_eq_true]
theorem Call.twice {k : Str} {o v} : ∀ p : Call, (p.replace k o v).replace k o v = p.replace k o v
  | .bare p => by simp only [Call.replace, Primary.twice p]
  | .app p l => by simp only [Call.replace, Primary.twice p, Logic.twice l]
end

theorem section_twice (mem hosts n : Str) (l : Logic) :
    replaceSection mem hosts n (replaceSection mem hosts n l) = replaceSection mem hosts n l := by
  unfold replaceSection
  by_cases h1 : n = "select".toList
  · simp only [h1, if_true, Logic.twice]
  by_cases h2 : n = "rusage".toList
  · rw [if_neg h1, if_pos h2, if_neg h1, if_pos h2, Logic.twice]
  by_cases h3 : n = "span".toList
  · rw [if_neg h1, if_neg h2, if_pos h3, if_neg h1, if_neg h2, if_pos h3, Logic.twice]
  · simp only [h1, h2, h3, if_false]

theorem section_same (mem hosts n : Str) (l : Logic) (h1 : ¬ l.mentions "mem".toList) (h2 : ¬ l.mentions "hosts".toList) :
    replaceSection mem hosts n l = l := by
  unfold replaceSection
  split
  · exact Logic.same l h1
  split
  · exact Logic.same l h1
  split
  · exact Logic.same l h2
  · rfl

theorem clause_twice (mem hosts : Str) (first : Bool) (c : Clause) :
    replaceClause mem hosts first (replaceClause mem hosts first c) = replaceClause mem hosts first c := by
  cases c with
  | bare l => cases first <;> simp [replaceClause, section_twice]
  | cond l c =>
    unfold replaceClause
    cases h : l.firstName with
    | none => simp [h]
    | some n => simp [h, section_twice]

theorem clause_same (mem hosts : Str) (first : Bool) (c : Clause) (h1 : ¬ c.mentions "mem".toList) (h2 : ¬ c.mentions "hosts".toList) :
    replaceClause mem hosts first c = c := by
  cases c with
  | bare l =>
    simp only [Clause.mentions] at h1 h2
    cases first <;> simp [replaceClause, section_same mem hosts _ l h1 h2]
  | cond l c =>
    simp only [Clause.mentions, not_or] at h1 h2
    unfold replaceClause
    cases h : l.firstName with
    | none => simp [h]
    | some n => simp [h, section_same mem hosts n c h1.2 h2.2]

/-! ### Properties -/

/-- C48: rewriting a second time, with the same values, changes nothing. -/
theorem C48_again (mem hosts : Str) (a : List Clause) :
    replaceMemoryAndHosts mem hosts (replaceMemoryAndHosts mem hosts a) = replaceMemoryAndHosts mem hosts a := by
  cases a with
  | nil => rfl
  | cons c cs =>
    simp only [replaceMemoryAndHosts, List.map_map, clause_twice]
    congr 1
    exact List.map_congr_left fun c _ => clause_twice mem hosts false c

/-- C48: requirements that name neither `mem` nor `hosts` stay as they are. -/
theorem C48_unmentioned (mem hosts : Str) (a : List Clause)
    (h : ∀ c ∈ a, ¬ c.mentions "mem".toList ∧ ¬ c.mentions "hosts".toList) : replaceMemoryAndHosts mem hosts a = a := by
  cases a with
  | nil => rfl
  | cons c cs =>
    simp only [replaceMemoryAndHosts]
    rw [clause_same mem hosts true c (h c (by simp)).1 (h c (by simp)).2]
    congr 1
    rw [← List.map_id cs]
    simp only [List.map_map]
    exact List.map_congr_left fun c hc => by
      have := h c (by simp [hc])
      simpa using clause_same mem hosts false c this.1 this.2

/-- C48: clauses of sections other than `select`, `rusage` and `span`, and clauses without a section that are not the first, stay as
they are, whatever they say. -/
theorem C48_sections (mem hosts : Str) (a : List Clause) (i : Nat) (c : Clause) (h : a[i]? = some c)
    (hs : c.elsewhere i) :
    (replaceMemoryAndHosts mem hosts a)[i]? = some c := by
  have key : ∀ first, (first = true → i = 0) → replaceClause mem hosts first c = c := by
    intro first hf
    cases c with
    | bare l =>
      cases first with
      | true => exact absurd (hf rfl) hs
      | false => rfl
    | cond l c =>
      unfold replaceClause
      cases hn : l.firstName with
      | none => simp [hn]
      | some n =>
        obtain ⟨h1, h2, h3⟩ := hs n hn
        simp only [hn]; unfold replaceSection; rw [if_neg h1, if_neg h2, if_neg h3]
  cases a with
  | nil => simp at h
  | cons x xs =>
    cases i with
    | zero =>
      simp only [List.getElem?_cons_zero, Option.some.injEq] at h
      subst h
      simp [replaceMemoryAndHosts, key true (fun _ => rfl)]
    | succ i =>
      simp only [List.getElem?_cons_succ] at h
      simp [replaceMemoryAndHosts, h, key false (fun h => by cases h)]

/-- requirements that mention neither -/
def demoPlain : Str := "select[tmp>5 && type==any] order[cpu:ut] same[type]".toList

example : ∃ a, parseBsubR demoPlain = some a ∧ a.length = 3 ∧ printReq (replaceMemoryAndHosts "12".toList "3".toList a) = printReq a := by
  have : (parseBsubR demoPlain).any (fun a => a.length = 3 ∧ printReq (replaceMemoryAndHosts "12".toList "3".toList a) = printReq a) = true := by
    decide +kernel
  cases h : parseBsubR demoPlain with
  | none => rw [h] at this; simp at this
  | some a => rw [h] at this; exact ⟨a, rfl, by simpa using this⟩

/-- one clause of each kind -/
def demoClauses : List Clause :=
  [.cond (.one (.one (.bare (.word "order".toList)))) (.one (.bin (.bare (.word "mem".toList)) .gt (.one (.bare (.lit .number "5".toList))))),
   .bare (.one (.bin (.bare (.word "mem".toList)) .gt (.one (.bare (.lit .number "5".toList)))))]
example : demoClauses[0]? ≠ none ∧ demoClauses[1]? ≠ none ∧
    printReq (replaceMemoryAndHosts "12".toList "3".toList demoClauses) = "order[mem > 5] mem > 5".toList := by decide +kernel

end Verif.Bsub
