import Verif.Bsub.Replace

/-! # C48: resource strings survive being parsed, rewritten and printed

`Requirements` is a list of clauses. `NoBang`, `NoParen` and `Plain` are what the code needs and the language does not
guarantee; the `_violated_` theorems show that none of them can be dropped. -/
namespace Verif.Bsub

/-- C48, printing: the text of what was parsed is parsed as the same. -/
theorem C48_roundtrip_partial (s : Str) (a : List Clause) (h : parseBsubR s = some a) (hb : ∀ c ∈ a, c.NoBang) :
    parseBsubR (printReq a) = some a :=
  parse_print a (parse_canon s a h) hb

/-- and so printing is a normal form: whatever is parsed from the printed text prints as the same text -/
theorem C48_normal_partial (s : Str) (a b : List Clause) (h : parseBsubR s = some a) (hb : ∀ c ∈ a, c.NoBang)
    (h2 : parseBsubR (printReq a) = some b) : printReq b = printReq a := by
  rw [C48_roundtrip_partial s a h hb] at h2
  cases h2; rfl

/-- C48, rewriting: the text after `ReplaceMemoryAndHosts` can be parsed. In what is parsed from it every comparison of `mem` in
`select` and `rusage`, and of `hosts` in `span`, has the wanted operator and value. All the rest is as it was. -/
theorem C48_rewrite_partial (s mem hosts : Str) (a : List Clause) (h : parseBsubR s = some a) (hm : IsNum mem) (hh : IsNum hosts)
    (hb : ∀ c ∈ a, c.NoBang) (hp : TopNoParen a) (hpl : ∀ c ∈ a, c.Plain) :
    ∃ b, parseBsubR (printReq (replaceMemoryAndHosts mem hosts a)) = some b ∧
      HasWanted mem hosts b ∧ blanked b = blanked a := by
  have hc := parse_canon s a h
  refine ⟨_, replaced_reads mem hosts a hm hh hc hb hp, ?_, ?_⟩
  · cases a with
    | nil => trivial
    | cons c cs =>
      simp only [replaceMemoryAndHosts, List.map_cons]
      refine ⟨hasWanted_norm mem hosts true c (hpl c (by simp)) (topCanon_all hc c (by simp)), ?_⟩
      intro c' h'
      obtain ⟨c0, h0, rfl⟩ := List.mem_map.1 h'
      obtain ⟨y, hy, rfl⟩ := List.mem_map.1 h0
      exact hasWanted_norm mem hosts false y (hpl y (List.mem_cons_of_mem _ hy)) (topCanon_all hc y (List.mem_cons_of_mem _ hy))
  · cases a with
    | nil => rfl
    | cons c cs =>
      simp only [replaceMemoryAndHosts, List.map_cons, blanked]
      rw [blanked_norm mem hosts true c (hpl c (by simp)) (topCanon_all hc c (by simp)), List.map_map, List.map_map]
      refine congrArg _ (List.map_congr_left ?_)
      intro y hy
      exact blanked_norm mem hosts false y (hpl y (List.mem_cons_of_mem _ hy)) (topCanon_all hc y (List.mem_cons_of_mem _ hy))

/-! ## examples and violations -/

deriving instance DecidableEq for Primary, Clauses, Clause, Logic, Binary, Call

/-- parse and print -/
def again (s : String) : Option Str := (parseBsubR s.toList).map printReq

/-- parse, rewrite and print -/
def rewritten (s : String) : Option Str :=
  (parseBsubR s.toList).map fun a => printReq (replaceMemoryAndHosts "1234".toList "1".toList a)

/-- what a user gives is rewritten as documented, and spaces and words around it are kept -/
example : rewritten "select[mem>100 && (tmp>5 || mem >= 7)] rusage[mem=100:tmp=3] span[hosts=4] order[mem]" =
    some "select[mem > 1234 && (tmp > 5 || mem > 1234)] rusage[mem=1234:tmp=3] span[hosts=1] order[mem]".toList := by
  decide +kernel

/-- a bare first clause is a `select` -/
example : rewritten "type==any && mem>5" = some "type==any && mem > 1234".toList := by decide +kernel

/-- the hypotheses of `C48_rewrite_partial` are met -/
example : ∃ a, parseBsubR "select[mem>100 && (tmp>5)] rusage[mem=100]".toList = some a ∧ (∀ c ∈ a, c.NoBang) ∧ TopNoParen a ∧
    (∀ c ∈ a, c.Plain) ∧ IsNum "1234".toList ∧ IsNum "1".toList := by
  let sel : Clause := .cond (.one (.one (.bare (.word "select".toList))))
    (.ext (.bin (.bare (.word "mem".toList)) .gt (.one (.bare (.lit .number "100".toList)))) .and
      (.one (.one (.bare (.parens (.one (.bare (.one
        (.bin (.bare (.word "tmp".toList)) .gt (.one (.bare (.lit .number "5".toList)))))))))))) 
  let rus : Clause := .cond (.one (.one (.bare (.word "rusage".toList))))
    (.one (.bin (.bare (.word "mem".toList)) .eq (.one (.bare (.lit .number "100".toList)))))
  refine ⟨[sel, rus], by decide +kernel, ?_, ?_, ?_, ?_, ?_⟩
  · intro c hc
    simp only [List.mem_cons, List.not_mem_nil, or_false] at hc
    rcases hc with rfl | rfl <;>
      simp [sel, rus, Clause.NoBang, Logic.NoBang, Binary.NoBang, Call.NoBang, Primary.NoBang, Clauses.NoBang, Call.isKey]
  · constructor
    · intro c hc
      simp only [List.mem_cons, List.not_mem_nil, or_false] at hc
      rcases hc with rfl | rfl <;>
        simp [sel, rus, Clause.NoParen, Logic.NoParen, Binary.NoParen, Call.NoParen, Primary.NoParen, Clauses.NoParen]
    · intro c hc
      simp only [List.tail_cons, List.mem_cons, List.not_mem_nil, or_false] at hc
      subst hc
      rfl
  · intro c hc
    simp only [List.mem_cons, List.not_mem_nil, or_false] at hc
    rcases hc with rfl | rfl <;> exact ⟨_, rfl⟩
  · exact ⟨by decide, by decide⟩
  · exact ⟨by decide, by decide⟩

/-- an exclamation mark before `=` is printed without the space that kept them apart, and cannot be parsed any more -/
theorem C48_violated_bang : again "! = b" = some "!=b".toList ∧ again "!=b" = none := by decide +kernel

/-- a character that no token starts with ends the string, without an error: what follows is lost from the request to LSF -/
theorem C48_violated_dropped :
    rewritten "mem>10 & tmp>5" = some "mem > 1234".toList ∧
    rewritten "select[mem>1]] rusage[mem=2]" = some "select[mem > 1234]".toList ∧
    rewritten "-5" = some "".toList := by decide +kernel

/-- a comparison with `mem` on the right is left as it was -/
theorem C48_violated_reversed : rewritten "select[1000<mem]" = some "select[1000 < mem]".toList := by decide +kernel

/-- alternatives in braces are all treated as `select`, so `rusage` gets a comparison instead of an amount; and with factors they
are not treated at all -/
theorem C48_violated_braces :
    rewritten "{select[mem>5] rusage[mem=5]}" = some "{select[mem > 1234] rusage[mem > 1234]}".toList ∧
    rewritten "2*{select[mem>5]} + {select[mem>7]}" = some "2 * {select[mem > 5]} + {select[mem > 7]}".toList := by
  decide +kernel

/-- the value written in front of a clause in parentheses makes a function call of it -/
theorem C48_violated_call :
    rewritten "mem>max(1,2) (tmp>5)" = some "mem > 1234 (tmp > 5)".toList ∧
    (parseBsubR "mem>max(1,2) (tmp>5)".toList).map List.length = some 2 ∧
    (parseBsubR "mem > 1234 (tmp > 5)".toList).map List.length = some 1 := by decide +kernel

end Verif.Bsub
