import Verif.Bsub.Fuel
import Verif.Bsub.Lex
import Verif.Bsub.Tree
/-! # C48: whitespace before requirements -/
namespace Verif.Bsub

theorem parseTop_more : ∀ (n m : Nat) (ts : List Tok), n ≤ m → parseTop n ts ≠ .fuel → parseTop m ts = parseTop n ts
  | 0, _, _, _, h => absurd rfl h
  | n + 1, 0, _, h, _ => by omega
  | n + 1, m + 1, [], _, _ => rfl
  | n + 1, m + 1, t :: ts, hm, h => by
    simp only [parseTop] at h ⊢
    cases hc : parseClause (steps (t :: ts)) (t :: ts) with
    | fuel => rfl
    | err => rfl
    | ok c r =>
      rw [hc] at h
      simp only [Res.bind] at h ⊢
      rw [parseTop_more n m (strip r) (by omega) (by intro e; rw [e] at h; simp at h)]

/-- the tokens but for leading whitespace -/
theorem strip_lex (c : Char) (hc : isWs c = true) (s : Str) : strip (lex (c :: s)) = strip (lex s) ∧ (lex s).length ≤ (lex (c :: s)).length + 1 := by
  have h1 : lex (c :: s) = ⟨.ws, c :: s.takeWhile isWs⟩ :: lexLoop s.length [] (s.dropWhile isWs) := by
    simp only [lex, List.length_cons, lexLoop, lexOne, hc, if_true]
  cases s with
  | nil => rw [h1]; simp [lex, lexLoop, strip, lexOne]
  | cons d r =>
    by_cases hd : isWs d = true
    · have h2 : lex (d :: r) = ⟨.ws, d :: r.takeWhile isWs⟩ :: lexLoop r.length [] (r.dropWhile isWs) := by
        simp only [lex, List.length_cons, lexLoop, lexOne, hd, if_true]
      have h3 : (d :: r).dropWhile isWs = r.dropWhile isWs := by simp [List.dropWhile_cons, hd]
      have h4 : lexLoop (d :: r).length [] (r.dropWhile isWs) = lexLoop r.length [] (r.dropWhile isWs) :=
        lex_fuel r.length _ [] _ (List.dropWhile_sublist (l := r) _).length_le (by simp)
      rw [h1, h2, h3, h4]
      simp [strip]
    · have h3 : (d :: r).dropWhile isWs = d :: r := by simp [List.dropWhile_cons, hd]
      rw [h1, h3]
      simp [strip, lex]
      omega

theorem strip_le (ts : List Tok) : (strip ts).length ≤ ts.length := by
  induction ts with
  | nil => simp [strip]
  | cons t ts ih => unfold strip; split <;> simp <;> omega

/-- C48: blanks, tabs and ends of lines, of either kind, before requirements do not matter. -/
theorem C48_space (c : Char) (hc : c ∈ [' ', '\t', '\n', '\r']) (s : Str) : parseBsubR (c :: s) = parseBsubR s := by
  have hw : isWs c = true := by
    simp only [List.mem_cons, List.not_mem_nil, or_false] at hc
    rcases hc with rfl | rfl | rfl | rfl <;> decide
  obtain ⟨h1, _⟩ := strip_lex c hw s
  have big : ∀ n m ts, ts.length < n → ts.length < m → parseTop n ts = parseTop m ts := by
    intro n m ts hn hm
    rcases Nat.le_total n m with h | h
    · exact (parseTop_more n m ts h (parseTop_fuel n ts hn)).symm
    · exact parseTop_more m n ts h (parseTop_fuel m ts hm)
  unfold parseBsubR
  rw [h1, big ((lex (c :: s)).length + 1) ((lex s).length + 1) (strip (lex s))
    (by have := strip_le (lex (c :: s)); rw [h1] at this; omega) (by have := strip_le (lex s); omega)]

example : (parseBsubR "\r\n\t select[mem>5]".toList).map printReq = some "select[mem > 5]".toList := by decide +kernel

end Verif.Bsub
