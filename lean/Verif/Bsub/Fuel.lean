import Verif.Bsub.Model

/-! # The parser's number of steps is enough: it never gives up for want of them -/
namespace Verif.Bsub

theorem bind_ok {α β : Type} (r : Res α) (f : α → List Tok → Res β) (b : β) (rest : List Tok) :
    r.bind f = .ok b rest ↔ ∃ a r', r = .ok a r' ∧ f a r' = .ok b rest := by
  cases r with
  | ok a r' =>
    constructor
    · intro h; exact ⟨a, r', rfl, h⟩
    · rintro ⟨a', r'', e, h⟩
      cases e
      exact h
  | err =>
    constructor
    · intro h; cases h
    · rintro ⟨_, _, h, _⟩; cases h
  | fuel =>
    constructor
    · intro h; cases h
    · rintro ⟨_, _, h, _⟩; cases h

theorem bind_fuel {α β : Type} (r : Res α) (f : α → List Tok → Res β) :
    r.bind f = .fuel ↔ r = .fuel ∨ ∃ a r', r = .ok a r' ∧ f a r' = .fuel := by
  cases r with
  | ok a r' =>
    constructor
    · intro h; exact Or.inr ⟨a, r', rfl, h⟩
    · rintro (h | ⟨a', r'', e, h⟩)
      · cases h
      · cases e
        exact h
  | err =>
    constructor
    · intro h; cases h
    · rintro (h | ⟨a', r'', e, h⟩)
      · cases h
      · cases e
  | fuel => exact ⟨fun _ => Or.inl rfl, fun _ => rfl⟩

theorem strip_length (ts : List Tok) : (strip ts).length ≤ ts.length := by
  induction ts with
  | nil => simp [strip]
  | cons t ts ih =>
    unfold strip
    split
    · simp only [List.length_cons]; omega
    · exact Nat.le_refl _

theorem acceptOp_length (d : String) (ts r : List Tok) (h : acceptOp d ts = some r) : r.length + 1 = ts.length := by
  cases ts with
  | nil => simp [acceptOp] at h
  | cons t ts =>
    simp only [acceptOp] at h
    split at h
    · cases h; rfl
    · cases h

theorem peekBin_length (ts : List Tok) (o : BinOp) (r : List Tok) (h : peekBin ts = some (o, r)) : r.length + 1 = ts.length := by
  cases ts with
  | nil => simp [peekBin] at h
  | cons t ts =>
    simp only [peekBin, Option.map_eq_some_iff] at h
    obtain ⟨_, _, h⟩ := h
    cases h; rfl

theorem peekLog_length (ts : List Tok) (o : LogOp) (r : List Tok) (h : peekLog ts = some (o, r)) : r.length + 1 = ts.length := by
  cases ts with
  | nil => simp [peekLog] at h
  | cons t ts =>
    simp only [peekLog, Option.map_eq_some_iff] at h
    obtain ⟨_, _, h⟩ := h
    cases h; rfl

theorem close_ok {α : Type} (d : String) (a b : α) (ts r : List Tok) (h : close d a ts = .ok b r) :
    b = a ∧ acceptOp d ts = some r := by
  unfold close at h
  split at h
  · rename_i r' e
    cases h
    exact ⟨rfl, e⟩
  · cases h

theorem close_fuel {α : Type} (d : String) (a : α) (ts : List Tok) : close d a ts ≠ .fuel := by
  unfold close
  split <;> intro h <;> cases h

/-- what one round of parsing uses up -/
structure Eats (n : Nat) : Prop where
  primary : ∀ ts x r, parsePrimary n ts = .ok x r → r.length < ts.length
  clauses : ∀ d ts x r, parseClauses n d ts = .ok x r → r.length < ts.length
  clause : ∀ ts x r, parseClause n ts = .ok x r → r.length < ts.length
  logic : ∀ ts x r, parseLogic n ts = .ok x r → r.length < ts.length
  binary : ∀ ts x r, parseBinary n ts = .ok x r → r.length < ts.length
  call : ∀ ts x r, parseCall n ts = .ok x r → r.length < ts.length

theorem eats : ∀ n, Eats n
  | 0 => by
    constructor <;> intros <;> rename_i h <;> simp [parsePrimary, parseClauses, parseClause, parseLogic, parseBinary, parseCall] at h
  | n + 1 => by
    have ih := eats n
    constructor
    · intro ts x r h
      cases ts with
      | nil => simp [parsePrimary] at h
      | cons t ts =>
        simp only [parsePrimary] at h
        split at h
        · cases h
        · cases h; simp
        · cases h; simp
        · cases h; simp
        · have hs := strip_length ts
          split at h
          · obtain ⟨a, r', h1, h2⟩ := (bind_ok _ _ _ _).1 h
            cases h2
            have := ih.clauses _ _ _ _ h1
            simp only [List.length_cons]; omega
          · split at h
            · obtain ⟨a, r', h1, h2⟩ := (bind_ok _ _ _ _).1 h
              cases h2
              have := ih.clauses _ _ _ _ h1
              simp only [List.length_cons]; omega
            · cases h
    · intro d ts x r h
      simp only [parseClauses] at h
      obtain ⟨a, r', h1, h2⟩ := (bind_ok _ _ _ _).1 h
      have e1 := ih.clause _ _ _ h1
      have e2 := strip_length r'
      split at h2
      · rename_i r'' ha
        cases h2
        have := acceptOp_length _ _ _ ha
        omega
      · obtain ⟨a', r'', h3, h4⟩ := (bind_ok _ _ _ _).1 h2
        cases h4
        have := ih.clauses _ _ _ _ h3
        omega
    · intro ts x r h
      simp only [parseClause] at h
      obtain ⟨a, r', h1, h2⟩ := (bind_ok _ _ _ _).1 h
      have e1 := ih.logic _ _ _ h1
      have e2 := strip_length r'
      split at h2
      · rename_i r'' ha
        have e3 := acceptOp_length _ _ _ ha
        obtain ⟨a', r3, h3, h4⟩ := (bind_ok _ _ _ _).1 h2
        have e4 := ih.logic _ _ _ h3
        have e5 := acceptOp_length _ _ _ (close_ok _ _ _ _ _ h4).2
        have e6 := strip_length r''
        have e7 := strip_length r3
        omega
      · cases h2
        omega
    · intro ts x r h
      simp only [parseLogic] at h
      obtain ⟨a, r', h1, h2⟩ := (bind_ok _ _ _ _).1 h
      have e1 := ih.binary _ _ _ h1
      have e2 := strip_length r'
      split at h2
      · rename_i o r'' ha
        have e3 := peekLog_length _ _ _ ha
        obtain ⟨a', r3, h3, h4⟩ := (bind_ok _ _ _ _).1 h2
        cases h4
        have e4 := ih.logic _ _ _ h3
        have e6 := strip_length r''
        omega
      · cases h2
        omega
    · intro ts x r h
      simp only [parseBinary] at h
      obtain ⟨a, r', h1, h2⟩ := (bind_ok _ _ _ _).1 h
      have e1 := ih.call _ _ _ h1
      have e2 := strip_length r'
      split at h2
      · rename_i o r'' ha
        have e3 := peekBin_length _ _ _ ha
        obtain ⟨a', r3, h3, h4⟩ := (bind_ok _ _ _ _).1 h2
        cases h4
        have e4 := ih.binary _ _ _ h3
        have e6 := strip_length r''
        omega
      · cases h2
        omega
    · intro ts x r h
      simp only [parseCall] at h
      obtain ⟨a, r', h1, h2⟩ := (bind_ok _ _ _ _).1 h
      have e1 := ih.primary _ _ _ h1
      have e2 := strip_length r'
      split at h2
      · rename_i r'' ha
        have e3 := acceptOp_length _ _ _ ha
        obtain ⟨a', r3, h3, h4⟩ := (bind_ok _ _ _ _).1 h2
        have e4 := ih.logic _ _ _ h3
        have e5 := acceptOp_length _ _ _ (close_ok _ _ _ _ _ h4).2
        have e7 := strip_length r3
        omega
      · cases h2
        omega

/-- enough steps -/
structure Enough (n : Nat) : Prop where
  primary : ∀ ts, 6 * ts.length + 1 ≤ n → parsePrimary n ts ≠ .fuel
  clauses : ∀ d ts, 6 * ts.length + 6 ≤ n → parseClauses n d ts ≠ .fuel
  clause : ∀ ts, 6 * ts.length + 5 ≤ n → parseClause n ts ≠ .fuel
  logic : ∀ ts, 6 * ts.length + 4 ≤ n → parseLogic n ts ≠ .fuel
  binary : ∀ ts, 6 * ts.length + 3 ≤ n → parseBinary n ts ≠ .fuel
  call : ∀ ts, 6 * ts.length + 2 ≤ n → parseCall n ts ≠ .fuel

theorem enough : ∀ n, Enough n
  | 0 => by constructor <;> intros <;> omega
  | n + 1 => by
    have ih := enough n
    have eat := eats n
    constructor
    · intro ts hn h
      cases ts with
      | nil => simp [parsePrimary] at h
      | cons t ts =>
        simp only [List.length_cons] at hn
        have hs := strip_length ts
        simp only [parsePrimary] at h
        split at h
        · cases h
        · cases h
        · cases h
        · cases h
        · split at h
          · rcases (bind_fuel _ _).1 h with h | ⟨_, _, _, h⟩
            · exact ih.clauses _ _ (by omega) h
            · cases h
          · split at h
            · rcases (bind_fuel _ _).1 h with h | ⟨_, _, _, h⟩
              · exact ih.clauses _ _ (by omega) h
              · cases h
            · cases h
    · intro d ts hn h
      simp only [parseClauses] at h
      rcases (bind_fuel _ _).1 h with h | ⟨a, r', h1, h2⟩
      · exact ih.clause _ (by omega) h
      · have e1 := eat.clause _ _ _ h1
        have e2 := strip_length r'
        split at h2
        · cases h2
        · rcases (bind_fuel _ _).1 h2 with h | ⟨_, _, _, h⟩
          · exact ih.clauses _ _ (by omega) h
          · cases h
    · intro ts hn h
      simp only [parseClause] at h
      rcases (bind_fuel _ _).1 h with h | ⟨a, r', h1, h2⟩
      · exact ih.logic _ (by omega) h
      · have e1 := eat.logic _ _ _ h1
        have e2 := strip_length r'
        split at h2
        · rename_i r'' ha
          have e3 := acceptOp_length _ _ _ ha
          have e4 := strip_length r''
          rcases (bind_fuel _ _).1 h2 with h | ⟨_, _, _, h⟩
          · exact ih.logic _ (by omega) h
          · exact close_fuel _ _ _ h
        · cases h2
    · intro ts hn h
      simp only [parseLogic] at h
      rcases (bind_fuel _ _).1 h with h | ⟨a, r', h1, h2⟩
      · exact ih.binary _ (by omega) h
      · have e1 := eat.binary _ _ _ h1
        have e2 := strip_length r'
        split at h2
        · rename_i o r'' ha
          have e3 := peekLog_length _ _ _ ha
          have e4 := strip_length r''
          rcases (bind_fuel _ _).1 h2 with h | ⟨_, _, _, h⟩
          · exact ih.logic _ (by omega) h
          · cases h
        · cases h2
    · intro ts hn h
      simp only [parseBinary] at h
      rcases (bind_fuel _ _).1 h with h | ⟨a, r', h1, h2⟩
      · exact ih.call _ (by omega) h
      · have e1 := eat.call _ _ _ h1
        have e2 := strip_length r'
        split at h2
        · rename_i o r'' ha
          have e3 := peekBin_length _ _ _ ha
          have e4 := strip_length r''
          rcases (bind_fuel _ _).1 h2 with h | ⟨_, _, _, h⟩
          · exact ih.binary _ (by omega) h
          · cases h
        · cases h2
    · intro ts hn h
      simp only [parseCall] at h
      rcases (bind_fuel _ _).1 h with h | ⟨a, r', h1, h2⟩
      · exact ih.primary _ (by omega) h
      · have e1 := eat.primary _ _ _ h1
        have e2 := strip_length r'
        split at h2
        · rename_i r'' ha
          have e3 := acceptOp_length _ _ _ ha
          rcases (bind_fuel _ _).1 h2 with h | ⟨_, _, _, h⟩
          · exact ih.logic _ (by omega) h
          · exact close_fuel _ _ _ h
        · cases h2

theorem parseClause_fuel (ts : List Tok) : parseClause (steps ts) ts ≠ .fuel :=
  (enough _).clause ts (by unfold steps; omega)

theorem parseTop_fuel : ∀ (n : Nat) (ts : List Tok), ts.length < n → parseTop n ts ≠ .fuel
  | 0, ts, h => by omega
  | n + 1, [], _ => by intro h; cases h
  | n + 1, t :: ts, hn => by
    intro h
    simp only [parseTop] at h
    rcases (bind_fuel _ _).1 h with h | ⟨a, r', h1, h2⟩
    · exact parseClause_fuel _ h
    · have e1 := (eats _).clause _ _ _ h1
      have e2 := strip_length r'
      rcases (bind_fuel _ _).1 h2 with h | ⟨_, _, _, h⟩
      · exact parseTop_fuel n _ (by omega) h
      · cases h

end Verif.Bsub
