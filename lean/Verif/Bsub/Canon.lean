import Verif.Bsub.Tree

/-! # What the parser gives is canonical: no tree that would read differently when printed -/
namespace Verif.Bsub

theorem strip_suffix (ts : List Tok) : strip ts <:+ ts := by
  induction ts with
  | nil => exact List.suffix_refl _
  | cons t ts ih =>
    unfold strip
    split
    · exact ih.trans (List.suffix_cons t ts)
    · exact List.suffix_refl _

theorem acceptOp_suffix {d : String} {ts r : List Tok} (h : acceptOp d ts = some r) : r <:+ ts := by
  cases ts with
  | nil => simp [acceptOp] at h
  | cons t ts =>
    simp only [acceptOp] at h
    split at h
    · cases h; exact List.suffix_cons _ _
    · cases h

theorem peekBin_suffix {ts : List Tok} {o : BinOp} {r : List Tok} (h : peekBin ts = some (o, r)) : r <:+ ts := by
  cases ts with
  | nil => simp [peekBin] at h
  | cons t ts =>
    simp only [peekBin, Option.map_eq_some_iff] at h
    obtain ⟨_, _, h⟩ := h
    cases h; exact List.suffix_cons _ _

theorem peekLog_suffix {ts : List Tok} {o : LogOp} {r : List Tok} (h : peekLog ts = some (o, r)) : r <:+ ts := by
  cases ts with
  | nil => simp [peekLog] at h
  | cons t ts =>
    simp only [peekLog, Option.map_eq_some_iff] at h
    obtain ⟨_, _, h⟩ := h
    cases h; exact List.suffix_cons _ _

/-- what holds of the outcome of parsing tokens of which `V` holds -/
structure Good (V : Tok → Prop) (ts r : List Tok) (canon : Prop) (sp : Bool) : Prop where
  canon : canon
  suffix : r <:+ ts
  first : sp = true → ts.head? = some (opTok "(")

structure Out (V : Tok → Prop) (n : Nat) : Prop where
  primary : ∀ ts (p : Primary) r, (∀ t ∈ ts, V t) → parsePrimary n ts = .ok p r → Good V ts r (p.Canon V) p.startsParen
  clauses : ∀ d ts (cs : Clauses) r, (∀ t ∈ ts, V t) → parseClauses n d ts = .ok cs r →
    Good V ts r (cs.Canon V) cs.startsParen
  clause : ∀ ts (c : Clause) r, (∀ t ∈ ts, V t) → parseClause n ts = .ok c r → Good V ts r (c.Canon V ∧ c.F r) c.startsParen
  logic : ∀ ts (l : Logic) r, (∀ t ∈ ts, V t) → parseLogic n ts = .ok l r → Good V ts r (l.Canon V ∧ l.F r) l.startsParen
  binary : ∀ ts (b : Binary) r, (∀ t ∈ ts, V t) → parseBinary n ts = .ok b r → Good V ts r (b.Canon V ∧ b.F r) b.startsParen
  call : ∀ ts (c : Call) r, (∀ t ∈ ts, V t) → parseCall n ts = .ok c r → Good V ts r (c.Canon V ∧ c.F r) c.startsParen

theorem all_suffix {V : Tok → Prop} {ts r : List Tok} (h : ∀ t ∈ ts, V t) (hs : r <:+ ts) : ∀ t ∈ r, V t :=
  fun t ht => h t (hs.subset ht)

theorem notOp_strip {d : String} {r : List Tok} (h : acceptOp d (strip r) = none) : NotOp d (strip r) := by
  unfold NotOp; rw [strip_strip]; exact h

theorem out (V : Tok → Prop) : ∀ n, Out V n
  | 0 => by
    constructor <;> intros <;> rename_i h <;> simp [parsePrimary, parseClauses, parseClause, parseLogic, parseBinary, parseCall] at h
  | n + 1 => by
    have ih := out V n
    constructor
    · intro ts p r hv h
      cases ts with
      | nil => simp [parsePrimary] at h
      | cons t ts =>
        have ht := hv t (by simp)
        have hts : ∀ x ∈ strip ts, V x := all_suffix hv ((strip_suffix ts).trans (List.suffix_cons t ts))
        simp only [parsePrimary] at h
        split at h
        · cases h
        · rename_i e
          cases h
          refine ⟨?_, List.suffix_cons _ _, by simp [Primary.startsParen]⟩
          simp only [Primary.Canon]
          rw [← e]; exact ht
        · rename_i e
          cases h
          refine ⟨?_, List.suffix_cons _ _, by simp [Primary.startsParen]⟩
          simp only [Primary.Canon]
          refine ⟨Or.inl trivial, ?_⟩
          rw [← e]; exact ht
        · rename_i e
          cases h
          refine ⟨?_, List.suffix_cons _ _, by simp [Primary.startsParen]⟩
          simp only [Primary.Canon]
          refine ⟨Or.inr trivial, ?_⟩
          rw [← e]; exact ht
        · split at h
          · rename_i e
            obtain ⟨a, r', h1, h2⟩ := (bind_ok _ _ _ _).1 h
            cases h2
            have g := ih.clauses _ _ _ _ hts h1
            refine ⟨?_, ?_, ?_⟩
            · simp only [Primary.Canon]; exact g.canon
            · exact (g.suffix.trans (strip_suffix ts)).trans (List.suffix_cons t ts)
            · intro _; rw [e]; rfl
          · split at h
            · obtain ⟨a, r', h1, h2⟩ := (bind_ok _ _ _ _).1 h
              cases h2
              have g := ih.clauses _ _ _ _ hts h1
              refine ⟨?_, ?_, ?_⟩
              · simp only [Primary.Canon]; exact g.canon
              · exact (g.suffix.trans (strip_suffix ts)).trans (List.suffix_cons t ts)
              · simp [Primary.startsParen]
            · cases h
    · intro d ts cs r hv h
      simp only [parseClauses] at h
      obtain ⟨c, r', h1, h2⟩ := (bind_ok _ _ _ _).1 h
      have g := ih.clause _ _ _ hv h1
      split at h2
      · rename_i r'' ha
        cases h2
        refine ⟨?_, ?_, ?_⟩
        · simp only [Clauses.Canon]; exact g.canon.1
        · exact ((acceptOp_suffix ha).trans (strip_suffix r')).trans g.suffix
        · simp only [Clauses.startsParen]; exact g.first
      · obtain ⟨cs', r'', h3, h4⟩ := (bind_ok _ _ _ _).1 h2
        cases h4
        have g' := ih.clauses _ _ _ _ (all_suffix hv ((strip_suffix r').trans g.suffix)) h3
        refine ⟨?_, ?_, ?_⟩
        · simp only [Clauses.Canon]
          refine ⟨g.canon.1, g'.canon, ?_⟩
          rintro ⟨he, hs⟩
          have hf := g'.first hs
          cases c with
          | bare l =>
            have hno := g.canon.2.1.2.2 he
            unfold NotOp at hno
            cases hst : strip r' with
            | nil => rw [hst] at hf; simp at hf
            | cons t r2 =>
              rw [hst] at hf hno
              simp at hf
              subst hf
              simp [acceptOp] at hno
          | cond l c => simp [Clause.endsBare] at he
        · exact (g'.suffix.trans (strip_suffix r')).trans g.suffix
        · simp only [Clauses.startsParen]; exact g.first
    · intro ts c r hv h
      simp only [parseClause] at h
      obtain ⟨l, r', h1, h2⟩ := (bind_ok _ _ _ _).1 h
      have g := ih.logic _ _ _ hv h1
      split at h2
      · rename_i r'' ha
        have hsuf : strip r'' <:+ ts := ((strip_suffix r'').trans ((acceptOp_suffix ha).trans (strip_suffix r'))).trans g.suffix
        obtain ⟨c', r3, h3, h4⟩ := (bind_ok _ _ _ _).1 h2
        obtain ⟨rfl, h5⟩ := close_ok _ _ _ _ _ h4
        have g' := ih.logic _ _ _ (all_suffix hv hsuf) h3
        refine ⟨⟨?_, trivial⟩, ?_, ?_⟩
        · simp only [Clause.Canon]; exact ⟨g.canon.1, g'.canon.1⟩
        · exact (((acceptOp_suffix h5).trans (strip_suffix r3)).trans g'.suffix).trans hsuf
        · simp only [Clause.startsParen]; exact g.first
      · rename_i ha
        cases h2
        refine ⟨⟨?_, ⟨⟨?_, ?_, ?_⟩, ?_⟩⟩, ?_, ?_⟩
        · simp only [Clause.Canon]; exact g.canon.1
        · unfold NotBin; rw [strip_strip]; exact g.canon.2.1
        · unfold NotLog; rw [strip_strip]; exact g.canon.2.2.1
        · intro he; unfold NotOp; rw [strip_strip]; exact g.canon.2.2.2 he
        · exact notOp_strip ha
        · exact (strip_suffix r').trans g.suffix
        · simp only [Clause.startsParen]; exact g.first
    · intro ts l r hv h
      simp only [parseLogic] at h
      obtain ⟨b, r', h1, h2⟩ := (bind_ok _ _ _ _).1 h
      have g := ih.binary _ _ _ hv h1
      split at h2
      · rename_i o r'' ha
        have hsuf : strip r'' <:+ ts := ((strip_suffix r'').trans ((peekLog_suffix ha).trans (strip_suffix r'))).trans g.suffix
        obtain ⟨l', r3, h3, h4⟩ := (bind_ok _ _ _ _).1 h2
        cases h4
        have g' := ih.logic _ _ _ (all_suffix hv hsuf) h3
        refine ⟨⟨?_, g'.canon.2⟩, ?_, ?_⟩
        · simp only [Logic.Canon]; exact ⟨g.canon.1, g'.canon.1⟩
        · exact g'.suffix.trans hsuf
        · simp only [Logic.startsParen]; exact g.first
      · rename_i ha
        cases h2
        refine ⟨⟨?_, ⟨?_, ?_, ?_⟩⟩, ?_, ?_⟩
        · simp only [Logic.Canon]; exact g.canon.1
        · unfold NotBin; rw [strip_strip]; exact g.canon.2.1
        · unfold NotLog; rw [strip_strip]; exact ha
        · intro he; unfold NotOp; rw [strip_strip]; exact g.canon.2.2 he
        · exact (strip_suffix r').trans g.suffix
        · simp only [Logic.startsParen]; exact g.first
    · intro ts b r hv h
      simp only [parseBinary] at h
      obtain ⟨c, r', h1, h2⟩ := (bind_ok _ _ _ _).1 h
      have g := ih.call _ _ _ hv h1
      split at h2
      · rename_i o r'' ha
        have hsuf : strip r'' <:+ ts := ((strip_suffix r'').trans ((peekBin_suffix ha).trans (strip_suffix r'))).trans g.suffix
        obtain ⟨b', r3, h3, h4⟩ := (bind_ok _ _ _ _).1 h2
        cases h4
        have g' := ih.binary _ _ _ (all_suffix hv hsuf) h3
        refine ⟨⟨?_, g'.canon.2⟩, ?_, ?_⟩
        · simp only [Binary.Canon]; exact ⟨g.canon.1, g'.canon.1⟩
        · exact g'.suffix.trans hsuf
        · simp only [Binary.startsParen]; exact g.first
      · rename_i ha
        cases h2
        refine ⟨⟨?_, ⟨?_, ?_⟩⟩, ?_, ?_⟩
        · simp only [Binary.Canon]; exact g.canon.1
        · unfold NotBin; rw [strip_strip]; exact ha
        · intro he; unfold NotOp; rw [strip_strip]; exact g.canon.2 he
        · exact (strip_suffix r').trans g.suffix
        · simp only [Binary.startsParen]; exact g.first
    · intro ts c r hv h
      simp only [parseCall] at h
      obtain ⟨p, r', h1, h2⟩ := (bind_ok _ _ _ _).1 h
      have g := ih.primary _ _ _ hv h1
      split at h2
      · rename_i r'' ha
        have hsuf : r'' <:+ ts := ((acceptOp_suffix ha).trans (strip_suffix r')).trans g.suffix
        obtain ⟨l, r3, h3, h4⟩ := (bind_ok _ _ _ _).1 h2
        obtain ⟨rfl, h5⟩ := close_ok _ _ _ _ _ h4
        have g' := ih.logic _ _ _ (all_suffix hv hsuf) h3
        refine ⟨⟨?_, ?_⟩, ?_, ?_⟩
        · simp only [Call.Canon]; exact ⟨g.canon, g'.canon.1⟩
        · intro he; simp [Call.endsBare] at he
        · exact (((acceptOp_suffix h5).trans (strip_suffix r3)).trans g'.suffix).trans hsuf
        · simp only [Call.startsParen]; exact g.first
      · rename_i ha
        cases h2
        refine ⟨⟨?_, fun _ => notOp_strip ha⟩, ?_, ?_⟩
        · simp only [Call.Canon]; exact g.canon
        · exact (strip_suffix r').trans g.suffix
        · simp only [Call.startsParen]; exact g.first

/-! ## whole strings -/

/-- the tokens of several clauses -/
def topToks : List Clause → List Tok
  | [] => []
  | [c] => c.toks
  | c :: c' :: cs => c.toks ++ wsTok :: topToks (c' :: cs)

/-- the lists of clauses that parsing gives -/
def TopCanon (V : Tok → Prop) : List Clause → Prop
  | [] => True
  | [c] => c.Canon V
  | c :: c' :: cs => c.Canon V ∧ ¬ (c.endsBare = true ∧ c'.startsParen = true) ∧ TopCanon V (c' :: cs)

theorem parseTop_out (V : Tok → Prop) : ∀ (n : Nat) (ts : List Tok) (cs : List Clause) (r : List Tok), (∀ t ∈ ts, V t) →
    parseTop n ts = .ok cs r → TopCanon V cs ∧ ∀ c ∈ cs.head?, c.startsParen = true → ts.head? = some (opTok "(")
  | 0, ts, cs, r, _, h => by simp [parseTop] at h
  | n + 1, [], cs, r, _, h => by
    simp only [parseTop] at h
    cases h
    simp [TopCanon]
  | n + 1, t :: ts, cs, r, hv, h => by
    simp only [parseTop] at h
    obtain ⟨c, r', h1, h2⟩ := (bind_ok _ _ _ _).1 h
    obtain ⟨cs', r'', h3, h4⟩ := (bind_ok _ _ _ _).1 h2
    cases h4
    have g := (out V _).clause _ _ _ hv h1
    have ih := parseTop_out V n (strip r') cs' _ (all_suffix hv ((strip_suffix r').trans g.suffix)) h3
    refine ⟨?_, ?_⟩
    · cases cs' with
      | nil => exact g.canon.1
      | cons c' cs' =>
        refine ⟨g.canon.1, ?_, ih.1⟩
        rintro ⟨he, hs⟩
        have hf := ih.2 c' (by simp) hs
        cases c with
        | bare l =>
          have hno := g.canon.2.1.2.2 he
          unfold NotOp at hno
          cases hst : strip r' with
          | nil => rw [hst] at hf; simp at hf
          | cons t r2 =>
            rw [hst] at hf hno
            simp at hf
            subst hf
            simp [acceptOp] at hno
        | cond l c => simp [Clause.endsBare] at he
    · intro x hx
      simp at hx
      subst hx
      exact g.first

theorem topBegins (V : Tok → Prop) (c : Clause) (cs : List Clause) (h : TopCanon V (c :: cs)) :
    Begins c.startsParen (topToks (c :: cs)) := by
  cases cs with
  | nil => exact c.begins V h
  | cons c' cs => exact (c.begins V h.1).append _

theorem Clause.F_nil (c : Clause) : c.F [] := by
  cases c with
  | bare l => exact ⟨⟨rfl, rfl, fun _ => rfl⟩, rfl⟩
  | cond l c => trivial

theorem parseTop_rt (V : Tok → Prop) : ∀ (cs : List Clause) (n : Nat), TopCanon V cs → (topToks cs).length < n →
    ∃ r, parseTop n (topToks cs) = .ok cs r
  | [], 0, _, h => by omega
  | [], n + 1, _, _ => ⟨[], rfl⟩
  | [c], 0, _, h => by omega
  | [c], n + 1, hc, hn => by
    obtain ⟨t, r, e, h1, _⟩ := topBegins V c [] hc
    have hrt := (rt V (steps (topToks [c]))).clause c [] hc c.F_nil
    simp only [List.append_nil] at hrt
    obtain ⟨r', h2, h3⟩ := hrt (parseClause_fuel _)
    have e' : c.toks = t :: r := e
    refine ⟨[], ?_⟩
    rw [e]
    have hn' : 0 < n := by rw [e, List.length_cons] at hn; omega
    obtain ⟨m, rfl⟩ : ∃ m, n = m + 1 := ⟨n - 1, by omega⟩
    simp only [parseTop]
    have h2' : parseClause (steps (t :: r)) (t :: r) = .ok c r' := by
      have : topToks [c] = t :: r := e
      rw [this] at h2
      rw [← e']
      exact e' ▸ h2
    have hs : strip r' = [] := by rw [h3]; rfl
    rw [h2', Res.bind, hs]
    simp only [parseTop, Res.bind]
  | c :: c' :: cs, 0, _, h => by omega
  | c :: c' :: cs, n + 1, hc, hn => by
    obtain ⟨t, r, e, h1, _⟩ := topBegins V c (c' :: cs) hc
    have hb := topBegins V c' cs hc.2.2
    have hrt := (rt V (steps (topToks (c :: c' :: cs)))).clause c (wsTok :: topToks (c' :: cs)) hc.1 (c.F_next hb hc.2.1)
    obtain ⟨r', h2, h3⟩ := hrt (parseClause_fuel _)
    have hlen : (topToks (c' :: cs)).length < n := by
      have : (topToks (c :: c' :: cs)).length = c.toks.length + ((topToks (c' :: cs)).length + 1) := by
        simp [topToks]
      omega
    obtain ⟨r2, h4⟩ := parseTop_rt V (c' :: cs) n hc.2.2 hlen
    refine ⟨r2, ?_⟩
    have et : c.toks ++ wsTok :: topToks (c' :: cs) = topToks (c :: c' :: cs) := rfl
    rw [et] at h2
    rw [e] at h2 ⊢
    simp only [parseTop]
    rw [h2]
    simp only [Res.bind, h3, strip_ws, hb.strip, h4]

end Verif.Bsub
