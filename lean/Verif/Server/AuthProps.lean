import Verif.Server.Auth

/-! # C25: requests need the token -/

namespace Verif.Server.Auth

theorem diff_zero : ∀ (a b : Bytes) (v : UInt8), a.length = b.length →
    (diff a b v = 0 ↔ v = 0 ∧ a = b) := by
  intro a
  induction a with
  | nil => intro b v h; cases b with
    | nil => simp [diff]
    | cons => simp at h
  | cons x a ih =>
    intro b v h
    cases b with
    | nil => simp at h
    | cons y b =>
      simp only [diff]
      rw [ih b _ (by simpa using h)]
      have e1 : (v ||| (x ^^^ y)) = 0 ↔ v = 0 ∧ x ^^^ y = 0 := by
        constructor
        · intro h0
          have : (v ||| (x ^^^ y)).toBitVec = 0#8 := by rw [h0]; rfl
          rw [UInt8.toBitVec_or, BitVec.or_eq_zero_iff] at this
          exact ⟨UInt8.toBitVec_inj.mp this.1, UInt8.toBitVec_inj.mp this.2⟩
        · rintro ⟨rfl, h0⟩; rw [h0]; rfl
      rw [e1, UInt8.xor_eq_zero_iff]
      constructor
      · rintro ⟨⟨h1, h2⟩, h3⟩; exact ⟨h1, by rw [h2, h3]⟩
      · rintro ⟨h1, h2⟩; cases h2; exact ⟨⟨h1, rfl⟩, rfl⟩

/-- **C25, tokens.** Two tokens match exactly if they are the same bytes. -/
theorem C25_match (a b : Bytes) : tokenMatches a b = true ↔ a = b := by
  unfold tokenMatches
  split
  · rename_i h
    constructor
    · intro h'; cases h'
    · intro h'; exact absurd (congrArg List.length h') h
  · rename_i h
    simp only [ne_eq, Decidable.not_not] at h
    rw [beq_iff_eq, diff_zero a b 0 h]
    simp

/-- **C25, requests.** A request other than ping with a token that is not the server's is answered
with "permission denied", and changes nothing. -/
theorem C25_denied (s : Srv) (tok : Bytes) (o : Op) (h : tok ≠ s.token) :
    handle s ⟨tok, some o⟩ = (s, .denied) := by
  have : tokenMatches tok s.token = false := by
    cases h' : tokenMatches tok s.token with
    | false => rfl
    | true => exact absurd ((C25_match _ _).mp h') h
  simp [handle, this]

/-- **C25, conversely.** With the server's token no request is denied; a ping never is, and it
changes nothing. -/
theorem C25_allowed (s : Srv) (hl : s.token.length = tokenLength) (o : Op) (tok : Bytes) :
    (handle s ⟨s.token, some o⟩).2 ≠ .denied ∧
    (handle s ⟨tok, none⟩).2 ≠ .denied ∧ (handle s ⟨tok, none⟩).1 = s := by
  have : tokenMatches s.token s.token = true := (C25_match _ _).mpr rfl
  refine ⟨?_, ?_, ?_⟩
  · simp only [handle, this, hl, ne_eq, not_true, Bool.not_true]
    split <;> simp_all [tokenLength]
    split <;> simp
  · simp only [handle, Option.isSome_none, Bool.and_false, Bool.false_eq_true, if_false]
    split <;> simp
  · simp only [handle, Option.isSome_none, Bool.and_false, Bool.false_eq_true, if_false]
    split <;> rfl

example : (handle ⟨List.replicate 43 7, true, false, true, fresh fun _ => none⟩
      ⟨List.replicate 43 7, some (.add 1 0 [])⟩).2 = .done .ok ∧
    (handle ⟨List.replicate 43 7, true, false, true, fresh fun _ => none⟩
      ⟨List.replicate 42 7 ++ [8], some (.add 1 0 [])⟩).2 = .denied := by
  decide +kernel

/-- Specification: the token an HTTP request presents. -/
def presented (r : Http) : Option Bytes :=
  match r.form with
  | none => none
  | some [] => if r.auth.take 7 = bearer then some (r.auth.drop 7) else none
  | some t => some t

/-- **C25, HTTP.** Every end point but the version and the static files refuses, without any
effect, a request that does not present the server's token, as parameter or bearer token, and
acts on those that do. -/
theorem C25_http {σ α : Type} (tok : Bytes) (act : EndPoint → σ → σ × α) (e : EndPoint)
    (r : Http) (s : σ) (he : e ≠ .static ∧ e ≠ .version) :
    serve tok act e r s =
      if presented r = some tok then ((act e s).1, some (act e s).2) else (s, none) := by
  have h1 : needsAuth e = true := by cases e <;> simp_all [needsAuth]
  have h2 : httpAuthorized tok r = decide (presented r = some tok) := by
    unfold httpAuthorized presented
    cases hf : r.form with
    | none => simp
    | some t =>
      cases t with
      | nil =>
        simp only [if_true]
        by_cases h : r.auth.take 7 = bearer
        · have hp : bearer.isPrefixOf r.auth = true := by
            rw [List.isPrefixOf_iff_prefix]
            exact ⟨r.auth.drop 7, by rw [← h]; exact List.take_append_drop 7 _⟩
          have hn : r.auth ≠ [] := by
            intro hn; rw [hn] at h; simp [bearer] at h
          simp only [hn, if_false, hp, Bool.not_true, Bool.false_eq_true, h, if_true,
            Option.some.injEq]
          rw [Bool.eq_iff_iff, C25_match]; simp [bearer]
        · have hp : bearer.isPrefixOf r.auth = false := by
            cases hp : bearer.isPrefixOf r.auth with
            | false => rfl
            | true =>
              rw [List.isPrefixOf_iff_prefix] at hp
              obtain ⟨t, ht⟩ := hp
              exact absurd (by rw [← ht]; rfl) h
          simp [hp, h]
      | cons x t =>
        simp only [reduceCtorEq, if_false, Option.some.injEq]
        rw [Bool.eq_iff_iff, C25_match]; simp
  unfold serve
  rw [h1, h2]
  by_cases h : presented r = some tok <;> simp [h]

example : presented ⟨some [], bearer ++ [1, 2, 3]⟩ = some [1, 2, 3] ∧
    presented ⟨some [], [1, 2, 3]⟩ = none ∧ presented ⟨some [9], bearer ++ [1]⟩ = some [9] := by
  decide

end Verif.Server.Auth
