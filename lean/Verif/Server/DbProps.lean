import Verif.Server.Db

/-! # C27, C28, C68: what survives a crash -/

namespace Verif.Server.Db

/-! ## Specification, in terms of what clients asked for and were told -/

/-- What a client may expect of a job. -/
inductive Status
  /-- never heard of -/
  | never
  /-- a request about it has begun and was not acknowledged (yet) -/
  | unknown
  /-- its add was acknowledged, and no request to archive or delete it has begun since -/
  | added
  /-- its archive was acknowledged, and no request to add it has begun since -/
  | archived
  /-- its delete was acknowledged, and no request to add it has begun since -/
  | deleted
deriving DecidableEq, Repr

def Status.after (k : Nat) (s : Status) : Ev → Status
  | .addBegin ks => if k ∈ ks then (if s = .added then .added else .unknown) else s
  | .addAck ks => if k ∈ ks then .added else s
  | .archBegin j => if j = k then .unknown else s
  | .archAck j => if j = k then .archived else s
  | .delBegin j => if j = k then .unknown else s
  | .delAck ks => if k ∈ ks then .deleted else s
  | .crash => s

/-- The status of a job after a history of events. -/
def status (k : Nat) (log : List Ev) : Status := log.foldl (Status.after k) .never

/-- The request concerns the job. -/
def Th.involves (k : Nat) : Th → Prop
  | .add kept _ => k ∈ kept
  | .arch j _ => j = k
  | .del rm => k ∈ rm

/-- Some request in progress concerns the job. -/
def Busy (s : S) (k : Nat) : Prop := ∃ t th, s.ths t = some th ∧ th.involves k

/-- The step does not begin a request about a job while another request about it is in progress. -/
def Serial (s : S) : Op → Prop
  | .beginAdd ks _ => ∀ k ∈ ks, ¬ Busy s k
  | .beginArch k => ¬ Busy s k
  | .delKey _ k => ¬ Busy s k
  | _ => True

/-- Every step of a history has a property, in the state in which it is made. -/
def Along (P : S → Op → Prop) (s : S) : List Op → Prop
  | [] => True
  | o :: os => P s o ∧ ∀ s', step s o = some s' → Along P s' os

/-! ## Lemmas -/

private theorem status_snoc (k : Nat) (l : List Ev) (e : Ev) : status k (l ++ [e]) = (status k l).after k e := by
  simp [status]

private theorem upd_same {α : Type} (f : Nat → α) (k : Nat) (v : α) : upd f k v k = v := by simp [upd]
private theorem upd_ne {α : Type} (f : Nat → α) {k i : Nat} (v : α) (h : i ≠ k) : upd f k v i = f i := by simp [upd, h]

private structure KInv (s : S) (k : Nat) : Prop where
  uniq : ∀ t₁ t₂ a b, s.ths t₁ = some a → s.ths t₂ = some b → a.involves k → b.involves k → t₁ = t₂
  free : ¬ Busy s k → (s.queue k).isSome = (s.live k).isSome
  add : ∀ t kept todo, s.ths t = some (.add kept todo) → k ∈ kept →
    (status k s.log = .unknown ∨ status k s.log = .added) ∧ (k ∉ todo → (s.live k).isSome)
  arch : ∀ t b, s.ths t = some (.arch k b) → status k s.log = .unknown ∧ (s.queue k).isSome ∧
    (b = true → s.live k = none ∧ s.complete k = true)
  del : ∀ t rm, s.ths t = some (.del rm) → k ∈ rm → status k s.log = .unknown ∧ s.queue k = none
  added : status k s.log = .added → (s.live k).isSome ∧ (s.queue k).isSome
  archived : status k s.log = .archived → s.live k = none ∧ s.complete k = true ∧ s.queue k = none
  deleted : status k s.log = .deleted → s.live k = none ∧ s.queue k = none
  never : status k s.log = .never → s.live k = none ∧ s.queue k = none

private structure Inv (s : S) : Prop where
  fresh : ∀ t, s.next ≤ t → s.ths t = none
  todo : ∀ t kept todo, s.ths t = some (.add kept todo) → ∀ k ∈ todo, k ∈ kept
  key : ∀ k, KInv s k

private theorem inv_init : Inv {} := by
  refine ⟨fun _ _ => rfl, fun t kept todo h => by simp at h, fun k => ?_⟩
  constructor <;> simp [status]

/-- A step that leaves the requests, the log and the presence of jobs alone. -/
private theorem inv_content {s s' : S} (h : Inv s) (e1 : s'.ths = s.ths) (e2 : s'.next = s.next) (e3 : s'.log = s.log)
    (e4 : ∀ k, (s'.live k).isSome = (s.live k).isSome) (e5 : ∀ k, (s'.queue k).isSome = (s.queue k).isSome)
    (e6 : s'.complete = s.complete) : Inv s' := by
  have n4 : ∀ k, s.live k = none → s'.live k = none := fun k hk => by
    have := e4 k; rw [hk] at this; simpa using this
  have n5 : ∀ k, s.queue k = none → s'.queue k = none := fun k hk => by
    have := e5 k; rw [hk] at this; simpa using this
  refine ⟨by rw [e1, e2]; exact h.fresh, by rw [e1]; exact h.todo, fun k => ?_⟩
  have hk := h.key k
  refine ⟨by rw [e1]; exact hk.uniq, ?_, ?_, ?_, ?_, ?_, ?_, ?_, ?_⟩
  · intro hb; rw [e4, e5]; exact hk.free (by unfold Busy at *; rw [e1] at hb; exact hb)
  · rw [e1, e3, e4]; exact hk.add
  · rw [e1, e3, e5, e6]
    intro t b ht
    obtain ⟨h1, h2, h3⟩ := hk.arch t b ht
    exact ⟨h1, h2, fun hb => ⟨n4 k (h3 hb).1, (h3 hb).2⟩⟩
  · rw [e1, e3]
    intro t rm ht hm
    exact ⟨(hk.del t rm ht hm).1, n5 k (hk.del t rm ht hm).2⟩
  · rw [e3, e4, e5]; exact hk.added
  · rw [e3, e6]; intro hs; obtain ⟨h1, h2, h3⟩ := hk.archived hs; exact ⟨n4 k h1, h2, n5 k h3⟩
  · rw [e3]; intro hs; obtain ⟨h1, h2⟩ := hk.deleted hs; exact ⟨n4 k h1, n5 k h2⟩
  · rw [e3]; intro hs; obtain ⟨h1, h2⟩ := hk.never hs; exact ⟨n4 k h1, n5 k h2⟩

/-- For a job that the changed request `t` does not concern, before and after, nothing changes. -/
private theorem kinv_other {s s' : S} {t k : Nat} (hk : KInv s k)
    (e1 : ∀ i, i ≠ t → s'.ths i = s.ths i) (old : ∀ th, s.ths t = some th → ¬ th.involves k)
    (new : ∀ th, s'.ths t = some th → ¬ th.involves k) (e3 : status k s'.log = status k s.log)
    (e4 : s'.live k = s.live k) (e5 : s'.queue k = s.queue k) (e6 : s'.complete k = s.complete k) : KInv s' k := by
  have hth : ∀ i th, s'.ths i = some th → th.involves k → s.ths i = some th ∧ i ≠ t := by
    intro i th hi hv
    by_cases hit : i = t
    · subst hit; exact absurd hv (new th hi)
    · rw [e1 i hit] at hi; exact ⟨hi, hit⟩
  refine ⟨?_, ?_, ?_, ?_, ?_, ?_, ?_, ?_, ?_⟩
  · intro t₁ t₂ a b h1 h2 v1 v2
    exact hk.uniq t₁ t₂ a b (hth _ _ h1 v1).1 (hth _ _ h2 v2).1 v1 v2
  · intro hb
    rw [e4, e5]
    apply hk.free
    rintro ⟨i, th, hi, hv⟩
    by_cases hit : i = t
    · subst hit; exact old th hi hv
    · exact hb ⟨i, th, by rw [e1 i hit]; exact hi, hv⟩
  · intro i kept todo hi hm
    rw [e3, e4]; exact hk.add i kept todo (hth i _ hi hm).1 hm
  · intro i b hi
    rw [e3, e4, e5, e6]; exact hk.arch i b (hth i _ hi rfl).1
  · intro i rm hi hm
    rw [e3, e5]; exact hk.del i rm (hth i _ hi hm).1 hm
  · rw [e3, e4, e5]; exact hk.added
  · rw [e3, e4, e5, e6]; exact hk.archived
  · rw [e3, e4, e5]; exact hk.deleted
  · rw [e3, e4, e5]; exact hk.never

/-- A job concerned by the new state of request `t`, and by no other request. -/
private theorem uniq_of {s s' : S} {t k : Nat} (e1 : ∀ i, i ≠ t → s'.ths i = s.ths i)
    (h : ∀ i th, i ≠ t → s.ths i = some th → ¬ th.involves k) :
    ∀ t₁ t₂ a b, s'.ths t₁ = some a → s'.ths t₂ = some b → a.involves k → b.involves k → t₁ = t₂ := by
  intro t₁ t₂ a b h1 h2 v1 v2
  have : ∀ i th, s'.ths i = some th → th.involves k → i = t := by
    intro i th hi hv
    apply Classical.byContradiction
    intro hit
    rw [e1 i hit] at hi
    exact h i th hit hi hv
  rw [this t₁ a h1 v1, this t₂ b h2 v2]

private theorem only {s : S} {k t : Nat} (hk : KInv s k) {th : Th} (ht : s.ths t = some th) (hv : th.involves k) :
    ∀ i th', i ≠ t → s.ths i = some th' → ¬ th'.involves k :=
  fun i th' hit hi hv' => hit (hk.uniq i t th' th hi ht hv' hv)

private theorem inv_step {s s' : S} (o : Op) (h : Inv s) (ho : Serial s o) (e : step s o = some s') : Inv s' := by
  cases o with
  | beginAdd ks ig =>
    simp only [step, Option.some.injEq] at e
    generalize hk : (if ig then ks.filter (fun k => !checkIfAdded s k) else ks) = kept at e
    have hsub : ∀ k ∈ kept, k ∈ ks := by
      intro k hm; rw [← hk] at hm; split at hm
      · exact (List.mem_filter.1 hm).1
      · exact hm
    subst e
    have e1 : ∀ i, i ≠ s.next → upd s.ths s.next (some (Th.add kept kept)) i = s.ths i := fun i hi => upd_ne _ _ hi
    have hn := h.fresh s.next (Nat.le_refl _)
    refine ⟨?_, ?_, fun k => ?_⟩
    · intro t ht
      have ht : s.next + 1 ≤ t := ht
      simp only
      rw [e1 t (by omega)]; exact h.fresh t (by omega)
    · intro t k2 todo ht k hm
      simp only at ht
      by_cases hit : t = s.next
      · subst hit; rw [upd_same] at ht; simp at ht; obtain ⟨rfl, rfl⟩ := ht; exact hm
      · rw [e1 t hit] at ht; exact h.todo t k2 todo ht k hm
    · by_cases hm : k ∈ kept
      · have hfree : ¬ Busy s k := ho k (hsub k hm)
        have hst : status k (s.log ++ [.addBegin kept]) = if status k s.log = .added then .added else .unknown := by
          rw [status_snoc]; simp [Status.after, hm]
        have hne : ∀ i th, s.ths i = some th → ¬ th.involves k := fun i th hi hv => hfree ⟨i, th, hi, hv⟩
        refine ⟨uniq_of e1 (fun i th _ hi => hne i th hi), ?_, ?_, ?_, ?_, ?_, ?_, ?_, ?_⟩
        · intro hb; exact absurd ⟨s.next, _, upd_same _ _ _, hm⟩ hb
        · intro t k2 todo ht hm2
          simp only at ht
          by_cases hit : t = s.next
          · subst hit; rw [upd_same] at ht; simp at ht; obtain ⟨rfl, rfl⟩ := ht
            simp only [hst]
            refine ⟨by split <;> simp, fun hc => absurd hm hc⟩
          · rw [e1 t hit] at ht; exact absurd hm2 (hne t _ ht)
        · intro t b ht
          simp only at ht
          by_cases hit : t = s.next
          · subst hit; rw [upd_same] at ht; simp at ht
          · rw [e1 t hit] at ht; exact absurd rfl (hne t _ ht)
        · intro t rm ht hm2
          simp only at ht
          by_cases hit : t = s.next
          · subst hit; rw [upd_same] at ht; simp at ht
          · rw [e1 t hit] at ht; exact absurd hm2 (hne t _ ht)
        · simp only [hst]; intro hs; split at hs
          · exact (h.key k).added ‹_›
          · cases hs
        · simp only [hst]; intro hs; split at hs <;> cases hs
        · simp only [hst]; intro hs; split at hs <;> cases hs
        · simp only [hst]; intro hs; split at hs <;> cases hs
      · apply kinv_other (h.key k) e1
        · intro th hth; rw [hn] at hth; cases hth
        · intro th hth hv
          simp only [upd_same, Option.some.injEq] at hth
          subst hth; exact hm hv
        · rw [status_snoc]; simp [Status.after, hm]
        · rfl
        · rfl
        · rfl
  | beginArch k0 =>
    simp only [step] at e
    split at e
    · rename_i hq
      simp only [Option.some.injEq] at e; subst e
      have e1 : ∀ i, i ≠ s.next → upd s.ths s.next (some (Th.arch k0 false)) i = s.ths i := fun i hi => upd_ne _ _ hi
      have hn := h.fresh s.next (Nat.le_refl _)
      refine ⟨?_, ?_, fun k => ?_⟩
      · intro t ht
        have ht : s.next + 1 ≤ t := ht
        simp only
        rw [e1 t (by omega)]; exact h.fresh t (by omega)
      · intro t k2 todo ht k hm
        simp only at ht
        by_cases hit : t = s.next
        · subst hit; rw [upd_same] at ht; simp at ht
        · rw [e1 t hit] at ht; exact h.todo t k2 todo ht k hm
      · by_cases hm : k0 = k
        · subst hm
          have hne : ∀ i th, s.ths i = some th → ¬ th.involves k0 := fun i th hi hv => ho ⟨i, th, hi, hv⟩
          have hst : status k0 (s.log ++ [.archBegin k0]) = .unknown := by
            rw [status_snoc]; simp [Status.after]
          refine ⟨uniq_of e1 (fun i th _ hi => hne i th hi), ?_, ?_, ?_, ?_, ?_, ?_, ?_, ?_⟩
          · intro hb; exact absurd ⟨s.next, _, upd_same _ _ _, rfl⟩ hb
          · intro t k2 todo ht hm2
            simp only at ht
            by_cases hit : t = s.next
            · subst hit; rw [upd_same] at ht; simp at ht
            · rw [e1 t hit] at ht; exact absurd hm2 (hne t _ ht)
          · intro t b ht
            simp only at ht
            by_cases hit : t = s.next
            · subst hit; rw [upd_same] at ht; simp at ht; subst ht
              exact ⟨hst, by simp [hq], fun hb => by cases hb⟩
            · rw [e1 t hit] at ht; exact absurd rfl (hne t _ ht)
          · intro t rm ht hm2
            simp only at ht
            by_cases hit : t = s.next
            · subst hit; rw [upd_same] at ht; simp at ht
            · rw [e1 t hit] at ht; exact absurd hm2 (hne t _ ht)
          all_goals (intro hs; simp only [hst] at hs; cases hs)
        · apply kinv_other (h.key k) e1
          · intro th hth; rw [hn] at hth; cases hth
          · intro th hth hv
            simp only [upd_same, Option.some.injEq] at hth
            subst hth; exact hm hv
          · rw [status_snoc]; simp [Status.after, hm]
          · rfl
          · rfl
          · rfl
    · cases e
  | beginDel =>
    simp only [step, Option.some.injEq] at e; subst e
    have e1 : ∀ i, i ≠ s.next → upd s.ths s.next (some (Th.del [])) i = s.ths i := fun i hi => upd_ne _ _ hi
    have hn := h.fresh s.next (Nat.le_refl _)
    refine ⟨?_, ?_, fun k => ?_⟩
    · intro t ht
      have ht : s.next + 1 ≤ t := ht
      simp only
      rw [e1 t (by omega)]; exact h.fresh t (by omega)
    · intro t k2 todo ht k hm
      simp only at ht
      by_cases hit : t = s.next
      · subst hit; rw [upd_same] at ht; simp at ht
      · rw [e1 t hit] at ht; exact h.todo t k2 todo ht k hm
    · apply kinv_other (h.key k) e1
      · intro th hth; rw [hn] at hth; cases hth
      · intro th hth hv
        simp only [upd_same, Option.some.injEq] at hth
        subst hth; simp [Th.involves] at hv
      · rfl
      · rfl
      · rfl
      · rfl
  | delKey t k0 =>
    simp only [step] at e
    split at e
    · rename_i rm ht
      have key : ∀ s', s' = ({ s with queue := upd s.queue k0 none, ths := upd s.ths t (some (.del (k0 :: rm)))
                                      log := s.log ++ [.delBegin k0] } : S) → Inv s' := by
        intro s' e; subst e
        have e1 : ∀ i, i ≠ t → upd s.ths t (some (Th.del (k0 :: rm))) i = s.ths i := fun i hi => upd_ne _ _ hi
        have htn : t < s.next := Nat.lt_of_not_le fun hc => by rw [h.fresh t hc] at ht; cases ht
        refine ⟨?_, ?_, fun k => ?_⟩
        · intro i hi
          have hi : s.next ≤ i := hi
          simp only
          rw [e1 i (by omega)]; exact h.fresh i hi
        · intro i k2 todo hi k hm
          simp only at hi
          by_cases hit : i = t
          · subst hit; rw [upd_same] at hi; simp at hi
          · rw [e1 i hit] at hi; exact h.todo i k2 todo hi k hm
        · by_cases hm : k0 = k
          · subst hm
            have hne : ∀ i th, s.ths i = some th → ¬ th.involves k0 := fun i th hi hv => ho ⟨i, th, hi, hv⟩
            have hst : status k0 (s.log ++ [.delBegin k0]) = .unknown := by
              rw [status_snoc]; simp [Status.after]
            refine ⟨uniq_of e1 (fun i th _ hi => hne i th hi), ?_, ?_, ?_, ?_, ?_, ?_, ?_, ?_⟩
            · intro hb; exact absurd ⟨t, _, upd_same _ _ _, by simp [Th.involves]⟩ hb
            · intro i k2 todo hi hm2
              simp only at hi
              by_cases hit : i = t
              · subst hit; rw [upd_same] at hi; simp at hi
              · rw [e1 i hit] at hi; exact absurd hm2 (hne i _ hi)
            · intro i b hi
              simp only at hi
              by_cases hit : i = t
              · subst hit; rw [upd_same] at hi; simp at hi
              · rw [e1 i hit] at hi; exact absurd rfl (hne i _ hi)
            · intro i rm' hi hm2
              exact ⟨hst, upd_same _ _ _⟩
            all_goals (intro hs; simp only [hst] at hs; cases hs)
          · by_cases hv : k ∈ rm
            · -- k is concerned by the request, before and after
              have hk := h.key k
              have honly := only hk ht hv
              obtain ⟨d1, d2⟩ := hk.del t rm ht hv
              have hst : status k (s.log ++ [.delBegin k0]) = .unknown := by
                rw [status_snoc]; simp [Status.after, hm, d1]
              refine ⟨uniq_of e1 honly, ?_, ?_, ?_, ?_, ?_, ?_, ?_, ?_⟩
              · intro hb; exact absurd ⟨t, _, upd_same _ _ _, by simp [Th.involves, hv]⟩ hb
              · intro i k2 todo hi hm2
                simp only at hi
                by_cases hit : i = t
                · subst hit; rw [upd_same] at hi; simp at hi
                · rw [e1 i hit] at hi; exact absurd hm2 (honly i _ hit hi)
              · intro i b hi
                simp only at hi
                by_cases hit : i = t
                · subst hit; rw [upd_same] at hi; simp at hi
                · rw [e1 i hit] at hi; exact absurd rfl (honly i _ hit hi)
              · intro i rm' hi hm2
                exact ⟨hst, by simp only; rw [upd_ne _ _ (Ne.symm hm)]; exact d2⟩
              all_goals (intro hs; simp only [hst] at hs; cases hs)
            · apply kinv_other (h.key k) e1
              · intro th hth; rw [ht] at hth; simp at hth; subst hth; exact hv
              · intro th hth hv'
                simp only [upd_same, Option.some.injEq] at hth
                subst hth
                simp [Th.involves] at hv'
                rcases hv' with hv' | hv'
                · exact hm hv'.symm
                · exact hv hv'
              · rw [status_snoc]; simp [Status.after, hm]
              · rfl
              · exact upd_ne _ _ (Ne.symm hm)
              · rfl
      split at e
      · simp only [Option.some.injEq] at e; exact key _ e.symm
      · simp only [Option.some.injEq] at e; exact key _ e.symm
      · cases e
    · cases e
  | step t n =>
    simp only [step] at e
    split at e
    · cases e
    · -- enqueue
      rename_i kept ht
      simp only [Option.some.injEq] at e; subst e
      have e1 : ∀ i, i ≠ t → upd s.ths t none i = s.ths i := fun i hi => upd_ne _ _ hi
      have e0 : upd s.ths t none t = (none : Option Th) := upd_same _ _ _
      have hfr : ∀ i, s.next ≤ i → upd s.ths t none i = none := by
        intro i hi
        by_cases hit : i = t
        · subst hit; exact e0
        · rw [e1 i hit]; exact h.fresh i hi
      have hto : ∀ i k2 todo, upd s.ths t none i = some (.add k2 todo) → ∀ k ∈ todo, k ∈ k2 := by
        intro i k2 todo hi k hm
        by_cases hit : i = t
        · subst hit; rw [e0] at hi; cases hi
        · rw [e1 i hit] at hi; exact h.todo i k2 todo hi k hm
      refine ⟨hfr, hto, fun k => ?_⟩
      have hk := h.key k
      by_cases hm : k ∈ kept
      · have honly := only hk ht hm
        have hlive := (hk.add t kept [] ht hm).2 (by simp)
        have hst : status k (s.log ++ [.addAck kept]) = .added := by
          rw [status_snoc]; simp [Status.after, hm]
        have hno : ∀ i th, upd s.ths t none i = some th → ¬ th.involves k := by
          intro i th hi
          by_cases hit : i = t
          · subst hit; rw [e0] at hi; cases hi
          · rw [e1 i hit] at hi; exact honly i th hit hi
        refine ⟨uniq_of e1 honly, ?_, ?_, ?_, ?_, ?_, ?_, ?_, ?_⟩
        · intro _; simp [hm, hlive]
        · intro i k2 todo hi hm2; exact absurd hm2 (hno i _ hi)
        · intro i b hi; exact absurd rfl (hno i _ hi)
        · intro i b hi hm2; exact absurd hm2 (hno i _ hi)
        · intro _; simp [hm, hlive]
        all_goals (intro hs; simp only [hst] at hs; cases hs)
      · apply kinv_other hk e1
        · intro th hth; rw [ht] at hth; simp at hth; subst hth; exact hm
        · intro th hth; simp only [e0] at hth; cases hth
        · rw [status_snoc]; simp [Status.after, hm]
        · rfl
        · simp [hm]
        · rfl
    · -- store a batch
      rename_i kept todo hne ht
      simp only [Option.some.injEq] at e; subst e
      have e1 : ∀ i, i ≠ t → upd s.ths t (some (Th.add kept (todo.drop (n + 1)))) i = s.ths i := fun i hi => upd_ne _ _ hi
      have htn : t < s.next := Nat.lt_of_not_le fun hc => by rw [h.fresh t hc] at ht; cases ht
      have hsub := h.todo t kept todo ht
      refine ⟨?_, ?_, fun k => ?_⟩
      · intro i hi
        have hi : s.next ≤ i := hi
        simp only
        rw [e1 i (by omega)]; exact h.fresh i hi
      · intro i k2 td hi k hm
        simp only at hi
        by_cases hit : i = t
        · subst hit; rw [upd_same] at hi; simp at hi; obtain ⟨rfl, rfl⟩ := hi
          exact hsub k (List.mem_of_mem_drop hm)
        · rw [e1 i hit] at hi; exact h.todo i k2 td hi k hm
      · have hk := h.key k
        by_cases hm : k ∈ kept
        · have honly := only hk ht hm
          obtain ⟨a1, a2⟩ := hk.add t kept todo ht hm
          have hlive : (s.live k).isSome → (updAll s.live (todo.take (n + 1)) (some .ready) k).isSome := by
            intro hl; unfold updAll; split
            · rfl
            · exact hl
          refine ⟨uniq_of e1 honly, ?_, ?_, ?_, ?_, ?_, ?_, ?_, ?_⟩
          · intro hb; exact absurd ⟨t, _, upd_same _ _ _, hm⟩ hb
          · intro i k2 td hi hm2
            simp only at hi
            by_cases hit : i = t
            · subst hit; rw [upd_same] at hi; simp at hi; obtain ⟨rfl, rfl⟩ := hi
              refine ⟨a1, fun hd => ?_⟩
              by_cases h3 : k ∈ todo
              · have : k ∈ todo.take (n + 1) := by
                  rw [← List.take_append_drop (n + 1) todo] at h3
                  rcases List.mem_append.1 h3 with h3 | h3
                  · exact h3
                  · exact absurd h3 hd
                simp [updAll, this]
              · exact hlive (a2 h3)
            · rw [e1 i hit] at hi; exact absurd hm2 (honly i _ hit hi)
          · intro i b hi
            simp only at hi
            by_cases hit : i = t
            · subst hit; rw [upd_same] at hi; simp at hi
            · rw [e1 i hit] at hi; exact absurd rfl (honly i _ hit hi)
          · intro i rm hi hm2
            simp only at hi
            by_cases hit : i = t
            · subst hit; rw [upd_same] at hi; simp at hi
            · rw [e1 i hit] at hi; exact absurd hm2 (honly i _ hit hi)
          · intro hs; exact ⟨hlive (hk.added hs).1, (hk.added hs).2⟩
          · intro hs; simp only at hs; rw [hs] at a1; simp at a1
          · intro hs; simp only at hs; rw [hs] at a1; simp at a1
          · intro hs; simp only at hs; rw [hs] at a1; simp at a1
        · apply kinv_other hk e1
          · intro th hth; rw [ht] at hth; simp at hth; subst hth; exact hm
          · intro th hth hv; simp only [upd_same, Option.some.injEq] at hth; subst hth; exact hm hv
          · rfl
          · simp only [updAll]
            rw [if_neg fun hc => hm (hsub k (List.mem_of_mem_take hc))]
          · rfl
          · rfl
    · -- archive: the transaction
      rename_i k0 ht
      simp only [Option.some.injEq] at e; subst e
      have e1 : ∀ i, i ≠ t → upd s.ths t (some (Th.arch k0 true)) i = s.ths i := fun i hi => upd_ne _ _ hi
      have htn : t < s.next := Nat.lt_of_not_le fun hc => by rw [h.fresh t hc] at ht; cases ht
      refine ⟨?_, ?_, fun k => ?_⟩
      · intro i hi
        have hi : s.next ≤ i := hi
        simp only
        rw [e1 i (by omega)]; exact h.fresh i hi
      · intro i k2 td hi k hm
        simp only at hi
        by_cases hit : i = t
        · subst hit; rw [upd_same] at hi; simp at hi
        · rw [e1 i hit] at hi; exact h.todo i k2 td hi k hm
      · have hk := h.key k
        by_cases hm : k0 = k
        · subst hm
          have honly := only hk ht rfl
          obtain ⟨a1, a2, -⟩ := hk.arch t false ht
          refine ⟨uniq_of e1 honly, ?_, ?_, ?_, ?_, ?_, ?_, ?_, ?_⟩
          · intro hb; exact absurd ⟨t, _, upd_same _ _ _, rfl⟩ hb
          · intro i k2 td hi hm2
            simp only at hi
            by_cases hit : i = t
            · subst hit; rw [upd_same] at hi; simp at hi
            · rw [e1 i hit] at hi; exact absurd hm2 (honly i _ hit hi)
          · intro i b hi
            exact ⟨a1, a2, fun _ => ⟨upd_same _ _ _, upd_same _ _ _⟩⟩
          · intro i rm hi hm2
            simp only at hi
            by_cases hit : i = t
            · subst hit; rw [upd_same] at hi; simp at hi
            · rw [e1 i hit] at hi; exact absurd hm2 (honly i _ hit hi)
          all_goals (intro hs; simp only at hs; rw [a1] at hs; cases hs)
        · apply kinv_other hk e1
          · intro th hth; rw [ht] at hth; simp at hth; subst hth; exact hm
          · intro th hth hv; simp only [upd_same, Option.some.injEq] at hth; subst hth; exact hm hv
          · rfl
          · exact upd_ne _ _ (Ne.symm hm)
          · rfl
          · exact upd_ne _ _ (Ne.symm hm)
    · -- archive: out of the queue
      rename_i k0 ht
      simp only [Option.some.injEq] at e; subst e
      have e1 : ∀ i, i ≠ t → upd s.ths t none i = s.ths i := fun i hi => upd_ne _ _ hi
      have e0 : upd s.ths t none t = (none : Option Th) := upd_same _ _ _
      refine ⟨?_, ?_, fun k => ?_⟩
      · intro i hi
        by_cases hit : i = t
        · subst hit; exact e0
        · simp only; rw [e1 i hit]; exact h.fresh i hi
      · intro i k2 todo hi k hm
        simp only at hi
        by_cases hit : i = t
        · subst hit; rw [e0] at hi; cases hi
        · rw [e1 i hit] at hi; exact h.todo i k2 todo hi k hm
      · have hk := h.key k
        by_cases hm : k0 = k
        · subst hm
          have honly := only hk ht rfl
          obtain ⟨a1, a2, a3⟩ := hk.arch t true ht
          obtain ⟨a3, a4⟩ := a3 rfl
          have hst : status k0 (s.log ++ [.archAck k0]) = .archived := by
            rw [status_snoc]; simp [Status.after]
          have hno : ∀ i th, upd s.ths t none i = some th → ¬ th.involves k0 := by
            intro i th hi
            by_cases hit : i = t
            · subst hit; rw [e0] at hi; cases hi
            · rw [e1 i hit] at hi; exact honly i th hit hi
          refine ⟨uniq_of e1 honly, ?_, ?_, ?_, ?_, ?_, ?_, ?_, ?_⟩
          · intro _; simp [upd_same, a3]
          · intro i k2 todo hi hm2; exact absurd hm2 (hno i _ hi)
          · intro i b hi; exact absurd rfl (hno i _ hi)
          · intro i b hi hm2; exact absurd hm2 (hno i _ hi)
          · intro hs; simp only [hst] at hs; cases hs
          · intro _; exact ⟨a3, a4, upd_same _ _ _⟩
          all_goals (intro hs; simp only [hst] at hs; cases hs)
        · apply kinv_other hk e1
          · intro th hth; rw [ht] at hth; simp at hth; subst hth; exact hm
          · intro th hth; simp only [e0] at hth; cases hth
          · rw [status_snoc]; simp [Status.after, hm]
          · rfl
          · exact upd_ne _ _ (Ne.symm hm)
          · rfl
    · -- delete: the transaction
      rename_i rm ht
      simp only [Option.some.injEq] at e; subst e
      have e1 : ∀ i, i ≠ t → upd s.ths t none i = s.ths i := fun i hi => upd_ne _ _ hi
      have e0 : upd s.ths t none t = (none : Option Th) := upd_same _ _ _
      refine ⟨?_, ?_, fun k => ?_⟩
      · intro i hi
        by_cases hit : i = t
        · subst hit; exact e0
        · simp only; rw [e1 i hit]; exact h.fresh i hi
      · intro i k2 todo hi k hm
        simp only at hi
        by_cases hit : i = t
        · subst hit; rw [e0] at hi; cases hi
        · rw [e1 i hit] at hi; exact h.todo i k2 todo hi k hm
      · have hk := h.key k
        by_cases hm : k ∈ rm
        · have honly := only hk ht hm
          obtain ⟨a1, a2⟩ := hk.del t rm ht hm
          have hst : status k (s.log ++ [.delAck rm]) = .deleted := by
            rw [status_snoc]; simp [Status.after, hm]
          have hl : updAll s.live rm none k = none := by simp [updAll, hm]
          have hno : ∀ i th, upd s.ths t none i = some th → ¬ th.involves k := by
            intro i th hi
            by_cases hit : i = t
            · subst hit; rw [e0] at hi; cases hi
            · rw [e1 i hit] at hi; exact honly i th hit hi
          refine ⟨uniq_of e1 honly, ?_, ?_, ?_, ?_, ?_, ?_, ?_, ?_⟩
          · intro _; simp [hl, a2]
          · intro i k2 todo hi hm2; exact absurd hm2 (hno i _ hi)
          · intro i b hi; exact absurd rfl (hno i _ hi)
          · intro i b hi hm2; exact absurd hm2 (hno i _ hi)
          · intro hs; simp only [hst] at hs; cases hs
          · intro hs; simp only [hst] at hs; cases hs
          · intro _; exact ⟨hl, a2⟩
          · intro hs; simp only [hst] at hs; cases hs
        · apply kinv_other hk e1
          · intro th hth; rw [ht] at hth; simp at hth; subst hth; exact hm
          · intro th hth; simp only [e0] at hth; cases hth
          · rw [status_snoc]; simp [Status.after, hm]
          · simp [updAll, hm]
          · rfl
          · rfl
  | start k0 =>
    simp only [step] at e
    split at e
    · rename_i hq
      simp only [Option.some.injEq] at e; subst e
      refine inv_content h rfl rfl rfl (fun _ => rfl) (fun k => ?_) rfl
      by_cases hk : k = k0
      · subst hk; simp [upd_same, hq]
      · simp only [upd_ne _ _ hk]
    · cases e
  | finish k0 to =>
    simp only [step] at e
    split at e
    · rename_i hq
      simp only [Option.some.injEq] at e; subst e
      refine inv_content h rfl rfl rfl (fun _ => rfl) (fun k => ?_) rfl
      by_cases hk : k = k0
      · subst hk; simp [upd_same, hq]
      · simp only [upd_ne _ _ hk]
    · cases e
  | kick k0 =>
    simp only [step] at e
    split at e
    · rename_i hq
      simp only [Option.some.injEq] at e; subst e
      refine inv_content h rfl rfl rfl (fun _ => rfl) (fun k => ?_) rfl
      by_cases hk : k = k0
      · subst hk; simp [upd_same, hq]
      · simp only [upd_ne _ _ hk]
    · cases e
  | write i =>
    simp only [step] at e
    split at e
    · cases e
    · rename_i k0 st hp
      simp only [Option.some.injEq] at e; subst e
      refine inv_content h rfl rfl rfl (fun k => ?_) (fun _ => rfl) rfl
      simp only
      split
      · rename_i hl
        by_cases hk : k = k0
        · subst hk; simp [upd_same, hl]
        · rw [upd_ne _ _ hk]
      · rfl
  | crash =>
    simp only [step, Option.some.injEq] at e; subst e
    refine ⟨fun _ _ => rfl, fun t _ _ ht => by simp at ht, fun k => ?_⟩
    have hk := h.key k
    have hst : status k (s.log ++ [.crash]) = status k s.log := by rw [status_snoc]; rfl
    refine ⟨?_, ?_, ?_, ?_, ?_, ?_, ?_, ?_, ?_⟩
    · intro _ _ _ _ ht; simp at ht
    · intro _; rfl
    · intro _ _ _ ht; simp at ht
    · intro _ _ ht; simp at ht
    · intro _ _ ht; simp at ht
    · simp only [hst]; intro hs; exact ⟨(hk.added hs).1, (hk.added hs).1⟩
    · simp only [hst]; intro hs; obtain ⟨h1, h2, -⟩ := hk.archived hs; exact ⟨h1, h2, h1⟩
    · simp only [hst]; intro hs; obtain ⟨h1, -⟩ := hk.deleted hs; exact ⟨h1, h1⟩
    · simp only [hst]; intro hs; obtain ⟨h1, -⟩ := hk.never hs; exact ⟨h1, h1⟩

private theorem inv_run : ∀ (os : List Op) {s s' : S}, Inv s → Along Serial s os → run s os = some s' → Inv s'
  | [], s, s', h, _, e => by simp [run] at e; subst e; exact h
  | o :: os, s, s', h, ha, e => by
    simp only [run, Option.bind_eq_some_iff] at e
    obtain ⟨t, e1, e2⟩ := e
    exact inv_run os (inv_step o h ha.1 e1) (ha.2 t e1) e2

/-! ## The theorems -/

/-- C27, for requests about the same job that do not overlap: after any history, including crashes at any point and
whatever the batches and the delays of the asynchronous writes, what a client was told is so, in the database (which is
all that is left after a crash) and in the queue: an added job is live and queued, an archived one is complete and
neither live nor queued, a deleted one is neither live nor queued. -/
theorem C27_partial (os : List Op) (s : S) (ha : Along Serial {} os) (h : run {} os = some s) (k : Nat) :
    (status k s.log = .added → (s.live k).isSome ∧ (s.queue k).isSome) ∧
    (status k s.log = .archived → s.complete k = true ∧ s.live k = none ∧ s.queue k = none) ∧
    (status k s.log = .deleted → s.live k = none ∧ s.queue k = none) := by
  have hk := (inv_run os inv_init ha h).key k
  exact ⟨hk.added, fun hs => ⟨(hk.archived hs).2.1, (hk.archived hs).1, (hk.archived hs).2.2⟩, hk.deleted⟩

/-- Whether a step can delete a job from the database. -/
def Op.deletes : Op → Bool
  | .delKey .. => true
  | _ => false

private theorem del_nil {s s' : S} (o : Op) (ho : o.deletes = false)
    (h : ∀ t rm, s.ths t = some (.del rm) → rm = []) (e : step s o = some s') :
    ∀ t rm, s'.ths t = some (.del rm) → rm = [] := by
  have put : ∀ (t0 : Nat) (v : Option Th), (∀ rm, v = some (.del rm) → rm = []) →
      ∀ t rm, upd s.ths t0 v t = some (.del rm) → rm = [] := by
    intro t0 v hv t rm ht
    by_cases hit : t = t0
    · subst hit; rw [upd_same] at ht; exact hv rm ht
    · rw [upd_ne _ _ hit] at ht; exact h t rm ht
  cases o with
  | beginAdd ks ig =>
    simp only [step, Option.some.injEq] at e; subst e
    exact put _ _ (by simp)
  | beginArch k =>
    simp only [step] at e; split at e <;> simp at e
    subst e; exact put _ _ (by simp)
  | beginDel => simp only [step, Option.some.injEq] at e; subst e; exact put _ _ (by simp)
  | delKey t k => simp [Op.deletes] at ho
  | step t n =>
    simp only [step] at e
    split at e
    · cases e
    all_goals (simp only [Option.some.injEq] at e; subst e; exact put _ _ (by simp))
  | start k => simp only [step] at e; split at e <;> simp at e; subst e; exact h
  | finish k to => simp only [step] at e; split at e <;> simp at e; subst e; exact h
  | kick k => simp only [step] at e; split at e <;> simp at e; subst e; exact h
  | write i => simp only [step] at e; split at e <;> simp at e; subst e; exact h
  | crash => simp only [step, Option.some.injEq] at e; subst e; intro t rm ht; simp at ht

private theorem stored_step {s s' : S} (o : Op) (ho : o.deletes = false)
    (h : ∀ t rm, s.ths t = some (.del rm) → rm = []) (e : step s o = some s') (k : Nat)
    (hk : (s.live k).isSome ∨ s.complete k = true) : (s'.live k).isSome ∨ s'.complete k = true := by
  cases o with
  | beginAdd ks ig => simp only [step, Option.some.injEq] at e; subst e; exact hk
  | beginArch k => simp only [step] at e; split at e <;> simp at e; subst e; exact hk
  | beginDel => simp only [step, Option.some.injEq] at e; subst e; exact hk
  | delKey t k => simp [Op.deletes] at ho
  | step t n =>
    simp only [step] at e
    split at e
    · cases e
    · simp only [Option.some.injEq] at e; subst e; exact hk
    · simp only [Option.some.injEq] at e; subst e
      rcases hk with hk | hk
      · left; simp only [updAll]; split
        · rfl
        · exact hk
      · exact Or.inr hk
    · rename_i k0 _
      simp only [Option.some.injEq] at e; subst e
      by_cases hkk : k = k0
      · subst hkk; right; exact upd_same _ _ _
      · simp only [upd_ne _ _ hkk]; exact hk
    · simp only [Option.some.injEq] at e; subst e; exact hk
    · rename_i rm ht
      have := h t rm ht
      subst this
      simp only [Option.some.injEq] at e; subst e
      simpa [updAll] using hk
  | start k => simp only [step] at e; split at e <;> simp at e; subst e; exact hk
  | finish k to => simp only [step] at e; split at e <;> simp at e; subst e; exact hk
  | kick k => simp only [step] at e; split at e <;> simp at e; subst e; exact hk
  | write i =>
    simp only [step] at e; split at e <;> simp at e; subst e
    rename_i k0 st _
    rcases hk with hk | hk
    · left
      simp only
      split
      · by_cases hkk : k = k0
        · subst hkk; simp [upd_same]
        · rw [upd_ne _ _ hkk]; exact hk
      · exact hk
    · exact Or.inr hk
  | crash => simp only [step, Option.some.injEq] at e; subst e; exact hk

/-- C27, never lost: without delete requests, and however requests overlap and whenever the manager crashes, a job that
is in the database stays there, live or complete. -/
theorem C27_never_lost (os₁ os₂ : List Op) (s s' : S) (h₁ : run {} os₁ = some s) (h₂ : run s os₂ = some s')
    (hd : ∀ o ∈ os₁ ++ os₂, o.deletes = false) (k : Nat) (hk : (s.live k).isSome ∨ s.complete k = true) :
    (s'.live k).isSome ∨ s'.complete k = true := by
  have h0 : ∀ (os : List Op) (s s' : S), (∀ o ∈ os, o.deletes = false) → (∀ t rm, s.ths t = some (.del rm) → rm = []) →
      run s os = some s' → ∀ t rm, s'.ths t = some (.del rm) → rm = [] := by
    intro os
    induction os with
    | nil => intro s s' _ h e; simp [run] at e; subst e; exact h
    | cons o os ih =>
      intro s s' hd h e
      simp only [run, Option.bind_eq_some_iff] at e
      obtain ⟨t, e1, e2⟩ := e
      exact ih t s' (fun o ho => hd o (by simp [ho])) (del_nil o (hd o (by simp)) h e1) e2
  have hs := h0 os₁ {} s (fun o ho => hd o (by simp [ho])) (by simp) h₁
  have hd2 : ∀ o ∈ os₂, o.deletes = false := fun o ho => hd o (by simp [ho])
  clear h₁ hd h0
  induction os₂ generalizing s with
  | nil => simp [run] at h₂; subst h₂; exact hk
  | cons o os ih =>
    simp only [run, Option.bind_eq_some_iff] at h₂
    obtain ⟨t, e1, e2⟩ := h₂
    have ho := hd2 o (by simp)
    exact ih t e2 (stored_step o ho hs e1 k hk) (del_nil o ho hs e1) fun o ho => hd2 o (by simp [ho])

/-- C27 fails when a delete and an add of the same job overlap: the add is acknowledged and the job is queued, no request
is in progress, but the database does not have the job, and a crash loses it. -/
theorem C27_violated : ∃ os s, run {} os = some s ∧ (∀ t, t < s.next → s.ths t = none) ∧ .addAck [1, 2] ∈ s.log ∧
    s.log.idxOf (.delBegin 1) < s.log.idxOf (.addBegin [1, 2]) ∧ (s.queue 1).isSome ∧ s.live 1 = none ∧
    (∀ s', step s .crash = some s' → s'.queue 1 = none) :=
  ⟨[.beginAdd [1] false, .step 0 0, .step 0 0, .beginDel, .delKey 1 1, .beginAdd [1, 2] false, .step 2 9, .step 2 0, .step 1 0],
    _, rfl, by decide, by decide, by decide, by decide, by decide, by
      intro s' h; simp only [step, Option.some.injEq] at h; subst h; decide⟩

/-- C27 fails when an archive and an add of the same job overlap: the add is acknowledged and the job is live, but it is
in no queue, so it is not run (until the next restart). -/
theorem C27_violated_archive : ∃ os s, run {} os = some s ∧ .addAck [1, 2] ∈ s.log ∧
    s.log.idxOf (.archBegin 1) < s.log.idxOf (.addBegin [1, 2]) ∧ (s.live 1).isSome ∧ s.queue 1 = none ∧
    (∀ t, t < s.next → s.ths t = none) :=
  ⟨[.beginAdd [1] false, .step 0 0, .step 0 0, .start 1, .beginArch 1, .step 1 0, .beginAdd [1, 2] false, .step 2 9,
    .step 2 0, .step 1 0], _, rfl, by decide, by decide, by decide, by decide, by decide⟩

/-! ### Checking the hypotheses on concrete histories -/

private def involvesB (k : Nat) : Th → Bool
  | .add kept _ => kept.contains k
  | .arch j _ => j == k
  | .del rm => rm.contains k

private def busyB (s : S) (k : Nat) : Bool :=
  (List.range s.next).any fun t => match s.ths t with
    | some th => involvesB k th
    | none => false

private def checkB (tidy : Bool) (s : S) : Op → Bool
  | .beginAdd ks _ => ks.all fun k => !busyB s k && (!tidy || ((s.live k).isNone && s.pend.all fun w => w.1 != k))
  | .beginArch k => !busyB s k
  | .delKey _ k => !busyB s k
  | .write i => !tidy || i == 0
  | _ => true

private def checkAll (tidy : Bool) (s : S) : List Op → Bool
  | [] => true
  | o :: os => checkB tidy s o && (match step s o with
    | some s' => checkAll tidy s' os
    | none => true)

private theorem not_busy {s : S} (h : ∀ t, s.next ≤ t → s.ths t = none) {k : Nat} (hb : busyB s k = false) : ¬ Busy s k := by
  rintro ⟨t, th, ht, hv⟩
  have htn : t < s.next := Nat.lt_of_not_le fun hc => by rw [h t hc] at ht; cases ht
  unfold busyB at hb
  rw [List.any_eq_false] at hb
  have := hb t (List.mem_range.2 htn)
  rw [ht] at this
  cases th <;> simp [Th.involves, involvesB] at this hv <;> exact absurd hv this

private theorem fresh_step {s s' : S} (o : Op) (h : ∀ t, s.next ≤ t → s.ths t = none) (e : step s o = some s') :
    ∀ t, s'.next ≤ t → s'.ths t = none := by
  have put : ∀ (t0 : Nat) (th : Th) (v : Option Th), s.ths t0 = some th → ∀ t, s.next ≤ t → upd s.ths t0 v t = none := by
    intro t0 th v h0 t ht
    rw [upd_ne]
    · exact h t ht
    · intro hc; subst hc; rw [h t ht] at h0; cases h0
  have new : ∀ (v : Option Th) t, s.next + 1 ≤ t → upd s.ths s.next v t = none := by
    intro v t ht; rw [upd_ne _ _ (by omega)]; exact h t (by omega)
  cases o with
  | beginAdd ks ig => simp only [step, Option.some.injEq] at e; subst e; exact new _
  | beginArch k => simp only [step] at e; split at e <;> simp at e; subst e; exact new _
  | beginDel => simp only [step, Option.some.injEq] at e; subst e; exact new _
  | delKey t k0 =>
    simp only [step] at e
    split at e
    · rename_i hth
      split at e
      · simp at e; subst e; exact put _ _ _ hth
      · simp at e; subst e; exact put _ _ _ hth
      · cases e
    · cases e
  | step t n =>
    simp only [step] at e
    split at e
    · cases e
    all_goals (rename_i hth; simp only [Option.some.injEq] at e; subst e; exact put _ _ _ hth)
  | start k => simp only [step] at e; split at e <;> simp at e; subst e; exact h
  | finish k to => simp only [step] at e; split at e <;> simp at e; subst e; exact h
  | kick k => simp only [step] at e; split at e <;> simp at e; subst e; exact h
  | write i => simp only [step] at e; split at e <;> simp at e; subst e; exact h
  | crash => simp only [step, Option.some.injEq] at e; subst e; intro _ _; rfl

private theorem serial_of_check : ∀ (os : List Op) (s : S), (∀ t, s.next ≤ t → s.ths t = none) →
    checkAll false s os = true → Along Serial s os
  | [], _, _, _ => trivial
  | o :: os, s, h, hc => by
    simp only [checkAll, Bool.and_eq_true] at hc
    refine ⟨?_, fun s' e => serial_of_check os s' (fresh_step o h e) (by rw [e] at hc; exact hc.2)⟩
    cases o <;> simp [checkB, Serial] at hc ⊢
    · intro k hk; exact not_busy h (hc.1 k hk)
    · exact not_busy h hc.1
    · exact not_busy h hc.1

/-- Two jobs added, one run and archived, one deleted, a crash in the middle of a third add: the hypotheses of
`C27_partial` are met, with each of the three outcomes. -/
example : ∃ os s, Along Serial {} os ∧ run {} os = some s ∧ status 1 s.log = .archived ∧ status 2 s.log = .deleted ∧
    status 3 s.log = .added ∧ status 4 s.log = .unknown := by
  refine ⟨[.beginAdd [1, 2, 3] false, .step 0 0, .step 0 1, .step 0 0, .start 1, .write 0, .beginArch 1, .step 1 0, .step 1 0,
    .beginDel, .delKey 2 2, .step 2 0, .beginAdd [4, 5] true, .step 3 0, .crash], _, ?_, rfl, by decide, by decide, by decide,
    by decide⟩
  exact serial_of_check _ _ (fun _ _ => rfl) (by decide)

/-! ## C28 -/

private theorem none_step {s s' : S} {k : Nat} (o : Op) (hn : s.live k = none)
    (h1 : ∀ t kept todo, s.ths t = some (.add kept todo) → k ∉ todo) (h2 : ∀ ks ig, o = .beginAdd ks ig → k ∉ ks)
    (e : step s o = some s') : s'.live k = none ∧ ∀ t kept todo, s'.ths t = some (.add kept todo) → k ∉ todo := by
  have put : ∀ (t0 : Nat) (v : Option Th), (∀ kept todo, v = some (.add kept todo) → k ∉ todo) →
      ∀ t kept todo, upd s.ths t0 v t = some (.add kept todo) → k ∉ todo := by
    intro t0 v hv t kept todo ht
    by_cases hit : t = t0
    · subst hit; rw [upd_same] at ht; exact hv kept todo ht
    · rw [upd_ne _ _ hit] at ht; exact h1 t kept todo ht
  cases o with
  | beginAdd ks ig =>
    simp only [step, Option.some.injEq] at e; subst e
    refine ⟨hn, put _ _ ?_⟩
    intro kept todo hk hm
    simp only [Option.some.injEq, Th.add.injEq] at hk
    rw [← hk.2] at hm
    apply h2 ks ig rfl
    split at hm
    · exact (List.mem_filter.1 hm).1
    · exact hm
  | beginArch k =>
    simp only [step] at e; split at e <;> simp at e
    subst e; exact ⟨hn, put _ _ (by simp)⟩
  | beginDel => simp only [step, Option.some.injEq] at e; subst e; exact ⟨hn, put _ _ (by simp)⟩
  | delKey t k0 =>
    simp only [step] at e
    split at e
    · split at e
      · simp at e; subst e; exact ⟨hn, put _ _ (by simp)⟩
      · simp at e; subst e; exact ⟨hn, put _ _ (by simp)⟩
      · cases e
    · cases e
  | step t n =>
    simp only [step] at e
    split at e
    · cases e
    · simp only [Option.some.injEq] at e; subst e; exact ⟨hn, put _ _ (by simp)⟩
    · rename_i kept todo _ ht
      simp only [Option.some.injEq] at e; subst e
      have := h1 t kept todo ht
      refine ⟨?_, put _ _ ?_⟩
      · simp only [updAll]; rw [if_neg fun hc => this (List.mem_of_mem_take hc)]; exact hn
      · intro k2 td hk hm
        simp only [Option.some.injEq, Th.add.injEq] at hk
        rw [← hk.2] at hm; exact this (List.mem_of_mem_drop hm)
    · simp only [Option.some.injEq] at e; subst e
      refine ⟨?_, put _ _ (by simp)⟩
      simp only [upd]; split
      · rfl
      · exact hn
    · simp only [Option.some.injEq] at e; subst e; exact ⟨hn, put _ _ (by simp)⟩
    · simp only [Option.some.injEq] at e; subst e
      refine ⟨?_, put _ _ (by simp)⟩
      simp only [updAll]; split
      · rfl
      · exact hn
  | start k => simp only [step] at e; split at e <;> simp at e; subst e; exact ⟨hn, h1⟩
  | finish k to => simp only [step] at e; split at e <;> simp at e; subst e; exact ⟨hn, h1⟩
  | kick k => simp only [step] at e; split at e <;> simp at e; subst e; exact ⟨hn, h1⟩
  | write i =>
    simp only [step] at e; split at e <;> simp at e; subst e
    rename_i k0 st _
    refine ⟨?_, h1⟩
    simp only
    split
    · rename_i hl
      rw [upd_ne]
      · exact hn
      · intro hc; subst hc; rw [hn] at hl; cases hl
    · exact hn
  | crash => simp only [step, Option.some.injEq] at e; subst e; exact ⟨hn, fun t _ _ ht => by simp at ht⟩

/-- C28: a job that is not in the live bucket (archived, deleted or never added) does not get there by anything but an
add request for it: whatever the scheduled writes, however long they are delayed and in whatever order they, other
requests and crashes are executed. -/
theorem C28 (os : List Op) (s s' : S) (h : run s os = some s') (k : Nat) (hn : s.live k = none)
    (h1 : ∀ t kept todo, s.ths t = some (.add kept todo) → k ∉ todo) (h2 : ∀ ks ig, .beginAdd ks ig ∈ os → k ∉ ks) :
    s'.live k = none := by
  induction os generalizing s with
  | nil => simp [run] at h; subst h; exact hn
  | cons o os ih =>
    simp only [run, Option.bind_eq_some_iff] at h
    obtain ⟨t, e1, e2⟩ := h
    obtain ⟨a, b⟩ := none_step o hn h1 (fun ks ig e => h2 ks ig (by simp [e])) e1
    exact ih t e2 a b fun ks ig hm => h2 ks ig (by simp [hm])

/-- The write that says the job was started is executed after the job was archived. -/
example : ∃ s s' : S, run {} [.beginAdd [1] false, .step 0 0, .step 0 0, .start 1, .beginArch 1, .step 1 0, .step 1 0] = some s ∧
    s.pend = [(1, .running)] ∧ s.live 1 = none ∧ run s [.write 0] = some s' ∧ s'.live 1 = none :=
  ⟨_, _, rfl, by decide, by decide, rfl, by decide⟩

/-! ## C68: the recorded state -/

/-- The writes are executed in the order in which they were scheduled; requests about the same job do not overlap, and a
job is only added if it is not live and no writes about it are outstanding. -/
def Tidy (s : S) : Op → Prop
  | .beginAdd ks _ => ∀ k ∈ ks, ¬ Busy s k ∧ s.live k = none ∧ ∀ st, (k, st) ∉ s.pend
  | .beginArch k => ¬ Busy s k
  | .delKey _ k => ¬ Busy s k
  | .write i => i = 0
  | _ => True

/-- What a record will be once all scheduled writes are executed. -/
private def settle (k : Nat) (pend : List (Nat × JS)) (st : JS) : JS :=
  pend.foldl (fun acc w => if w.1 = k then w.2 else acc) st

private theorem settle_snoc (k : Nat) (pend : List (Nat × JS)) (w : Nat × JS) (st : JS) :
    settle k (pend ++ [w]) st = if w.1 = k then w.2 else settle k pend st := by
  simp [settle]

private theorem settle_none (k : Nat) : ∀ (pend : List (Nat × JS)) (st : JS), (∀ st', (k, st') ∉ pend) → settle k pend st = st
  | [], _, _ => rfl
  | (j, x) :: pend, st, h => by
    have hj : j ≠ k := fun e => h x (by simp [e])
    have := settle_none k pend st fun st' hm => h st' (by simp [hm])
    simpa [settle, hj] using this

private structure RInv (s : S) : Prop where
  rcd : ∀ k q st, s.queue k = some q → s.live k = some st → settle k s.pend st = q
  add : ∀ t kept todo, s.ths t = some (.add kept todo) → ∀ k ∈ kept, (∀ st, (k, st) ∉ s.pend) ∧ s.queue k = none ∧
    (∀ st, s.live k = some st → st = .ready)

private theorem tidy_serial {s : S} {o : Op} (h : Tidy s o) : Serial s o := by
  cases o <;> simp only [Tidy, Serial] at h ⊢ <;> first | exact fun k hk => (h k hk).1 | exact h | trivial

private theorem rinv_step {s s' : S} (o : Op) (hi : Inv s) (h : RInv s) (ho : Tidy s o) (e : step s o = some s') :
    RInv s' := by
  have put : ∀ (t0 : Nat) (v : Option Th) (P : Nat → Prop), (∀ kept todo, v = some (.add kept todo) → ∀ k ∈ kept, P k) →
      (∀ t kept todo, s.ths t = some (.add kept todo) → ∀ k ∈ kept, P k) →
      ∀ t kept todo, upd s.ths t0 v t = some (.add kept todo) → ∀ k ∈ kept, P k := by
    intro t0 v P hv hP t kept todo ht
    by_cases hit : t = t0
    · subst hit; rw [upd_same] at ht; exact hv kept todo ht
    · rw [upd_ne _ _ hit] at ht; exact hP t kept todo ht
  -- a change of the state of a queued job, with the write scheduled
  have change : ∀ (k0 : Nat) (q : JS), (s.queue k0).isSome →
      RInv { s with queue := upd s.queue k0 (some q), pend := s.pend ++ [(k0, q)] } := by
    intro k0 q hq
    refine ⟨?_, ?_⟩
    · intro k q' st h1 h2
      simp only at h1 h2 ⊢
      rw [settle_snoc]
      by_cases hk : k = k0
      · subst hk; rw [upd_same] at h1; simpa using h1
      · rw [upd_ne _ _ hk] at h1; rw [if_neg (Ne.symm hk)]; exact h.rcd k q' st h1 h2
    · intro t kept todo ht k hk
      obtain ⟨h1, h2, h3⟩ := h.add t kept todo ht k hk
      have hne : k ≠ k0 := by intro hc; subst hc; rw [h2] at hq; cases hq
      refine ⟨?_, by simp only; rw [upd_ne _ _ hne]; exact h2, h3⟩
      intro st hm
      simp only [List.mem_append, List.mem_singleton, Prod.mk.injEq] at hm
      rcases hm with hm | hm
      · exact h1 st hm
      · exact hne hm.1
  cases o with
  | beginAdd ks ig =>
    simp only [step, Option.some.injEq] at e; subst e
    refine ⟨h.rcd, put _ _ (fun k => (∀ st, (k, st) ∉ s.pend) ∧ s.queue k = none ∧ (∀ st, s.live k = some st → st = .ready))
      ?_ h.add⟩
    intro kept todo hk k hm
    simp only [Option.some.injEq, Th.add.injEq] at hk
    rw [← hk.1] at hm
    have hks : k ∈ ks := by
      split at hm
      · exact (List.mem_filter.1 hm).1
      · exact hm
    obtain ⟨h1, h2, h3⟩ := ho k hks
    have hq := (hi.key k).free h1
    rw [h2] at hq
    refine ⟨h3, by simpa using hq, fun st hl => by rw [h2] at hl; cases hl⟩
  | beginArch k =>
    simp only [step] at e; split at e <;> simp at e
    subst e
    exact ⟨h.rcd, put _ _ _ (by simp) h.add⟩
  | beginDel => simp only [step, Option.some.injEq] at e; subst e; exact ⟨h.rcd, put _ _ _ (by simp) h.add⟩
  | delKey t k0 =>
    have key : ∀ rm, RInv { s with queue := upd s.queue k0 none, ths := upd s.ths t (some (.del rm)), log := s.log ++ [.delBegin k0] } := by
      intro rm
      refine ⟨?_, put _ _ (fun k => (∀ st, (k, st) ∉ s.pend) ∧ upd s.queue k0 none k = none ∧
        (∀ st, s.live k = some st → st = .ready)) (by simp) ?_⟩
      · intro k q st h1 h2
        simp only at h1 h2 ⊢
        by_cases hk : k = k0
        · subst hk; rw [upd_same] at h1; cases h1
        · rw [upd_ne _ _ hk] at h1; exact h.rcd k q st h1 h2
      · intro t kept todo ht k hk
        obtain ⟨h1, h2, h3⟩ := h.add t kept todo ht k hk
        refine ⟨h1, ?_, h3⟩
        by_cases hk : k = k0
        · subst hk; exact upd_same _ _ _
        · rw [upd_ne _ _ hk]; exact h2
    simp only [step] at e
    split at e
    · split at e
      · simp only [Option.some.injEq] at e; subst e; exact key _
      · simp only [Option.some.injEq] at e; subst e; exact key _
      · cases e
    · cases e
  | step t n =>
    simp only [step] at e
    split at e
    · cases e
    · -- enqueue
      rename_i kept ht
      simp only [Option.some.injEq] at e; subst e
      refine ⟨?_, ?_⟩
      · intro k q st h1 h2
        simp only at h1 h2 ⊢
        by_cases hk : k ∈ kept
        · obtain ⟨a1, a2, a3⟩ := h.add t kept [] ht k hk
          rw [settle_none k _ _ a1]
          rw [if_pos hk, a2] at h1
          simp at h1
          rw [a3 st h2]; exact h1
        · rw [if_neg hk] at h1; exact h.rcd k q st h1 h2
      · intro i k2 todo hi' k hk
        simp only at hi'
        by_cases hit : i = t
        · subst hit; rw [upd_same] at hi'; cases hi'
        · rw [upd_ne _ _ hit] at hi'
          obtain ⟨a1, a2, a3⟩ := h.add i k2 todo hi' k hk
          refine ⟨a1, ?_, a3⟩
          have : k ∉ kept := only (hi.key k) hi' hk t _ (Ne.symm hit) ht
          simp [this, a2]
    · -- store
      rename_i kept todo hne ht
      simp only [Option.some.injEq] at e; subst e
      have hsub : ∀ k ∈ todo.take (n + 1), k ∈ kept := fun k hk => hi.todo t kept todo ht k (List.mem_of_mem_take hk)
      have hadd : ∀ i k2 td, s.ths i = some (.add k2 td) → ∀ k ∈ k2, (∀ st, (k, st) ∉ s.pend) ∧ s.queue k = none ∧
          (∀ st, updAll s.live (todo.take (n + 1)) (some .ready) k = some st → st = .ready) := by
        intro i k2 td hi' k hk
        obtain ⟨a1, a2, a3⟩ := h.add i k2 td hi' k hk
        refine ⟨a1, a2, ?_⟩
        intro st hl
        unfold updAll at hl
        split at hl
        · simpa using hl.symm
        · exact a3 st hl
      refine ⟨?_, put _ _ (fun k => (∀ st, (k, st) ∉ s.pend) ∧ s.queue k = none ∧
          (∀ st, updAll s.live (todo.take (n + 1)) (some .ready) k = some st → st = .ready)) ?_ hadd⟩
      · intro k q st h1 h2
        simp only at h1 h2 ⊢
        unfold updAll at h2
        split at h2
        · rename_i hk
          rw [(h.add t kept todo ht k (hsub k hk)).2.1] at h1; cases h1
        · exact h.rcd k q st h1 h2
      · intro k2 td hk
        simp only [Option.some.injEq, Th.add.injEq] at hk
        obtain ⟨rfl, -⟩ := hk
        exact hadd t kept todo ht
    · -- archive, transaction
      rename_i k0 ht
      simp only [Option.some.injEq] at e; subst e
      refine ⟨?_, put _ _ (fun k => (∀ st, (k, st) ∉ s.pend) ∧ s.queue k = none ∧
          (∀ st, upd s.live k0 none k = some st → st = .ready)) (by simp) ?_⟩
      · intro k q st h1 h2
        simp only at h1 h2 ⊢
        by_cases hk : k = k0
        · subst hk; rw [upd_same] at h2; cases h2
        · rw [upd_ne _ _ hk] at h2; exact h.rcd k q st h1 h2
      · intro i k2 td hi' k hk
        obtain ⟨a1, a2, a3⟩ := h.add i k2 td hi' k hk
        refine ⟨a1, a2, fun st hl => ?_⟩
        by_cases hk : k = k0
        · subst hk; rw [upd_same] at hl; cases hl
        · rw [upd_ne _ _ hk] at hl; exact a3 st hl
    · -- archive, out of the queue
      rename_i k0 ht
      simp only [Option.some.injEq] at e; subst e
      refine ⟨?_, put _ _ (fun k => (∀ st, (k, st) ∉ s.pend) ∧ upd s.queue k0 none k = none ∧
          (∀ st, s.live k = some st → st = .ready)) (by simp) ?_⟩
      · intro k q st h1 h2
        simp only at h1 h2 ⊢
        by_cases hk : k = k0
        · subst hk; rw [upd_same] at h1; cases h1
        · rw [upd_ne _ _ hk] at h1; exact h.rcd k q st h1 h2
      · intro i k2 td hi' k hk
        obtain ⟨a1, a2, a3⟩ := h.add i k2 td hi' k hk
        refine ⟨a1, ?_, a3⟩
        by_cases hk : k = k0
        · subst hk; exact upd_same _ _ _
        · rw [upd_ne _ _ hk]; exact a2
    · -- delete, transaction
      rename_i rm ht
      simp only [Option.some.injEq] at e; subst e
      refine ⟨?_, put _ _ (fun k => (∀ st, (k, st) ∉ s.pend) ∧ s.queue k = none ∧
          (∀ st, updAll s.live rm none k = some st → st = .ready)) (by simp) ?_⟩
      · intro k q st h1 h2
        simp only at h1 h2 ⊢
        unfold updAll at h2
        split at h2
        · cases h2
        · exact h.rcd k q st h1 h2
      · intro i k2 td hi' k hk
        obtain ⟨a1, a2, a3⟩ := h.add i k2 td hi' k hk
        refine ⟨a1, a2, fun st hl => ?_⟩
        unfold updAll at hl
        split at hl
        · cases hl
        · exact a3 st hl
  | start k0 =>
    simp only [step] at e; split at e <;> simp at e
    rename_i hq
    subst e; exact change k0 _ (by simp [hq])
  | finish k0 to =>
    simp only [step] at e; split at e <;> simp at e
    rename_i hq
    subst e; exact change k0 _ (by simp [hq])
  | kick k0 =>
    simp only [step] at e; split at e <;> simp at e
    rename_i hq
    subst e; exact change k0 _ (by simp [hq])
  | write i =>
    have h0 : i = 0 := ho
    subst h0
    simp only [step] at e; split at e <;> simp at e
    rename_i k0 st0 hp
    subst e
    obtain ⟨rest, hpe⟩ : ∃ rest, s.pend = (k0, st0) :: rest := by
      cases hs : s.pend with
      | nil => rw [hs] at hp; cases hp
      | cons w rest => rw [hs] at hp; simp at hp; exact ⟨rest, by rw [hp]⟩
    refine ⟨?_, ?_⟩
    · intro k q st h1 h2
      simp only [hpe] at h1 h2 ⊢
      by_cases hk : k = k0
      · subst hk
        have hl : ∃ st1, s.live k = some st1 := by
          split at h2
          · exact Option.isSome_iff_exists.1 ‹_›
          · exact ⟨st, h2⟩
        obtain ⟨st1, hl⟩ := hl
        rw [if_pos (by simp [hl]), upd_same] at h2
        simp at h2
        have := h.rcd k q st1 h1 hl
        rw [hpe] at this
        simp only [settle, List.foldl_cons, if_true] at this
        rw [← h2]; exact this
      · have h2' : s.live k = some st := by
          split at h2
          · rw [upd_ne _ _ hk] at h2; exact h2
          · exact h2
        have := h.rcd k q st h1 h2'
        rw [hpe] at this
        simp only [settle, List.foldl_cons, if_neg (Ne.symm hk)] at this
        exact this
    · intro t kept todo ht k hk
      obtain ⟨a1, a2, a3⟩ := h.add t kept todo ht k hk
      have hne : k ≠ k0 := by intro hc; subst hc; exact a1 st0 (by rw [hpe]; simp)
      refine ⟨fun st hm => a1 st (List.mem_of_mem_tail hm), a2, fun st hl => a3 st ?_⟩
      simp only at hl
      split at hl
      · rw [upd_ne _ _ hne] at hl; exact hl
      · exact hl
  | crash =>
    simp only [step, Option.some.injEq] at e; subst e
    refine ⟨?_, fun t _ _ ht => by simp at ht⟩
    intro k q st h1 h2
    simp only at h1 h2
    rw [h1] at h2; simp at h2
    simp [settle, h2]

/-- C68, for tidy histories: once the scheduled writes have been executed, the recorded state of every job is its state
in the queue, and so a crash does not change the queue (except for jobs about which a request is in progress). -/
theorem C68_partial (os : List Op) (s : S) (ha : Along Tidy {} os) (h : run {} os = some s) (hp : s.pend = []) (k : Nat)
    (hk : ¬ Busy s k) : s.live k = s.queue k ∧ ∀ s', step s .crash = some s' → s'.queue k = s.queue k := by
  have key : ∀ (os : List Op) (s s' : S), Inv s → RInv s → Along Tidy s os → run s os = some s' → Inv s' ∧ RInv s' := by
    intro os
    induction os with
    | nil => intro s s' hi hr _ e; simp [run] at e; subst e; exact ⟨hi, hr⟩
    | cons o os ih =>
      intro s s' hi hr ha e
      simp only [run, Option.bind_eq_some_iff] at e
      obtain ⟨t, e1, e2⟩ := e
      exact ih t s' (inv_step o hi (tidy_serial ha.1) e1) (rinv_step o hi hr ha.1 e1) (ha.2 t e1) e2
  obtain ⟨hi, hr⟩ := key os {} s inv_init ⟨fun k q st h1 => by simp at h1, fun t kept todo ht => by simp at ht⟩ ha h
  have hfree := (hi.key k).free hk
  have he : s.live k = s.queue k := by
    cases hq : s.queue k with
    | none => rw [hq] at hfree; simpa using hfree.symm
    | some q =>
      rw [hq] at hfree
      obtain ⟨st, hl⟩ := Option.isSome_iff_exists.1 (show (s.live k).isSome = true by rw [← hfree]; rfl)
      have := hr.rcd k q st hq hl
      rw [hp] at this
      simp [settle] at this
      rw [hl, this]
  refine ⟨he, fun s' e => ?_⟩
  simp only [step, Option.some.injEq] at e
  subst e; exact he

/-- C68 fails: the writes for a start and for the end of that run are executed in the other order, and after a crash a
job that nobody runs is taken to be running. -/
theorem C68_violated_order : ∃ s, run {} [.beginAdd [1] false, .step 0 0, .step 0 0, .start 1, .finish 1 .buried, .write 1,
    .write 0] = some s ∧ s.pend = [] ∧ s.queue 1 = some .buried ∧ s.live 1 = some .running :=
  ⟨_, rfl, by decide, by decide, by decide⟩

/-- C68 fails: adding a job again while it is running (the client is told it is a duplicate) replaces its record, and
after a crash it is handed out a second time though it is still running. -/
theorem C68_violated_duplicate : ∃ s, run {} [.beginAdd [1] false, .step 0 0, .step 0 0, .start 1, .write 0,
    .beginAdd [1] false, .step 1 0, .step 1 0] = some s ∧ s.pend = [] ∧ s.queue 1 = some .running ∧ s.live 1 = some .ready :=
  ⟨_, rfl, by decide, by decide, by decide⟩

/-- C68 fails, even with the writes in order: a write scheduled before a job was deleted changes the record of the job
when it is added again. -/
theorem C68_violated_readded : ∃ s, run {} [.beginAdd [1] false, .step 0 0, .step 0 0, .start 1, .finish 1 .buried,
    .beginDel, .delKey 1 1, .step 1 0, .beginAdd [1] false, .step 2 0, .step 2 0, .write 0, .write 0] = some s ∧ s.pend = [] ∧
    s.queue 1 = some .ready ∧ s.live 1 = some .buried :=
  ⟨_, rfl, by decide, by decide, by decide⟩

private theorem tidy_of_check : ∀ (os : List Op) (s : S), (∀ t, s.next ≤ t → s.ths t = none) →
    checkAll true s os = true → Along Tidy s os
  | [], _, _, _ => trivial
  | o :: os, s, h, hc => by
    simp only [checkAll, Bool.and_eq_true] at hc
    refine ⟨?_, fun s' e => tidy_of_check os s' (fresh_step o h e) (by rw [e] at hc; exact hc.2)⟩
    cases o <;> simp [checkB, Tidy] at hc ⊢
    · intro k hk
      obtain ⟨h1, h2, h3⟩ := hc.1 k hk
      exact ⟨not_busy h h1, h2, fun st hm => h3 _ _ hm rfl⟩
    · exact not_busy h hc.1
    · exact not_busy h hc.1
    · exact hc.1

example : ∃ os s, Along Tidy {} os ∧ run {} os = some s ∧ s.pend = [] ∧ s.queue 1 = some .buried ∧ s.queue 2 = some .running :=
  ⟨[.beginAdd [1, 2] false, .step 0 5, .step 0 0, .start 1, .start 2, .finish 1 .buried, .write 0, .write 0, .write 0], _,
    tidy_of_check _ _ (fun _ _ => rfl) (by decide), rfl, by decide, by decide, by decide⟩

end Verif.Server.Db
