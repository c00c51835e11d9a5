import Verif.Queue.Notify

/-! # C12: the ready-added callback is never run concurrently and never misses ready items -/

namespace Verif.Queue.Notify

/-! ## Specification, in terms of the events seen -/

/-- The number of callback runs going on after these events. -/
def runsNow : List Ev → Int
  | [] => 0
  | .started _ :: l => 1 + runsNow l
  | .ended :: l => runsNow l - 1
  | _ :: l => runsNow l

/-- The item is ready after these events and no callback run was told of it since it became ready. -/
def Untold (i : Nat) : List Ev → Prop
  | l => ∃ l₁ l₂, l = l₁ ++ .became i :: l₂ ∧ .left i ∉ l₂ ∧ ∀ d, .started d ∈ l₂ → i ∉ d

/-! ## Invariant -/

private theorem runsNow_append (a b : List Ev) : runsNow (a ++ b) = runsNow a + runsNow b := by
  induction a with
  | nil => simp [runsNow]
  | cons x l ih => cases x <;> simp [runsNow, ih] <;> omega

private theorem untold_snoc {i : Nat} {l : List Ev} {e : Ev} (h : Untold i (l ++ [e])) :
    e = .became i ∨ (Untold i l ∧ e ≠ .left i ∧ ∀ d, e = .started d → i ∉ d) := by
  obtain ⟨l₁, l₂, e1, h1, h2⟩ := h
  rcases List.eq_nil_or_concat l₂ with rfl | ⟨l₃, x, rfl⟩
  · have := (List.append_inj' e1 rfl).2
    simp at this; exact Or.inl this
  · rw [List.concat_eq_append] at *
    have e2 : l ++ [e] = (l₁ ++ .became i :: l₃) ++ [x] := by simpa using e1
    have h3 := List.append_inj' e2 rfl
    simp at h3
    obtain ⟨h3, rfl⟩ := h3
    right
    refine ⟨⟨l₁, l₃, h3, ?_, ?_⟩, ?_, ?_⟩
    · intro h; exact h1 (by simp [h])
    · intro d h; exact h2 d (by simp [h])
    · intro h; exact h1 (by simp [h])
    · intro d h; exact h2 d (by simp [h])

/-- The number of callback runs a goroutine accounts for. -/
private def cbs : List Phase → Int
  | [.inCb] => 1
  | _ => 0

private structure Inv (s : St) : Prop where
  len : (s.running = false ∧ s.gs = []) ∨ (s.running = true ∧ ∃ p, s.gs = [p])
  rcl : s.recall = true → s.running = true
  wait : s.gs = [.wait] → s.recall = true
  runs : runsNow s.log = cbs s.gs
  told : ∀ i, Untold i s.log → i ∈ s.ready ∧ (0 < s.calls ∨ s.recall = true ∨ s.gs = [.snap])

private theorem inv_init : Inv {} :=
  { len := Or.inl ⟨rfl, rfl⟩, rcl := fun h => (by cases h), wait := fun h => (by cases h), runs := rfl
    told := fun i ⟨l₁, l₂, h, _⟩ => by simp at h }

private theorem inv_step {s s' : St} (o : Op) (h : Inv s) (e : step s o = some s') : Inv s' := by
  cases o with
  | ready i =>
    simp [step] at e; subst e
    refine ⟨h.len, h.rcl, h.wait, ?_, ?_⟩
    · simp [runsNow_append, runsNow, h.runs]
    · intro j hj
      rcases untold_snoc hj with hj | ⟨hj, -, -⟩
      · simp at hj; subst hj; simp
      · have := h.told j hj; simp [this.1]
  | leave i =>
    simp only [step] at e
    split at e
    · simp at e; subst e
      refine ⟨h.len, h.rcl, h.wait, ?_, ?_⟩
      · simp [runsNow_append, runsNow, h.runs]
      · intro j hj
        rcases untold_snoc hj with hj | ⟨hj, h2, -⟩
        · simp at hj
        · have := h.told j hj
          refine ⟨?_, this.2⟩
          simp at h2
          simp [this.1]; exact fun e => h2 e.symm
    · cases e
  | trigger =>
    simp [step] at e; subst e
    exact ⟨h.len, h.rcl, h.wait, h.runs, fun j hj => ⟨(h.told j hj).1, Or.inl (by simp)⟩⟩
  | call =>
    simp only [step] at e
    split at e
    · cases e
    · split at e
      · rename_i hr
        simp at e; subst e
        exact ⟨h.len, fun _ => hr, fun _ => rfl, h.runs, fun j hj => ⟨(h.told j hj).1, Or.inr (Or.inl rfl)⟩⟩
      · rename_i hr
        simp at e; subst e
        rcases h.len with ⟨-, hg⟩ | ⟨hg, -⟩
        · refine ⟨Or.inr ⟨rfl, .snap, by simp [hg]⟩, fun _ => rfl, fun h => by simp [hg] at h, ?_, ?_⟩
          · simp [h.runs, hg, cbs]
          · intro j hj; exact ⟨(h.told j hj).1, Or.inr (Or.inr (by simp [hg]))⟩
        · exact absurd hg hr
  | go n =>
    simp only [step] at e
    rcases h.len with ⟨-, hg⟩ | ⟨hrun, p, hg⟩
    · simp [hg] at e
    · have hn : n = 0 := by
        rcases n with _ | n
        · rfl
        · simp [hg] at e
      subst hn
      simp only [hg, List.getElem?_cons_zero] at e
      cases p with
      | snap =>
        simp at e; subst e
        refine ⟨Or.inr ⟨hrun, .inCb, rfl⟩, h.rcl, fun h => by simp at h, ?_, ?_⟩
        · have := h.runs; simp [runsNow_append, runsNow, this, hg, cbs]
        · intro j hj
          rcases untold_snoc hj with hj | ⟨hj, -, h3⟩
          · cases hj
          · have := (h.told j hj).1
            exact absurd this (h3 _ rfl)
      | inCb =>
        simp at e; subst e
        refine ⟨Or.inr ⟨hrun, .fin, rfl⟩, h.rcl, fun h => by simp at h, ?_, ?_⟩
        · have := h.runs; simp [runsNow_append, runsNow, this, hg, cbs]
        · intro j hj
          rcases untold_snoc hj with hj | ⟨hj, -, -⟩
          · cases hj
          · have := h.told j hj
            simpa [hg] using this
      | fin =>
        simp only at e
        split at e
        · rename_i hrec
          simp at e; subst e
          exact ⟨Or.inr ⟨hrun, .wait, rfl⟩, h.rcl, fun _ => hrec, by simpa [hg, cbs] using h.runs,
            fun j hj => ⟨(h.told j hj).1, Or.inr (Or.inl hrec)⟩⟩
        · rename_i hrec
          simp at e; subst e
          refine ⟨Or.inl ⟨rfl, rfl⟩, fun h => absurd h hrec, fun h => by simp at h, by simpa [hg, cbs] using h.runs, ?_⟩
          intro j hj
          have := h.told j hj
          simpa [hg, hrec] using this
      | wait =>
        simp at e; subst e
        exact ⟨Or.inl ⟨rfl, rfl⟩, fun h => by simp at h, fun h => by simp at h, by simpa [hg, cbs] using h.runs,
          fun j hj => ⟨(h.told j hj).1, Or.inl (by simp)⟩⟩

private theorem inv_run (os : List Op) : ∀ {s s' : St}, Inv s → run s os = some s' → Inv s' := by
  induction os with
  | nil => intro s s' h e; simp [run] at e; subst e; exact h
  | cons o os ih =>
    intro s s' h e
    simp only [run, Option.bind_eq_some_iff] at e
    obtain ⟨t, e1, e2⟩ := e
    exact ih (inv_step o h e1) e2

/-! ## The theorems -/

/-- C12, first half: at any moment of any history at most one callback run is going on. -/
theorem C12_single (os : List Op) (s : St) (h : run {} os = some s) : runsNow s.log = 0 ∨ runsNow s.log = 1 := by
  have := (inv_run os inv_init h).runs
  rw [this]
  unfold cbs
  split <;> simp

/-- C12, second half: after any history, if nothing that the queue itself still has to do is left (all calls returned,
all goroutines ended), then every ready item has been passed to a callback run that started after it became ready. -/
theorem C12_told (os : List Op) (s : St) (h : run {} os = some s) (i : Nat) (hi : Untold i s.log) :
    ∃ o, o.internal = true ∧ (step s o).isSome := by
  have inv := inv_run os inv_init h
  rcases (inv.told i hi).2 with h1 | h1 | h1
  · refine ⟨.call, rfl, ?_⟩
    simp only [step]
    split
    · omega
    · split <;> rfl
  · obtain ⟨-, p, hg⟩ := (inv.len.resolve_left (by rw [inv.rcl h1]; simp))
    refine ⟨.go 0, rfl, ?_⟩
    cases p <;> simp [step, hg]
    split <;> rfl
  · exact ⟨.go 0, rfl, by simp [step, h1]⟩

/-- A bound on what the queue still has to do. -/
private def phaseWork : Phase → Nat
  | .snap => 5
  | .inCb => 4
  | .fin => 3
  | .wait => 2

private def work (s : St) : Nat :=
  7 * s.calls + (if s.recall then 6 else 0) + (s.gs.map phaseWork).sum

private theorem work_step {s s' : St} {o : Op} (h : Inv s) (ho : o.internal = true) (e : step s o = some s') :
    work s' < work s := by
  cases o with
  | call =>
    simp only [step] at e
    split at e
    · cases e
    · split at e
      · simp at e; subst e; simp only [work]; split <;> simp <;> omega
      · simp at e; subst e
        simp only [work, List.map_append, List.sum_append, List.map_cons, List.map_nil, List.sum_cons, List.sum_nil,
          phaseWork]; omega
  | go n =>
    simp only [step] at e
    rcases h.len with ⟨-, hg⟩ | ⟨-, p, hg⟩
    · simp [hg] at e
    · have hn : n = 0 := by
        rcases n with _ | n
        · rfl
        · simp [hg] at e
      subst hn
      simp only [hg, List.getElem?_cons_zero] at e
      cases p with
      | snap => simp at e; subst e; simp [work, hg, phaseWork]
      | inCb => simp at e; subst e; simp [work, hg, phaseWork]
      | fin =>
        simp only at e
        split at e <;> simp at e <;> subst e <;> simp [work, hg, phaseWork]
      | wait =>
        have := h.wait hg
        simp at e; subst e; simp [work, hg, phaseWork, this]; omega
  | _ => simp [Op.internal] at ho

/-- C12, and the queue gets there: without further operations by its users the queue can only take finitely many steps,
however they are scheduled (so, by `C12_told`, every item that stays ready is passed to a callback run). -/
theorem C12_ends (os : List Op) (s : St) (h : run {} os = some s) :
    ∃ bound, ∀ os' s', (∀ o ∈ os', o.internal = true) → run s os' = some s' → os'.length ≤ bound := by
  refine ⟨work s, ?_⟩
  have inv := inv_run os inv_init h
  clear h os
  intro os'
  induction os' generalizing s with
  | nil => intro _ _ _; simp
  | cons o os' ih =>
    intro s' ho e
    simp only [run, Option.bind_eq_some_iff] at e
    obtain ⟨t, e1, e2⟩ := e
    have h1 := work_step inv (ho o (by simp)) e1
    have h2 := ih t (inv_step o inv e1) s' (fun o h => ho o (by simp [h])) e2
    simp only [List.length_cons]; omega

/-- A callback run is going on and an item not told of is ready: the hypotheses of `C12_told` can be met. -/
example : ∃ s, run {} [.ready 1, .call, .go 0, .ready 2, .call] = some s ∧ runsNow s.log = 1 ∧ Untold 2 s.log :=
  ⟨_, rfl, by decide, [.became 1, .started [1]], [], rfl, by simp, by simp⟩

/-- The item that became ready during a run is passed to the next one. -/
example : (run {} [.ready 1, .call, .go 0, .ready 2, .call, .go 0, .go 0, .go 0, .call, .go 0, .go 0, .go 0]).map (·.log) =
    some [.became 1, .started [1], .became 2, .ended, .started [2, 1], .ended] := by decide

end Verif.Queue.Notify
