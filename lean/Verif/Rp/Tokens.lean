import Verif.Rp.Lemmas
/-! # Token accounting of the protector -/
namespace Verif.Rp

def cost (q : Req) : Int := if taken q then q.tokens else 0

/-- `usedTokens` is the sum of the taken tokens, at most the maximum. -/
structure TokInv (s : State) : Prop where
  used : s.used = total (fun r => cost (s.req r)) s.next
  le : s.used ≤ s.max
  bound : ∀ r < s.next, 0 ≤ (s.req r).tokens ∧ (s.req r).tokens ≤ s.max

/-- The label is no `Shutdown` and no request for a negative number of tokens. -/
def Tame : Label → Prop
  | .shutdown => False
  | .request n => 0 ≤ n
  | _ => True

theorem tok_same {s : State} (i : TokInv s) (s' : State) (e1 : ∀ r, cost (s'.req r) = cost (s.req r)) (e2 : s'.next = s.next)
    (e3 : s'.used = s.used) (e4 : s'.max = s.max) (e5 : ∀ r, (s'.req r).tokens = (s.req r).tokens) : TokInv s' := by
  constructor
  · rw [e3, e2, i.used]; exact total_congr (fun r _ => (e1 r).symm)
  · rw [e3, e4]; exact i.le
  · rw [e2, e4]; intro r hr; rw [e5]; exact i.bound r hr

theorem cost_upd {f : Nat → Req} {r : Nat} {q : Req} (ht : q.tokens = (f r).tokens) (hp : taken q = taken (f r)) (x : Nat) :
    cost (upd f r q x) = cost (f x) := by
  by_cases e : x = r
  · subst e; rw [upd_same]; unfold cost; rw [hp, ht]
  · rw [upd_ne _ _ e]
theorem tokens_upd {f : Nat → Req} {r : Nat} {q : Req} (ht : q.tokens = (f r).tokens) (x : Nat) : (upd f r q x).tokens = (f x).tokens := by
  by_cases e : x = r
  · subst e; rw [upd_same, ht]
  · rw [upd_ne _ _ e]

theorem tok_one {s : State} (i : TokInv s) (r : Nat) (q : Req) (s' : State) (e1 : s'.req = upd s.req r q) (e2 : s'.next = s.next)
    (e3 : s'.used = s.used) (e4 : s'.max = s.max) (ht : q.tokens = (s.req r).tokens) (hp : taken q = taken (s.req r)) : TokInv s' :=
  tok_same i s' (fun x => by rw [e1]; exact cost_upd ht hp x) e2 e3 e4 (fun x => by rw [e1]; exact tokens_upd ht x)

theorem taken_phase {q q' : Req} (h : q.phase = q'.phase) : taken q = taken q' := by unfold taken; rw [h]

theorem tok_request {s : State} (i : TokInv s) (n : Int) (hn : 0 ≤ n) : TokInv (request s n) := by
  unfold request
  split
  · exact i
  rename_i hm
  split
  · exact i
  have key : ∀ s' : State, s'.req = upd s.req s.next { tokens := n } → s'.next = s.next + 1 → s'.used = s.used → s'.max = s.max → TokInv s' := by
    intro s' e1 e2 e3 e4
    constructor
    · rw [e2, e3, i.used]; simp only [total]
      rw [e1]; simp only [upd_same]
      have : cost { tokens := n } = 0 := by simp [cost, taken]
      rw [this, Int.add_zero]
      exact total_congr (fun r hr => by rw [upd_ne _ _ (by omega)])
    · rw [e3, e4]; exact i.le
    · intro r hr; rw [e2] at hr; rw [e4, e1]
      by_cases e : r = s.next
      · subst e; simp only [upd_same]; omega
      · rw [upd_ne _ _ e]; exact i.bound r (by omega)
  simp only
  split <;> exact key _ rfl rfl rfl rfl

theorem tok_process {s : State} (v : Inv s) (i : TokInv s) (a) : TokInv (process s a) := by
  unfold process
  split
  · exact i
  rename_i r rest hp
  split
  · exact i
  rename_i hne
  simp only
  split
  · exact tok_same i _ (fun _ => rfl) rfl rfl rfl (fun _ => rfl)
  split
  · exact i
  rename_i hfit
  have hr : r ∈ s.pending := by rw [hp]; simp
  have hrl := v.lt r hr
  have hph := (v.idle r).1 (v.pend r hr)
  have hgt : (grant (s.req r)).tokens = (s.req r).tokens := by unfold grant; split <;> rfl
  have hb := i.bound r hrl
  have hle := i.le
  constructor
  · show s.used + (s.req r).tokens = total _ s.next
    rw [total_change (f := fun r => cost (s.req r)) (r := r) hrl]
    · rw [← i.used]; simp only [upd_same]
      have h1 : cost (s.req r) = 0 := by simp [cost, taken, hph]
      rw [h1]; simp [cost, taken, hgt]
    · intro x hx; simp only [upd_ne _ _ hx]
  · show s.used + (s.req r).tokens ≤ s.max
    have : s.used ≠ s.max := hne
    omega
  · intro x hx
    show 0 ≤ (upd s.req r _ x).tokens ∧ (upd s.req r _ x).tokens ≤ s.max
    rw [tokens_upd (by exact hgt)]; exact i.bound x hx

theorem tok_reprocess {s : State} (i : TokInv s) : TokInv (reprocess s) := by
  unfold reprocess
  split
  · exact i
  split
  · exact tok_same i _ (fun _ => rfl) rfl rfl rfl (fun _ => rfl)
  split <;> exact tok_same i _ (fun _ => rfl) rfl rfl rfl (fun _ => rfl)

theorem tok_timer {s : State} (i : TokInv s) (r : Nat) : TokInv (timer s r) := by
  unfold timer
  simp only
  split
  · exact tok_same i _ (fun _ => rfl) rfl rfl rfl (fun _ => rfl)
  split
  · exact tok_same i _ (fun _ => rfl) rfl rfl rfl (fun _ => rfl)
  · exact tok_one i r _ _ rfl rfl rfl rfl rfl (taken_phase rfl)

theorem tok_wait {s : State} (i : TokInv s) (r t) : TokInv (wait s r t) := by
  unfold wait
  split
  · simp only
    cases t <;> simp only [Bool.false_eq_true, if_false, if_true]
    all_goals
      split
      · exact tok_same i _ (fun _ => rfl) rfl rfl rfl (fun _ => rfl)
      split
      · exact tok_same i _ (fun _ => rfl) rfl rfl rfl (fun _ => rfl)
      · exact tok_one i r _ _ rfl rfl rfl rfl rfl (taken_phase rfl)
  · exact i

theorem tok_return {s : State} (v : Inv s) (i : TokInv s) (r : Nat) (hph : (s.req r).phase = .fin) : TokInv (giveBack s r) := by
  have hr : r < s.next := v.lt_of (by intro e; rw [e] at hph; simp at hph)
  have hb := i.bound r hr
  have hle := i.le
  constructor
  · show s.used - (s.req r).tokens = total (fun x => cost (upd s.req r _ x)) s.next
    rw [total_change (f := fun r => cost (s.req r)) (r := r) hr]
    · rw [← i.used]; simp only [upd_same]
      have h1 : cost (s.req r) = (s.req r).tokens := by simp [cost, taken, hph]
      rw [h1]; simp [cost, taken]
    · intro x hx; simp only [upd_ne _ _ hx]
  · show s.used - _ ≤ s.max
    omega
  · intro x hx
    show 0 ≤ (upd s.req r _ x).tokens ∧ (upd s.req r _ x).tokens ≤ s.max
    rw [tokens_upd (f := s.req) (r := r) (q := { s.req r with phase := .returned }) rfl x]; exact i.bound x hx

theorem step_tok {s s' : State} {l : Label} (v : Inv s) (i : TokInv s) (hl : Tame l) (h : step s l = some s') : TokInv s' := by
  cases l with
  | request n => simp only [step] at h; split at h <;> simp at h; subst h; exact tok_request i n hl
  | wait r t => simp only [step] at h; split at h <;> simp at h; subst h; exact tok_wait i r t
  | timer r => simp only [step] at h; split at h <;> simp at h; subst h; exact tok_timer i r
  | waitTrue r => simp only [step] at h; split at h <;> simp at h; subst h; exact tok_one i r _ _ rfl rfl rfl rfl rfl (taken_phase rfl)
  | waitFalse r => simp only [step] at h; split at h <;> simp at h; subst h; exact tok_one i r _ _ rfl rfl rfl rfl rfl (taken_phase rfl)
  | touch r =>
    simp only [step] at h; split at h <;> simp at h; subst h
    split
    · exact tok_one i r _ _ rfl rfl rfl rfl (touch_tokens _) (taken_phase (touch_phase _))
    · exact i
  | release r =>
    simp only [step] at h; split at h <;> simp at h; subst h
    split
    · exact tok_one i r _ _ rfl rfl rfl rfl (release_tokens _) (taken_phase (release_phase _))
    · exact i
  | shutdown => exact absurd hl (by simp [Tame])
  | process a =>
    simp only [step] at h; split at h <;> simp at h; subst h
    exact tok_process (inv_same v { s with procs := s.procs - 1 } rfl rfl rfl (fun _ h => h) (Nat.le_refl _) rfl rfl).1 (tok_same i { s with procs := s.procs - 1 } (fun _ => rfl) rfl rfl rfl (fun _ => rfl)) a
  | reprocess =>
    simp only [step] at h; split at h <;> simp at h; subst h
    exact tok_reprocess (tok_same i { s with repros := s.repros - 1 } (fun _ => rfl) rfl rfl rfl (fun _ => rfl))
  | awake =>
    simp only [step] at h; split at h
    · split at h <;> simp at h; subst h; exact tok_same i _ (fun _ => rfl) rfl rfl rfl (fun _ => rfl)
    · simp at h
  | goLimit r =>
    simp only [step] at h; split at h
    · rename_i hph; split at h <;> simp at h; subst h; exact tok_one i r _ _ rfl rfl rfl rfl rfl (by simp [taken, hph])
    · simp at h
  | goFinish r =>
    simp only [step] at h; split at h <;> simp at h; subst h
    rename_i hph; simp at hph; exact tok_one i r _ _ rfl rfl rfl rfl rfl (by simp [taken, hph])
  | goRelease r =>
    simp only [step] at h; split at h
    · rename_i hph; split at h <;> simp at h; subst h; exact tok_one i r _ _ rfl rfl rfl rfl rfl (by simp [taken, hph])
    · simp at h
  | goTouch r =>
    simp only [step] at h; split at h
    · rename_i hph; split at h <;> simp at h; subst h; exact tok_one i r _ _ rfl rfl rfl rfl rfl (by simp [taken, hph])
    · simp at h
  | goReturn r =>
    simp only [step] at h; split at h <;> simp at h; subst h
    rename_i hph; simp at hph; exact tok_return v i r hph.2
  | tick d => simp only [step] at h; simp at h; subst h; exact tok_same i _ (fun _ => rfl) rfl rfl rfl (fun _ => rfl)

theorem run_tok {s s' : State} {ls} (v : Inv s) (ht : TimersOk s) (i : TokInv s) (hl : ∀ l ∈ ls, Tame l) (h : run s ls = some s') : TokInv s' := by
  induction ls generalizing s with
  | nil => simp [run] at h; subst h; exact i
  | cons l ls ih =>
    simp only [run] at h
    obtain ⟨s1, h1, h2⟩ := Option.bind_eq_some_iff.1 h
    exact ih (step_inv v ht h1).1 (step_timers v ht h1) (step_tok v i (hl l (by simp)) h1) (fun l hl' => hl l (by simp [hl'])) h2

theorem tok_new {m d t} (hm : 0 ≤ m) : TokInv (new m d t) := by
  constructor
  · rfl
  · exact hm
  · intro r hr; simp [new] at hr

/-! ### A waiting request is never forgotten -/

/-- Something will look at the pending requests again: a goroutine that will run `process`, or taken tokens that will be
returned. -/
def Alert (s : State) : Prop := s.pending ≠ [] → 0 < s.procs ∨ 0 < s.repros ∨ s.wake.isSome = true ∨ ∃ r < s.next, taken (s.req r) = true

theorem alert_of {s s' : State} (i : Alert s) (hp : s'.pending ≠ [] → s.pending ≠ []) (h1 : s.procs ≤ s'.procs) (h2 : s.repros ≤ s'.repros)
    (h3 : s.wake.isSome = true → s'.wake.isSome = true) (h4 : s.next ≤ s'.next) (h5 : ∀ r < s.next, taken (s.req r) = true → taken (s'.req r) = true) :
    Alert s' := by
  intro hne
  rcases i (hp hne) with h | h | h | ⟨r, hr, h⟩
  · exact Or.inl (by omega)
  · exact Or.inr (Or.inl (by omega))
  · exact Or.inr (Or.inr (Or.inl (h3 h)))
  · exact Or.inr (Or.inr (Or.inr ⟨r, by omega, h5 r hr h⟩))

theorem taken_of_used {s : State} (i : TokInv s) (h : 0 < s.used) : ∃ r < s.next, taken (s.req r) = true := by
  rw [i.used] at h
  obtain ⟨r, hr, h⟩ := total_pos h
  refine ⟨r, hr, ?_⟩
  unfold cost at h
  split at h
  · assumption
  · omega

theorem alert_process {s : State} (v : Inv s) (i : TokInv s) (hm : 0 < s.max) (a) : Alert (process s a) := by
  unfold process
  split
  · rename_i h; intro h'; exact absurd h h'
  rename_i r rest hp
  have hr : r ∈ s.pending := by rw [hp]; simp
  have hrl := v.lt r hr
  split
  · rename_i he; intro _; exact Or.inr (Or.inr (Or.inr (taken_of_used i (by omega))))
  simp only
  split
  · intro _; exact Or.inr (Or.inl (by simp))
  split
  · rename_i hf
    intro _
    have := (i.bound r hrl).2
    exact Or.inr (Or.inr (Or.inr (taken_of_used i (by omega))))
  · intro _
    refine Or.inr (Or.inr (Or.inr ⟨r, hrl, ?_⟩))
    simp [upd_same, taken]

theorem step_alert {s s' : State} {l : Label} (v : Inv s) (i : TokInv s) (hm : 0 < s.max) (al : Alert s) (hl : Tame l) (h : step s l = some s') : Alert s' := by
  have one : ∀ (r : Nat) (q : Req) (s2 : State), s2.req = upd s.req r q → s2.pending = s.pending → s2.procs = s.procs → s2.repros = s.repros →
      s2.wake = s.wake → s2.next = s.next → taken q = taken (s.req r) → Alert s2 := by
    intro r q s2 e1 e2 e3 e4 e5 e6 e7
    refine alert_of al (by rw [e2]; exact id) (by omega) (by omega) (by rw [e5]; exact id) (by omega) ?_
    intro x hx h; rw [e1]
    by_cases e : x = r
    · subst e; rw [upd_same, e7]; exact h
    · rw [upd_ne _ _ e]; exact h
  cases l with
  | request n =>
    simp only [step, request] at h; split at h <;> simp at h; subst h
    split
    · exact al
    split
    · exact al
    split
    · intro _; exact Or.inl (by simp)
    · intro _; exact Or.inr (Or.inl (by simp))
  | wait r t =>
    simp only [step, wait] at h; split at h <;> simp at h; subst h
    split
    · cases t <;> simp only [Bool.false_eq_true, if_false, if_true]
      all_goals
        split
        · exact al
        split
        · exact al
        · exact one r _ _ rfl rfl rfl rfl rfl rfl (taken_phase rfl)
    · exact al
  | timer r =>
    simp only [step, timer] at h; split at h <;> simp at h; subst h
    have hne : s.pending.erase r ≠ [] → s.pending ≠ [] := by intro h h'; rw [h'] at h; simp at h
    split
    · exact al
    split
    · exact alert_of al hne (Nat.le_refl _) (Nat.le_refl _) id (Nat.le_refl _) (fun _ _ h => h)
    · refine alert_of al hne (Nat.le_refl _) (Nat.le_refl _) id (Nat.le_refl _) ?_
      intro x _ h
      by_cases e : x = r
      · subst e; simp only [upd_same]; exact h
      · simp only [upd_ne _ _ e]; exact h
  | waitTrue r => simp only [step] at h; split at h <;> simp at h; subst h; exact one r _ _ rfl rfl rfl rfl rfl rfl (taken_phase rfl)
  | waitFalse r => simp only [step] at h; split at h <;> simp at h; subst h; exact one r _ _ rfl rfl rfl rfl rfl rfl (taken_phase rfl)
  | touch r =>
    simp only [step] at h; split at h <;> simp at h; subst h
    split
    · exact one r _ _ rfl rfl rfl rfl rfl rfl (taken_phase (touch_phase _))
    · exact al
  | release r =>
    simp only [step] at h; split at h <;> simp at h; subst h
    split
    · exact one r _ _ rfl rfl rfl rfl rfl rfl (taken_phase (release_phase _))
    · exact al
  | shutdown => exact absurd hl (by simp [Tame])
  | process a =>
    simp only [step] at h; split at h <;> simp at h; subst h
    exact alert_process (inv_same v { s with procs := s.procs - 1 } rfl rfl rfl (fun _ h => h) (Nat.le_refl _) rfl rfl).1 (tok_same i { s with procs := s.procs - 1 } (fun _ => rfl) rfl rfl rfl (fun _ => rfl)) hm a
  | reprocess =>
    simp only [step, reprocess] at h; split at h <;> simp at h; subst h
    split
    · rename_i hw; intro _; exact Or.inr (Or.inr (Or.inl (by simp [hw])))
    split
    · intro _; exact Or.inr (Or.inr (Or.inl (by simp)))
    split
    · intro _; exact Or.inr (Or.inr (Or.inl (by simp)))
    · intro _; exact Or.inl (by simp)
  | awake =>
    simp only [step] at h; split at h
    · split at h <;> simp at h; subst h; intro _; exact Or.inl (by simp)
    · simp at h
  | goLimit r =>
    simp only [step] at h; split at h
    · rename_i hph; split at h <;> simp at h; subst h; exact one r _ _ rfl rfl rfl rfl rfl rfl (by simp [taken, hph])
    · simp at h
  | goFinish r =>
    simp only [step] at h; split at h <;> simp at h; subst h
    rename_i hph; simp at hph; exact one r _ _ rfl rfl rfl rfl rfl rfl (by simp [taken, hph])
  | goRelease r =>
    simp only [step] at h; split at h
    · rename_i hph; split at h <;> simp at h; subst h; exact one r _ _ rfl rfl rfl rfl rfl rfl (by simp [taken, hph])
    · simp at h
  | goTouch r =>
    simp only [step] at h; split at h
    · rename_i hph; split at h <;> simp at h; subst h; exact one r _ _ rfl rfl rfl rfl rfl rfl (by simp [taken, hph])
    · simp at h
  | goReturn r =>
    simp only [step] at h; split at h <;> simp at h; subst h
    intro hne
    have hne : s.pending ≠ [] := hne
    refine Or.inr (Or.inl ?_)
    simp [giveBack, hne]
  | tick d => simp only [step] at h; simp at h; subst h; exact al

theorem run_alert {s s' : State} {ls} (v : Inv s) (ht : TimersOk s) (i : TokInv s) (hm : 0 < s.max) (al : Alert s) (hl : ∀ l ∈ ls, Tame l)
    (h : run s ls = some s') : Alert s' := by
  induction ls generalizing s with
  | nil => simp [run] at h; subst h; exact al
  | cons l ls ih =>
    simp only [run] at h
    obtain ⟨s1, h1, h2⟩ := Option.bind_eq_some_iff.1 h
    have := step_inv v ht h1
    exact ih this.1 (step_timers v ht h1) (step_tok v i (hl l (by simp)) h1) (by rw [this.2.max]; exact hm)
      (step_alert v i hm al (hl l (by simp)) h1) (fun l hl' => hl l (by simp [hl'])) h2

end Verif.Rp
