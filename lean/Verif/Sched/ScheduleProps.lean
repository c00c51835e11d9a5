import Verif.Sched.Schedule
/-!
# C42: the last count given to Schedule() wins
-/
namespace Verif.Sched

/-- specification: the count of the last call made for `cmd` in a history -/
def lastCall (cmd : String) : List (String × Ev) → Option Int
  | [] => none
  | (c, .call n) :: h => (lastCall cmd h).or (if c = cmd then some n else none)
  | _ :: h => lastCall cmd h

/-- specification: no thread works on the command any more -/
def Settled (s : Sys) (cmd : String) : Prop := (s cmd).running = [] ∧ (s cmd).recalls = []

/-- specification: during the history, no user calls `Schedule` for `cmd` while a goroutine started by an earlier call for
`cmd` has yet to take the lock. -/
def NoOverlap (cmd : String) : Sys → List (String × Ev) → Prop
  | _, [] => True
  | s, (c, e) :: h => (c = cmd → ∀ n, e = .call n → (s cmd).recalls = []) ∧ ∀ s', sysStep s c e = some s' → NoOverlap cmd s' h

/-! ### One command -/

/-- what holds in every reachable state -/
private structure Inv (c : Cmd) : Prop where
  one : c.running.length ≤ 1
  lim : c.limiter.isSome = true ↔ c.running ≠ []
  eff : ∀ n, (n, true) ∈ c.running → c.inForce = some n

private theorem set_one {α} {l : List α} (h : l.length ≤ 1) {i : Nat} {a b : α} (hi : l[i]? = some a) : i = 0 ∧ l = [a] ∧ l.set i b = [b] ∧ l.eraseIdx i = [] := by
  match l, i, h, hi with
  | [x], 0, _, hi => simp at hi; subst hi; exact ⟨rfl, rfl, rfl, rfl⟩

private theorem Inv.enter {c : Cmd} (h : Inv c) (n : Int) : Inv (enter c n) := by
  unfold Sched.enter
  split
  · rename_i x hx
    exact ⟨h.one, by have := h.lim; rw [hx] at this; simpa using this, h.eff⟩
  · rename_i hx
    have hr : c.running = [] := by
      have := h.lim; rw [hx] at this; simpa using this
    exact ⟨by simp [hr], by simp, by simp [hr]⟩

private theorem Inv.step {c c' : Cmd} {e : Ev} (h : Inv c) (hs : step c e = some c') : Inv c' := by
  cases e with
  | call n =>
    simp only [Sched.step, Option.some.injEq] at hs; subst hs
    exact ⟨(h.enter n).one, (h.enter n).lim, (h.enter n).eff⟩
  | effect i =>
    simp only [Sched.step] at hs
    split at hs
    · rename_i n hn
      injection hs with hs; subst hs
      obtain ⟨rfl, h1, h2, -⟩ := set_one (b := (n, true)) h.one hn
      refine ⟨by simp [h1], ?_, ?_⟩
      · have := h.lim; rw [h1] at this; simpa [h1] using this
      · intro m hm; simp [h1] at hm; simp [hm]
    · cases hs
  | leave i =>
    simp only [Sched.step] at hs
    split at hs
    · rename_i n hn
      obtain ⟨rfl, h1, -, h2⟩ := set_one (b := (n, true)) h.one hn
      split at hs
      · injection hs with hs; subst hs
        exact ⟨by simp [h2], by simp [h2], by simp [h2]⟩
      · rename_i hx
        have := h.lim; rw [hx, h1] at this; simp at this
    · cases hs
  | recall i =>
    simp only [Sched.step] at hs
    split at hs
    · injection hs with hs; subst hs
      exact Inv.enter (c := { c with recalls := c.recalls.eraseIdx i }) ⟨h.one, h.lim, h.eff⟩ _
    · cases hs

/-- what holds if no call overlaps a goroutine yet to start -/
private structure Good (c : Cmd) : Prop extends Inv c where
  lim' : ∀ n, c.limiter = some n → c.last = some n
  rec' : ∀ n, n ∈ c.recalls → c.last = some n
  few : c.recalls.length ≤ 1
  alone : c.recalls ≠ [] → c.running = []
  fin : c.running = [] → c.recalls = [] → c.inForce = c.last

private theorem Good.step {c c' : Cmd} {e : Ev} (h : Good c) (hs : step c e = some c') (ho : ∀ n, e = .call n → c.recalls = []) : Good c' := by
  refine ⟨h.toInv.step hs, ?_, ?_, ?_, ?_, ?_⟩ <;> cases e with
  | call n =>
    have hr := ho n rfl
    simp only [Sched.step, Option.some.injEq] at hs; subst hs
    unfold Sched.enter
    split
    · rename_i x hx
      have := h.lim.1 (by rw [hx]; rfl)
      simp [hr, this]
    · simp [hr]
  | effect i =>
    simp only [Sched.step] at hs
    split at hs
    · rename_i n hn
      injection hs with hs; subst hs
      obtain ⟨rfl, h1, h2, -⟩ := set_one (b := (n, true)) h.one hn
      have := h.lim'; have := h.rec'; have := h.few; have := h.alone
      simp_all
    · cases hs
  | leave i =>
    simp only [Sched.step] at hs
    split at hs
    · rename_i n hn
      obtain ⟨rfl, h1, -, h2⟩ := set_one (b := (n, true)) h.one hn
      have hrec : c.recalls = [] := by
        cases hc : c.recalls with
        | nil => rfl
        | cons a l => have := h.alone (by simp [hc]); rw [h1] at this; cases this
      have hin := h.eff n (by rw [h1]; simp)
      split at hs
      · rename_i new hx
        injection hs with hs; subst hs
        have hl := h.lim' new hx
        simp only [hrec, List.nil_append, h2]
        by_cases he : new = n <;> simp_all
      · rename_i hx
        have := h.lim; rw [hx, h1] at this; simp at this
    · cases hs
  | recall i =>
    simp only [Sched.step] at hs
    split at hs
    · rename_i n hn
      injection hs with hs; subst hs
      obtain ⟨rfl, h1, -, h2⟩ := set_one (b := n) h.few hn
      have hrun := h.alone (by simp [h1])
      have hlim : c.limiter = none := by
        cases hc : c.limiter with
        | none => rfl
        | some x => exact absurd hrun (h.lim.1 (by rw [hc]; rfl))
      have hlast := h.rec' n (by simp [h1])
      unfold Sched.enter
      simp [hlim, h1, hrun, hlast]
    · cases hs

/-! ### All commands -/

private theorem sysStep_eq {s s' : Sys} {c : String} {e : Ev} (h : sysStep s c e = some s') :
    step (s c) e = some (s' c) ∧ ∀ x, x ≠ c → s' x = s x := by
  unfold sysStep at h
  cases hs : step (s c) e with
  | none => rw [hs] at h; cases h
  | some c' =>
    rw [hs] at h; simp only [Option.map_some, Option.some.injEq] at h; subst h
    exact ⟨by simp, fun x hx => by simp [hx]⟩

private theorem run_inv {P : Cmd → Prop} (hP : ∀ c c' e, P c → step c e = some c' → P c') (h : List (String × Ev)) :
    ∀ {s s' : Sys}, (∀ x, P (s x)) → sysRun s h = some s' → ∀ x, P (s' x) := by
  induction h with
  | nil => intro s s' hp hr; simp [sysRun] at hr; subst hr; exact hp
  | cons a h ih =>
    obtain ⟨c, e⟩ := a
    intro s s' hp hr
    simp only [sysRun] at hr
    cases hs : sysStep s c e with
    | none => rw [hs] at hr; cases hr
    | some s1 =>
      rw [hs] at hr
      obtain ⟨h1, h2⟩ := sysStep_eq hs
      refine ih (fun x => ?_) hr
      by_cases hx : x = c
      · subst hx; exact hP _ _ _ (hp x) h1
      · rw [h2 x hx]; exact hp x

private theorem inv_init : ∀ x, Inv (sysInit x) := fun _ => ⟨by simp [sysInit], by simp [sysInit], by simp [sysInit]⟩

private def evLast : Ev → Option Int → Option Int
  | .call n, _ => some n
  | _, o => o

private theorem enter_last (c : Cmd) (n : Int) : (enter c n).last = c.last := by unfold enter; split <;> rfl

private theorem step_last {c c' : Cmd} {e : Ev} (h : step c e = some c') : c'.last = evLast e c.last := by
  cases e with
  | call n => simp only [step, Option.some.injEq] at h; subst h; rfl
  | effect i =>
    simp only [step] at h; split at h
    · injection h with h; subst h; rfl
    · cases h
  | leave i =>
    simp only [step] at h; split at h
    · split at h <;> (injection h with h; subst h; rfl)
    · cases h
  | recall i =>
    simp only [step] at h; split at h
    · injection h with h; subst h; rw [enter_last]; rfl
    · cases h

private theorem run_last (cmd : String) (h : List (String × Ev)) : ∀ {s s' : Sys}, sysRun s h = some s' →
    (s' cmd).last = (lastCall cmd h).or (s cmd).last := by
  induction h with
  | nil => intro s s' hr; simp [sysRun] at hr; subst hr; simp [lastCall]
  | cons a h ih =>
    obtain ⟨c, e⟩ := a
    intro s s' hr
    simp only [sysRun] at hr
    cases hs : sysStep s c e with
    | none => rw [hs] at hr; cases hr
    | some s1 =>
      rw [hs] at hr
      obtain ⟨h1, h2⟩ := sysStep_eq hs
      rw [ih hr]
      have hl := step_last h1
      by_cases hx : cmd = c
      · subst hx
        rw [hl]
        cases e <;> simp [lastCall, evLast]
      · rw [h2 cmd hx]
        cases e <;> simp [lastCall, Ne.symm hx]

private theorem run_good (cmd : String) (h : List (String × Ev)) : ∀ {s s' : Sys}, Good (s cmd) → NoOverlap cmd s h →
    sysRun s h = some s' → Good (s' cmd) := by
  induction h with
  | nil => intro s s' hg _ hr; simp [sysRun] at hr; subst hr; exact hg
  | cons a h ih =>
    obtain ⟨c, e⟩ := a
    intro s s' hg hn hr
    simp only [sysRun] at hr
    cases hs : sysStep s c e with
    | none => rw [hs] at hr; cases hr
    | some s1 =>
      rw [hs] at hr
      obtain ⟨h1, h2⟩ := sysStep_eq hs
      refine ih ?_ (hn.2 s1 hs) hr
      by_cases hx : cmd = c
      · subst hx; exact hg.step h1 (hn.1 rfl)
      · rw [h2 cmd hx]; exact hg

/-- C42, if no user calls `Schedule` for the command in the time between the end of an earlier call and the start of
the goroutine it leaves behind: when the calls have settled, the count in force is that of the last call made. -/
theorem C42_partial (h : List (String × Ev)) (s : Sys) (cmd : String) (hr : sysRun sysInit h = some s)
    (ho : NoOverlap cmd sysInit h) (hs : Settled s cmd) : (s cmd).inForce = lastCall cmd h := by
  have hg := run_good cmd h (s := sysInit) ⟨inv_init cmd, by simp [sysInit], by simp [sysInit], by simp [sysInit],
    by simp [sysInit], by simp [sysInit]⟩ ho hr
  rw [hg.fin hs.1 hs.2, run_last cmd h hr]
  simp [sysInit]

/-- C42 does not hold in general: five runs are asked for, then three, then seven, and when all has settled three are in
force. -/
theorem C42_violated (cmd : String) : ∃ h s, sysRun sysInit h = some s ∧ Settled s cmd ∧ lastCall cmd h = some 7 ∧
    (s cmd).inForce = some 3 := by
  refine ⟨[(cmd, .call 5), (cmd, .call 3), (cmd, .effect 0), (cmd, .leave 0), (cmd, .call 7), (cmd, .recall 0), (cmd, .effect 0),
    (cmd, .leave 0), (cmd, .recall 0), (cmd, .effect 0), (cmd, .leave 0)],
    fun x => if x = cmd then { inForce := some 3, last := some 7 } else {}, ?_, ?_⟩
  · simp [sysRun, sysStep, step, enter, sysInit]; funext x; split <;> rfl
  · simp [Settled, lastCall]

/-- In every interleaving `impl.schedule` runs at most once at a time for a command. -/
theorem C42_exclusive (h : List (String × Ev)) (s : Sys) (cmd : String) (hr : sysRun sysInit h = some s) :
    (s cmd).running.length ≤ 1 :=
  (run_inv (P := Inv) (fun _ _ _ hi hs => hi.step hs) h inv_init hr cmd).one

/-- work left for a command -/
private def work (c : Cmd) : Nat :=
  5 * c.recalls.length + (c.running.map fun p => (if p.2 then 2 else 3) + if c.limiter = some p.1 then 0 else 4).sum

private theorem work_step {c c' : Cmd} {e : Ev} (hi : Inv c) (hs : step c e = some c') (hn : ∀ n, e ≠ .call n) : work c' < work c := by
  cases e with
  | call n => exact absurd rfl (hn n)
  | effect i =>
    simp only [Sched.step] at hs
    split at hs
    · rename_i n hn
      injection hs with hs; subst hs
      obtain ⟨rfl, h1, h2, -⟩ := set_one (b := (n, true)) hi.one hn
      simp only [work, h1, List.set_cons_zero, List.map_cons, List.map_nil, List.sum_cons, List.sum_nil]
      simp only [if_true, Bool.false_eq_true, if_false]; split <;> omega
    · cases hs
  | leave i =>
    simp only [Sched.step] at hs
    split at hs
    · rename_i n hn
      obtain ⟨rfl, h1, -, h2⟩ := set_one (b := (n, true)) hi.one hn
      split at hs
      · rename_i new hx
        injection hs with hs; subst hs
        simp only [work, h1, hx, List.eraseIdx_cons_zero, List.map_cons, List.map_nil, List.sum_cons, List.sum_nil, Option.some.injEq]
        by_cases he : new = n <;> simp [he] <;> omega
      · rename_i hx
        have := hi.lim; rw [hx, h1] at this; simp at this
    · cases hs
  | recall i =>
    simp only [Sched.step] at hs
    split at hs
    · rename_i n hn
      injection hs with hs; subst hs
      have hlt : i < c.recalls.length := by
        rw [List.getElem?_eq_some_iff] at hn; exact hn.1
      have hlen : (c.recalls.eraseIdx i).length = c.recalls.length - 1 := List.length_eraseIdx_of_lt hlt
      unfold enter
      simp only
      split
      · rename_i x hx
        have h0 := hi.lim.1 (by rw [hx]; rfl)
        match hrun : c.running, hi.one, h0 with
        | [(m, b)], _, _ =>
          simp only [work, hlen, hrun, hx, List.map_cons, List.map_nil, List.sum_cons, List.sum_nil, Option.some.injEq]
          cases b <;> simp <;> split <;> split <;> omega
      · rename_i hx
        have h0 : c.running = [] := by have := hi.lim; rw [hx] at this; simpa using this
        simp [work, hlen, h0]; omega
    · cases hs

/-- the user makes no call in the history -/
def Quiet (h : List (String × Ev)) : Prop := ∀ p ∈ h, ∀ n, p.2 ≠ .call n

/-- Once no more calls are made for any command, the calls settle whatever the order of the remaining steps: there is a
bound on the number of steps left for any one command, and unless the command has settled a step is possible. -/
theorem C42_settles (h : List (String × Ev)) (s : Sys) (cmd : String) (hr : sysRun sysInit h = some s) :
    (∃ N, ∀ h' s', (∀ p ∈ h', p.1 = cmd) → Quiet h' → sysRun s h' = some s' → h'.length ≤ N) ∧
    (Settled s cmd ∨ ∃ e s', (∀ n, e ≠ .call n) ∧ sysStep s cmd e = some s') := by
  have hi := run_inv (P := Inv) (fun _ _ _ hi hs => hi.step hs) h inv_init hr
  clear hr
  constructor
  · refine ⟨work (s cmd), ?_⟩
    intro h'
    induction h' generalizing s with
    | nil => intro _ _ _ _; exact Nat.zero_le _
    | cons a h' ih =>
      obtain ⟨c, e⟩ := a
      intro s' hc hq hr
      have : c = cmd := hc (c, e) (by simp)
      subst this
      simp only [sysRun] at hr
      cases hs : sysStep s c e with
      | none => rw [hs] at hr; cases hr
      | some s1 =>
        rw [hs] at hr
        obtain ⟨h1, h2⟩ := sysStep_eq hs
        have hi1 : ∀ x, Inv (s1 x) := by
          intro x
          by_cases hx : x = c
          · subst hx; exact (hi x).step h1
          · rw [h2 x hx]; exact hi x
        have := ih s1 hi1 s' (fun p hp => hc p (List.mem_cons_of_mem _ hp)) (fun p hp => hq p (List.mem_cons_of_mem _ hp)) hr
        have := work_step (hi c) h1 (hq (c, e) (by simp))
        simp only [List.length_cons]; omega
  · have hic := hi cmd
    match hrun : (s cmd).running with
    | [] =>
      match hrec : (s cmd).recalls with
      | [] => exact Or.inl ⟨hrun, hrec⟩
      | n :: l => exact Or.inr ⟨.recall 0, _, by simp, by simp [sysStep, step, hrec]; rfl⟩
    | (n, false) :: l => exact Or.inr ⟨.effect 0, _, by simp, by simp [sysStep, step, hrun]; rfl⟩
    | (n, true) :: l =>
      match hl : (s cmd).limiter with
      | none => exact Or.inr ⟨.leave 0, _, by simp, by simp [sysStep, step, hrun, hl]; rfl⟩
      | some x => exact Or.inr ⟨.leave 0, _, by simp, by simp [sysStep, step, hrun, hl]; rfl⟩

/-- A non-trivial history that meets the hypotheses of `C42_partial`: the second call overlaps the first. -/
example : ∃ h s, sysRun sysInit h = some s ∧ NoOverlap "a" sysInit h ∧ Settled s "a" ∧ lastCall "a" h = some 3 := by
  refine ⟨[("a", .call 5), ("b", .call 1), ("a", .call 3), ("a", .effect 0), ("a", .leave 0), ("a", .recall 0), ("a", .effect 0), ("a", .leave 0)],
    fun x => if x = "a" then { inForce := some 3, last := some 3 } else if x = "b" then { limiter := some 1, running := [(1, false)], last := some 1 } else {}, ?_, ?_, ?_⟩
  · simp [sysRun, sysStep, step, enter, sysInit]; funext x; by_cases h : x = "a" <;> by_cases h' : x = "b" <;> simp [h, h']
  · simp [NoOverlap, sysStep, step, enter, sysInit]
  · simp [Settled, lastCall]

end Verif.Sched
