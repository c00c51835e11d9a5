import Verif.Rp.Tokens
/-!
# Properties of the resource protector: C19, C20, C21, C56, C57, C58

Vocabulary, readable without the proofs: a *history* is a list of labels `ls` with `run (new max delay timeout) ls = some s`.
-/
namespace Verif.Rp

/-- The user may use the tokens of receipt `r`: they were granted, and since then neither released nor timed out. -/
def holds (s : State) (r : Nat) : Bool := (s.req r).active && !(s.req r).done

/-- The tokens in use. -/
def inUse (s : State) : Int := total (fun r => if holds s r then (s.req r).tokens else 0) s.next

/-! ## C19 -/

/-- C19, without Shutdown and without requests for a negative number of tokens (both make it false: see below). -/
theorem C19_partial (max : Int) (delay timeout : Nat) (hm : 0 ≤ max) (ls : List Label) (s : State)
    (tame : ∀ l ∈ ls, Tame l) (h : run (new max delay timeout) ls = some s) : inUse s ≤ max := by
  have v := run_inv (inv_new max delay timeout) (by intro r hr; simp [new] at hr) h
  have i := run_tok (inv_new max delay timeout) (by intro r hr; simp [new] at hr) (tok_new hm) tame h
  have e : s.max = max := v.2.2.max
  rw [← e]
  refine Int.le_trans ?_ i.le
  rw [i.used]
  apply total_le
  intro r hr
  have hb := i.bound r hr
  unfold cost
  by_cases ht : taken (s.req r) = true
  · rw [if_pos ht]; split <;> omega
  · rw [if_neg ht]
    have : holds s r = false := by
      unfold holds
      cases ha : (s.req r).active with
      | false => rfl
      | true =>
        have hne : (s.req r).phase ≠ .idle := by
          intro h'; have := (v.1.idle r).2 h'; rw [ha] at this; simp at this
        have hret : (s.req r).phase = .returned := by
          simp [taken, hne] at ht; exact ht
        rw [v.1.fin r (Or.inr (Or.inl hret))]; rfl
    rw [this]; simp

/-- A history in which tokens are granted, waited for, touched, released and granted to the next. -/
def demo : List Label :=
  [.request 2, .request 1, .process none, .wait 1 true, .touch 0, .goTouch 0, .reprocess, .tick 5, .awake, .process none,
   .request 2, .reprocess, .release 0, .goRelease 0, .goReturn 0, .tick 5, .awake, .process none, .waitTrue 1]
instance : DecidablePred Tame := fun l => by cases l <;> unfold Tame <;> infer_instance
example : ∀ l ∈ demo, Tame l := by decide +kernel
example : ((run (new 3 5 10) demo).map fun s => (inUse s, s.used, s.pending.length)) = some (3, 3, 0) := by decide +kernel

/-- C19 is false with Shutdown: requests that are waiting when it is called are granted afterwards, and `usedTokens`, which
it resets to 0, goes negative when the released tokens are returned, so more than the maximum is handed out. -/
theorem C19_violated_shutdown : ∃ ls s, run (new 2 0 10) ls = some s ∧ inUse s = 4 := by
  have h : ((run (new 2 0 10) [.request 2, .process none, .request 2, .wait 1 false, .request 2, .wait 2 false, .shutdown,
      .goRelease 0, .goReturn 0, .reprocess, .process none, .waitTrue 1, .reprocess, .process none, .waitTrue 2]).map inUse) = some 4 := by
    decide +kernel
  obtain ⟨s, h1, h2⟩ := Option.map_eq_some_iff.1 h
  exact ⟨_, s, h1, h2⟩

/-- C19 is false with negative requests, which are accepted. -/
theorem C19_violated_negative : ∃ ls s, run (new 1 0 10) ls = some s ∧ inUse s = 2 := by
  have h : ((run (new 1 0 10) [.request (-1), .process none, .request 1, .reprocess, .process none, .request 1, .reprocess, .process none,
      .release 0]).map inUse) = some 2 := by
    decide +kernel
  obtain ⟨s, h1, h2⟩ := Option.map_eq_some_iff.1 h
  exact ⟨_, s, h1, h2⟩

/-! ## C20 -/

/-- The receipts that a step grants, with the time. -/
def newGrants (s s' : State) : List (Nat × Nat) :=
  ((List.range s'.next).filter fun r => (s'.req r).active && !(s.req r).active).map fun r => (r, s.now)

/-- The grants of a history: receipt and time, in the order they happen. -/
def grants (s : State) : List Label → List (Nat × Nat)
  | [] => []
  | l :: ls =>
    match step s l with
    | some s' => newGrants s s' ++ grants s' ls
    | none => []

theorem filter_range_one {n r : Nat} (hr : r < n) : (List.range n).filter (fun x => decide (x = r)) = [r] := by
  induction n with
  | zero => omega
  | succ n ih =>
    rw [List.range_succ, List.filter_append]
    by_cases e : r = n
    · subst e
      have : (List.range r).filter (fun x => decide (x = r)) = [] := by
        rw [List.filter_eq_nil_iff]; intro a ha; simp at ha ⊢; omega
      rw [this]; simp
    · rw [ih (by omega)]
      simp; omega

theorem newGrants_nil {s s' : State} (h : ∀ r, (s'.req r).active = (s.req r).active) : newGrants s s' = [] := by
  unfold newGrants
  rw [List.filter_eq_nil_iff.2 (by intro r _; rw [h]; simp)]; rfl

theorem active_upd {f : Nat → Req} {r : Nat} {q : Req} (h : q.active = (f r).active) (x) : (upd f r q x).active = (f x).active := by
  by_cases e : x = r
  · subst e; rw [upd_same, h]
  · rw [upd_ne _ _ e]

/-- Only `process` grants. -/
theorem grants_process {s s' : State} {l : Label} (v : Inv s) (h : step s l = some s') (hl : ∀ a, l ≠ .process a) : newGrants s s' = [] := by
  apply newGrants_nil
  intro x
  cases l with
  | process a => exact absurd rfl (hl a)
  | request n =>
    have hf := v.fresh s.next (Nat.le_refl _)
    simp only [step, request] at h; split at h <;> simp at h; subst h
    split
    · rfl
    split
    · rfl
    split <;> exact active_upd (by rw [hf.1]) x
  | wait r t =>
    simp only [step, wait] at h; split at h <;> simp at h; subst h
    split
    · cases t <;> simp only [Bool.false_eq_true, if_false, if_true]
      all_goals
        split
        · rfl
        split
        · rfl
        · exact active_upd (f := s.req) (r := r) (q := { s.req r with waiting := true, waiter := true }) rfl x
    · rfl
  | timer r =>
    simp only [step, timer] at h; split at h <;> simp at h; subst h
    split
    · rfl
    split
    · rfl
    · exact active_upd (f := s.req) (r := r) (q := { s.req r with cancelCh := true }) rfl x
  | waitTrue r =>
    simp only [step] at h; split at h <;> simp at h; subst h
    exact active_upd (f := s.req) (r := r) (q := { s.req r with grantedCh := false, waiter := false }) rfl x
  | waitFalse r =>
    simp only [step] at h; split at h <;> simp at h; subst h
    exact active_upd (f := s.req) (r := r) (q := { s.req r with cancelCh := false, done := true, waiting := false, waiter := false }) rfl x
  | touch r =>
    simp only [step] at h; split at h <;> simp at h; subst h
    split
    · exact active_upd (touch_active _) x
    · rfl
  | release r =>
    simp only [step] at h; split at h <;> simp at h; subst h
    split
    · exact active_upd (release_active _) x
    · rfl
  | shutdown =>
    simp only [step] at h; split at h <;> simp at h; subst h
    simp only [shutdown]; split
    · exact release_active _
    · rfl
  | reprocess =>
    simp only [step, reprocess] at h; split at h <;> simp at h; subst h
    split
    · rfl
    split
    · rfl
    split <;> rfl
  | awake =>
    simp only [step] at h; split at h
    · split at h <;> simp at h; subst h; rfl
    · simp at h
  | goLimit r =>
    simp only [step] at h; split at h
    · split at h <;> simp at h; subst h
      exact active_upd (f := s.req) (r := r) (q := { s.req r with phase := .limit }) rfl x
    · simp at h
  | goFinish r =>
    simp only [step] at h; split at h <;> simp at h; subst h
    exact active_upd (f := s.req) (r := r) (q := { s.req r with phase := .fin, done := true }) rfl x
  | goRelease r =>
    simp only [step] at h; split at h
    · split at h <;> simp at h; subst h
      exact active_upd (f := s.req) (r := r) (q := { s.req r with phase := .fin, releaseCh := false }) rfl x
    · simp at h
  | goTouch r =>
    simp only [step] at h; split at h
    · split at h <;> simp at h; subst h
      exact active_upd (f := s.req) (r := r) (q := { s.req r with phase := .select s.now, touchCh := (s.req r).touchBlocked, touchBlocked := false }) rfl x
    · simp at h
  | goReturn r =>
    simp only [step] at h; split at h <;> simp at h; subst h
    exact active_upd (f := s.req) (r := r) (q := { s.req r with phase := .returned }) rfl x
  | tick d => simp only [step] at h; simp at h; subst h; rfl

theorem grant_active (q : Req) : (grant q).active = true := by unfold grant; split <;> rfl

/-- What `process` does: it grants the head of the pending list and nothing else, or nothing. -/
theorem process_cases (s : State) (a) (v : Inv s) :
    (newGrants s (process s a) = [] ∧ (process s a).pending = s.pending ∧ ((process s a).last = s.last ∨ (process s a).last = some s.now)) ∨
    ∃ r rest, s.pending = r :: rest ∧ newGrants s (process s a) = [(r, s.now)] ∧ (process s a).pending = rest ∧ (process s a).last = some s.now := by
  unfold process
  split
  · exact Or.inl ⟨newGrants_nil (fun _ => rfl), rfl, Or.inl rfl⟩
  rename_i r rest hp
  split
  · exact Or.inl ⟨newGrants_nil (fun _ => rfl), rfl, Or.inl rfl⟩
  simp only
  split
  · exact Or.inl ⟨newGrants_nil (fun _ => rfl), rfl, Or.inr rfl⟩
  split
  · exact Or.inl ⟨newGrants_nil (fun _ => rfl), rfl, Or.inl rfl⟩
  · refine Or.inr ⟨r, rest, hp, ?_, rfl, rfl⟩
    have hr : r ∈ s.pending := by rw [hp]; simp
    have hna := v.pend r hr
    unfold newGrants
    simp only
    rw [List.filter_congr (q := fun x => decide (x = r))]
    · rw [filter_range_one (v.lt r hr)]; rfl
    · intro x _
      by_cases e : x = r
      · subst e; simp [upd_same, grant_active, hna]
      · simp [upd_ne _ _ e, e]

theorem grants_sorted {s : State} {ls : List Label} (v : Inv s) (ht : TimersOk s) :
    ((grants s ls).map (·.1)).Pairwise (· < ·) ∧ ∀ g ∈ grants s ls, (s.req g.1).active = false := by
  induction ls generalizing s with
  | nil => simp [grants]
  | cons l ls ih =>
    unfold grants
    cases hs : step s l with
    | none => simp
    | some s' =>
      simp only
      have vs := step_inv v ht hs
      have ts := step_timers v ht hs
      obtain ⟨p1, p2⟩ := ih vs.1 ts
      -- what is granted later was not active before
      have back : ∀ g ∈ grants s' ls, (s.req g.1).active = false := by
        intro g hg
        cases h : (s.req g.1).active with
        | false => rfl
        | true =>
          have hl : g.1 < s.next := v.lt_of (by intro e; rw [e] at h; simp at h)
          have := vs.2.active g.1 hl h
          rw [p2 g hg] at this; simp at this
      by_cases hl : ∃ a, l = .process a
      · obtain ⟨a, rfl⟩ := hl
        simp only [step] at hs; split at hs <;> simp at hs
        have v1 := (inv_same v { s with procs := s.procs - 1 } rfl rfl rfl (fun _ h => h) (Nat.le_refl _) rfl rfl).1
        rcases process_cases { s with procs := s.procs - 1 } a v1 with h | ⟨r, rest, h1, h2, h3, _⟩
        · rw [hs] at h
          have h1 : newGrants s s' = [] := h.1
          rw [h1]; exact ⟨p1, back⟩
        · rw [hs] at h2 h3
          have h2 : newGrants s s' = [(r, s.now)] := h2
          have h1 : s.pending = r :: rest := h1
          rw [h2]
          have hact : (s'.req r).active = true := by
            have : (r, s.now) ∈ newGrants s s' := by rw [h2]; simp
            unfold newGrants at this
            simp at this; exact this.2.1
          constructor
          · simp only [List.singleton_append, List.map_cons, List.pairwise_cons]
            refine ⟨?_, p1⟩
            intro x hx
            obtain ⟨g, hg, rfl⟩ := List.mem_map.1 hx
            -- later grants: pending now, or requested later
            by_cases hlt : g.1 < s'.next
            · have hp : g.1 ∈ s'.pending := by
                apply Classical.byContradiction; intro hnp
                -- it would stay ungranted
                have : ∀ {s' : State}, Inv s' → TimersOk s' → g.1 < s'.next → (s'.req g.1).active = false → g.1 ∉ s'.pending → ∀ ls, g ∉ grants s' ls := by
                  intro s' v' ht' hlt' ha' hnp' ls
                  induction ls generalizing s' with
                  | nil => simp [grants]
                  | cons l ls ih2 =>
                    unfold grants
                    cases hs2 : step s' l with
                    | none => simp
                    | some s2 =>
                      have vs2 := step_inv v' ht' hs2
                      have gone := vs2.2.gone g.1 hlt' ha' hnp'
                      simp only [List.mem_append, not_or]
                      refine ⟨?_, ih2 vs2.1 (step_timers v' ht' hs2) (Nat.lt_of_lt_of_le hlt' vs2.2.next) gone.1 gone.2⟩
                      intro hg; unfold newGrants at hg
                      obtain ⟨y, hy, e⟩ := List.mem_map.1 hg
                      rw [List.mem_filter] at hy
                      have e' : y = g.1 := by rw [← e]
                      subst e'
                      rw [gone.1] at hy; simp at hy
                exact this vs.1 ts hlt (p2 g hg) hnp ls hg
              exact vs.1.order r hact g.1 hp
            · have : r < s'.next := vs.1.lt_of (by intro e; rw [e] at hact; simp at hact)
              omega
          · intro g hg
            simp only [List.singleton_append, List.mem_cons] at hg
            rcases hg with rfl | hg
            · exact v.pend r (by rw [h1]; simp)
            · exact back g hg
      · have : newGrants s s' = [] := grants_process v hs (fun a e => hl ⟨a, e⟩)
        rw [this]; exact ⟨p1, back⟩

/-- C20: the granted receipts, in the order of granting, are strictly increasing in the order of their requests: so requests
are granted in the order made, and none twice. -/
theorem C20_order (max : Int) (delay timeout : Nat) (ls : List Label) :
    ((grants (new max delay timeout) ls).map (·.1)).Pairwise (· < ·) :=
  (grants_sorted (inv_new max delay timeout) (by intro r hr; simp [new] at hr)).1

example : grants (new 3 5 10) demo = [(0, 0), (1, 5), (2, 10)] := by decide +kernel

/-- C20: a receipt handed out in a history that was granted and then released (by Release or the release timeout), or that
was not granted when its `WaitUntilGranted` timed out, is in no later state reported as granted by `Granted`. -/
theorem C20_final (max : Int) (delay timeout : Nat) (ls ls' : List Label) (s s1 s2 : State) (l : Label) (r : Nat)
    (h : run (new max delay timeout) ls = some s) (h1 : step s l = some s1) (h2 : run s1 ls' = some s2)
    (hl : (l = .release r ∧ (granted s r).1 = true) ∨ l = .goFinish r ∨ (l = .timer r ∧ (granted s r).1 = false)) :
    (granted s2 r).1 = false := by
  obtain ⟨v, ht, _⟩ := run_inv (inv_new max delay timeout) (by intro r hr; simp [new] at hr) h
  have vs := step_inv v ht h1
  have t1 := step_timers v ht h1
  obtain ⟨v2, _, le⟩ := run_inv vs.1 t1 h2
  -- in s1: done, or never to be granted
  have key : r < s1.next ∧ ((s1.req r).done = true ∨ ((s1.req r).active = false ∧ r ∉ s1.pending) ∨ s1.inMap r = false) := by
    rcases hl with ⟨rfl, hg⟩ | rfl | ⟨rfl, hg⟩
    · have hm : s.inMap r = true := by
        cases hm : s.inMap r with
        | true => rfl
        | false => simp [granted, hm] at hg
      have hr := v.lt_map hm
      refine ⟨Nat.lt_of_lt_of_le hr vs.2.next, Or.inl ?_⟩
      simp only [step] at h1; split at h1 <;> simp at h1; subst h1
      simp only [upd_same]
      unfold release; split
      · rename_i hc
        cases ha : (s.req r).active <;> cases hd : (s.req r).done <;> simp [granted, hm, ha, hd] at hg hc ⊢
      · rfl
    · simp only [step] at h1; split at h1 <;> simp at h1
      rename_i hc; simp at hc
      have hr : r < s.next := v.lt_of (by intro e; rw [e] at hc; simp at hc)
      subst h1
      exact ⟨hr, Or.inl (by simp [upd_same])⟩
    · simp only [step] at h1; split at h1 <;> simp at h1
      rename_i hc; simp at hc
      have hr : r < s.next := ht r hc.1.2
      refine ⟨Nat.lt_of_lt_of_le hr vs.2.next, ?_⟩
      subst h1
      by_cases ha : (s.req r).active = true
      · by_cases hd : (s.req r).done = true
        · exact Or.inl (vs.2.done r hr hd)
        · -- granted but not in the map: impossible to be reported
          have hd : (s.req r).done = false := by simpa using hd
          right; right
          have hm : s.inMap r = false := by
            cases hm : s.inMap r with
            | false => rfl
            | true => simp [granted, ha, hd, hm] at hg
          simp [timer, ha, hd, hm]
      · refine Or.inr (Or.inl ?_)
        have ha : (s.req r).active = false := by simpa using ha
        have hnd : s.pending.Nodup := v.sorted.imp (fun h => by omega)
        unfold timer
        simp only [ha, Bool.false_and, Bool.false_eq_true, if_false]
        split
        · exact ⟨ha, fun h => by simp [hnd.mem_erase_iff] at h⟩
        · exact ⟨by simp [upd_same], fun h => by simp [hnd.mem_erase_iff] at h⟩
  obtain ⟨hr, hk⟩ := key
  unfold granted
  by_cases hm2 : s2.inMap r = true
  · rw [if_pos hm2]
    rcases hk with hd | ⟨ha, hp⟩ | hm
    · rw [le.done r hr hd]; simp
    · rw [(le.gone r hr ha hp).1]; simp
    · exfalso
      -- the map never regains a receipt
      have mono : ∀ {s s' : State} {l : Label}, Inv s → step s l = some s' → r < s.next → s.inMap r = false → s'.inMap r = false := by
        intro s s' l v h hr hm
        cases l with
        | request n =>
          simp only [step, request] at h; split at h <;> simp at h; subst h
          split
          · exact hm
          split
          · exact hm
          split <;> simp [upd_ne _ _ (show r ≠ s.next by omega), hm]
        | wait x t =>
          simp only [step, wait] at h; split at h <;> simp at h; subst h
          split
          · cases t <;> simp only [Bool.false_eq_true, if_false, if_true]
            all_goals
              split
              · exact hm
              split <;> exact hm
          · exact hm
        | timer x =>
          simp only [step, timer] at h; split at h <;> simp at h; subst h
          split
          · exact hm
          split <;> (simp only; unfold upd; split <;> simp [hm])
        | process a =>
          simp only [step, process] at h; split at h <;> simp at h; subst h
          split
          · exact hm
          split
          · exact hm
          split
          · exact hm
          split <;> exact hm
        | reprocess =>
          simp only [step, reprocess] at h; split at h <;> simp at h; subst h
          split
          · exact hm
          split
          · exact hm
          split <;> exact hm
        | awake =>
          simp only [step] at h; split at h
          · split at h <;> simp at h; subst h; exact hm
          · simp at h
        | touch x => simp only [step] at h; split at h <;> simp at h; subst h; split <;> exact hm
        | release x => simp only [step] at h; split at h <;> simp at h; subst h; split <;> exact hm
        | shutdown => simp only [step] at h; split at h <;> simp at h; subst h; rfl
        | waitTrue x => simp only [step] at h; split at h <;> simp at h; subst h; exact hm
        | waitFalse x => simp only [step] at h; split at h <;> simp at h; subst h; exact hm
        | goFinish x => simp only [step] at h; split at h <;> simp at h; subst h; exact hm
        | goReturn x =>
          simp only [step] at h; split at h <;> simp at h; subst h
          simp only [giveBack]; unfold upd; split <;> simp [hm]
        | goLimit x =>
          simp only [step] at h; split at h
          · split at h <;> simp at h; subst h; exact hm
          · simp at h
        | goRelease x =>
          simp only [step] at h; split at h
          · split at h <;> simp at h; subst h; exact hm
          · simp at h
        | goTouch x =>
          simp only [step] at h; split at h
          · split at h <;> simp at h; subst h; exact hm
          · simp at h
        | tick d => simp only [step] at h; simp at h; subst h; exact hm
      have : ∀ {s s' : State} {ls}, Inv s → TimersOk s → run s ls = some s' → r < s.next → s.inMap r = false → s'.inMap r = false := by
        intro s s' ls v ht h hr hm
        induction ls generalizing s with
        | nil => simp [run] at h; subst h; exact hm
        | cons l ls ih =>
          simp only [run] at h
          obtain ⟨s1, h1, h2⟩ := Option.bind_eq_some_iff.1 h
          have a := step_inv v ht h1
          exact ih a.1 (step_timers v ht h1) h2 (Nat.lt_of_lt_of_le hr a.2.next) (mono v h1 hr hm)
      rw [this vs.1 t1 h2 hr hm] at hm2; simp at hm2
  · rw [if_neg hm2]

example : ((run (new 3 5 10) [.request 2, .process none]).map fun s => (granted s 0, granted s 1)) = some ((true, false), (false, false)) := by decide +kernel

/-- C20 is false of `WaitUntilGranted`: it can return true for a receipt whose tokens have been taken back by the release
timeout (and given to somebody else), when the waiting caller is slow to run. -/
theorem C20_violated_wait : ∃ ls s s', run (new 1 0 10) ls = some s ∧ granted s 0 = (false, false) ∧ holds s 1 = true ∧ inUse s = 1 ∧
    step s (.waitTrue 0) = some s' := by
  have h : ((run (new 1 0 10) [.request 1, .wait 0 false, .process none, .request 1, .tick 10, .goLimit 0, .goFinish 0, .goReturn 0, .reprocess, .process none]).bind
      fun s => (step s (.waitTrue 0)).map fun _ => (granted s 0, holds s 1, inUse s)) = some ((false, false), true, 1) := by decide +kernel
  obtain ⟨s, h1, h2⟩ := Option.bind_eq_some_iff.1 h
  obtain ⟨s', h3, h4⟩ := Option.map_eq_some_iff.1 h2
  simp only [Prod.mk.injEq] at h4
  exact ⟨_, s, s', h1, h4.1, h4.2.1, h4.2.2, h3⟩

end Verif.Rp
