import Verif.Rp.Props2
/-! # C56, progress: the oldest waiting request can always be granted without anybody's help -/
namespace Verif.Rp

/-- The labels that are no calls by users: the passing of time and the protector's own goroutines. -/
def Own : Label → Prop
  | .tick _ | .process none | .reprocess | .awake | .goLimit _ | .goFinish _ | .goReturn _ => True
  | _ => False

theorem Own.tame {l : Label} (h : Own l) : Tame l := by
  cases l <;> simp_all [Own, Tame]

/-- Everything needed along the way. -/
structure Good (s : State) : Prop where
  inv : Inv s
  timers : TimersOk s
  tok : TokInv s
  alert : Alert s
  max : 0 < s.max
  free : s.stuck = false
  untouched : ∀ r, (s.req r).touchBlocked = false

theorem good_step {s s' : State} {l : Label} (g : Good s) (ho : Own l) (h : step s l = some s') (h1 : s'.stuck = s.stuck)
    (h2 : ∀ r, (s'.req r).touchBlocked = (s.req r).touchBlocked) : Good s' :=
  ⟨(step_inv g.inv g.timers h).1, step_timers g.inv g.timers h, step_tok g.inv g.tok ho.tame h, step_alert g.inv g.tok g.max g.alert ho.tame h,
    by rw [(step_inv g.inv g.timers h).2.max]; exact g.max, by rw [h1]; exact g.free, fun r => by rw [h2]; exact g.untouched r⟩

theorem run_append {s s1 s2 : State} {a b} (h1 : run s a = some s1) (h2 : run s1 b = some s2) : run s (a ++ b) = some s2 := by
  induction a generalizing s with
  | nil => simp [run] at h1; subst h1; exact h2
  | cons l a ih =>
    simp only [run] at h1
    obtain ⟨x, hx, hy⟩ := Option.bind_eq_some_iff.1 h1
    simp only [List.cons_append, run, hx, Option.bind_some]; exact ih hy

/-- `s` can get to a state like it in which the tokens of `k` are returned. -/
def CanReturn (s : State) (k : Nat) : Prop :=
  ∃ ls s', (∀ l ∈ ls, Own l) ∧ run s ls = some s' ∧ Good s' ∧ s'.pending = s.pending ∧ s'.next = s.next ∧ (∀ r, r ≠ k → s'.req r = s.req r) ∧ taken (s'.req k) = false

theorem can_cons {s s1 : State} {l : Label} {k : Nat} (ho : Own l) (h : step s l = some s1) (h1 : s1.pending = s.pending) (h2 : s1.next = s.next)
    (h3 : ∀ r, r ≠ k → s1.req r = s.req r) (c : CanReturn s1 k) : CanReturn s k := by
  obtain ⟨ls, s', a, b, c, d, e, f, g⟩ := c
  refine ⟨l :: ls, s', ?_, ?_, c, by rw [d, h1], by rw [e, h2], fun r hr => by rw [f r hr, h3 r hr], g⟩
  · intro x hx; rcases List.mem_cons.1 hx with rfl | hx
    · exact ho
    · exact a x hx
  · simp only [run, h, Option.bind_some]; exact b

theorem can_fin {s : State} {k : Nat} (g : Good s) (h : (s.req k).phase = .fin) : CanReturn s k := by
  have hs : step s (.goReturn k) = some (giveBack s k) := by simp [step, g.free, h]
  refine can_cons (show Own (.goReturn k) from trivial) hs rfl rfl (fun r hr => by simp [giveBack, upd_ne _ _ hr]) ?_
  have g' := good_step g (show Own (.goReturn k) from trivial) hs rfl (fun r => by
    by_cases e : r = k
    · subst e; simp [giveBack, upd_same]
    · simp [giveBack, upd_ne _ _ e])
  exact ⟨[], _, by simp, rfl, g', rfl, rfl, fun _ _ => rfl, by simp [giveBack, upd_same, taken]⟩

theorem can_limit {s : State} {k : Nat} (g : Good s) (h : (s.req k).phase = .limit) : CanReturn s k := by
  have hs : step s (.goFinish k) = some { s with req := upd s.req k { s.req k with phase := .fin, done := true } } := by
    simp [step, h, g.untouched k]
  have g' := good_step g (show Own (.goFinish k) from trivial) hs rfl (fun r => by
    by_cases e : r = k
    · subst e; simp [upd_same]
    · simp [upd_ne _ _ e])
  exact can_cons (show Own (.goFinish k) from trivial) hs rfl rfl (fun r hr => by simp [upd_ne _ _ hr]) (can_fin g' (by simp [upd_same]))

theorem can_select {s : State} {k since : Nat} (g : Good s) (h : (s.req k).phase = .select since) : CanReturn s k := by
  have ht : step s (.tick (since + s.timeout)) = some { s with now := s.now + (since + s.timeout) } := rfl
  have g1 := good_step g (show Own (.tick _) from trivial) ht rfl (fun _ => rfl)
  refine can_cons (show Own (.tick _) from trivial) ht rfl rfl (fun _ _ => rfl) ?_
  have hs : step { s with now := s.now + (since + s.timeout) } (.goLimit k) =
      some { s with now := s.now + (since + s.timeout), req := upd s.req k { s.req k with phase := .limit } } := by
    simp only [step, h]
    rw [if_pos (by omega)]
  have g2 := good_step g1 (show Own (.goLimit k) from trivial) hs rfl (fun r => by
    by_cases e : r = k
    · subst e; simp [upd_same]
    · simp [upd_ne _ _ e])
  exact can_cons (show Own (.goLimit k) from trivial) hs rfl rfl (fun r hr => by simp [upd_ne _ _ hr]) (can_limit g2 (by simp [upd_same]))

theorem can_any {s : State} (k : Nat) (g : Good s) : CanReturn s k := by
  cases h : (s.req k).phase with
  | idle => exact ⟨[], s, by simp, rfl, g, rfl, rfl, fun _ _ => rfl, by simp [taken, h]⟩
  | returned => exact ⟨[], s, by simp, rfl, g, rfl, rfl, fun _ _ => rfl, by simp [taken, h]⟩
  | select since => exact can_select g h
  | limit => exact can_limit g h
  | fin => exact can_fin g h

theorem can_all {s : State} (g : Good s) (k : Nat) :
    ∃ ls s', (∀ l ∈ ls, Own l) ∧ run s ls = some s' ∧ Good s' ∧ s'.pending = s.pending ∧ s'.next = s.next ∧ ∀ r < k, taken (s'.req r) = false := by
  induction k with
  | zero => exact ⟨[], s, by simp, rfl, g, rfl, rfl, by intro r hr; omega⟩
  | succ k ih =>
    obtain ⟨ls, s1, a, b, c, d, e, f⟩ := ih
    obtain ⟨ls', s2, a', b', c', d', e', f', g'⟩ := can_any k c
    refine ⟨ls ++ ls', s2, ?_, run_append b b', c', by rw [d', d], by rw [e', e], ?_⟩
    · intro l hl; rcases List.mem_append.1 hl with h | h
      · exact a l h
      · exact a' l h
    · intro r hr
      by_cases hk : r = k
      · subst hk; exact g'
      · rw [f' r hk]; exact f r (by omega)

theorem total_zero {f : Nat → Int} : ∀ {n}, (∀ i < n, f i = 0) → total f n = 0
  | 0, _ => rfl
  | n + 1, h => by simp only [total]; rw [total_zero (fun i hi => h i (by omega)), h n (by omega)]; rfl

/-- From a good state with a started `process` and no taken tokens, `process` grants the first pending request. -/
theorem can_process {s : State} (g : Good s) {r : Nat} {rest : List Nat} (hp : s.pending = r :: rest) (hu : s.used = 0) (hpr : 0 < s.procs) :
    ∃ s', step s (.process none) = some s' ∧ (s'.req r).active = true := by
  refine ⟨process { s with procs := s.procs - 1 } none, ?_, ?_⟩
  · simp only [step, g.free, Bool.false_or]; rw [if_neg (by simp; omega)]
  · have hb := g.tok.bound r (g.inv.lt r (by rw [hp]; simp))
    have hm := g.max
    unfold process
    simp only [hp, short]
    rw [if_neg (by omega)]
    simp only [Bool.false_eq_true, if_false]
    rw [if_neg (by omega)]
    simp [upd_same, grant_active]

/-- C56, progress: in every history without Shutdown, negative requests or a blocked `Touch`/timeout (C57, C58), the oldest pending
request can be granted by the passing of time and the protector's own goroutines alone. -/
theorem C56_progress_partial (max : Int) (delay timeout : Nat) (hm : 0 < max) (ls : List Label) (s : State)
    (tame : ∀ l ∈ ls, Tame l) (h : run (new max delay timeout) ls = some s) (free : s.stuck = false)
    (untouched : ∀ r, (s.req r).touchBlocked = false) (r : Nat) (rest : List Nat) (hp : s.pending = r :: rest) :
    ∃ ls' s', (∀ l ∈ ls', Own l) ∧ run s ls' = some s' ∧ (s'.req r).active = true := by
  have nt : TimersOk (new max delay timeout) := by intro r hr; simp [new] at hr
  obtain ⟨v, ht, le⟩ := run_inv (inv_new max delay timeout) nt h
  have tok := run_tok (inv_new max delay timeout) nt (tok_new (by omega)) tame h
  have al := run_alert (inv_new max delay timeout) nt (tok_new (by omega)) hm (by intro h; exact absurd rfl h) tame h
  have g : Good s := ⟨v, ht, tok, al, by rw [le.max]; exact hm, free, untouched⟩
  obtain ⟨ls1, s1, o1, r1, g1, p1, n1, t1⟩ := can_all g s.next
  have hp1 : s1.pending = r :: rest := by rw [p1, hp]
  have none : ∀ x < s1.next, taken (s1.req x) = false := by rw [n1]; exact t1
  have hu : s1.used = 0 := by
    rw [g1.tok.used]; apply total_zero
    intro x hx; unfold cost; rw [none x hx]; rfl
  have finish : ∀ (ls2 : List Label) (s2 : State), (∀ l ∈ ls2, Own l) → run s1 ls2 = some s2 → Good s2 → s2.pending = r :: rest → s2.used = 0 → 0 < s2.procs →
      ∃ ls' s', (∀ l ∈ ls', Own l) ∧ run s ls' = some s' ∧ (s'.req r).active = true := by
    intro ls2 s2 o2 r2 g2 hp2 hu2 hpr
    obtain ⟨s3, h3, ha⟩ := can_process g2 hp2 hu2 hpr
    refine ⟨ls1 ++ (ls2 ++ [.process Option.none]), s3, ?_, run_append r1 (run_append r2 (by simp [run, h3])), ha⟩
    intro l hl
    rcases List.mem_append.1 hl with h | h
    · exact o1 l h
    rcases List.mem_append.1 h with h | h
    · exact o2 l h
    · simp at h; subst h; trivial
  -- waking the sleeper
  have sleeper : ∀ (ls2 : List Label) (s2 : State) (w : Nat), (∀ l ∈ ls2, Own l) → run s1 ls2 = some s2 → Good s2 → s2.pending = r :: rest → s2.used = 0 → s2.wake = some w →
      ∃ ls' s', (∀ l ∈ ls', Own l) ∧ run s ls' = some s' ∧ (s'.req r).active = true := by
    intro ls2 s2 w o2 r2 g2 hp2 hu2 hw
    have ht : step s2 (.tick w) = some { s2 with now := s2.now + w } := rfl
    have g3 := good_step g2 (show Own (.tick _) from trivial) ht rfl (fun _ => rfl)
    have ha : step { s2 with now := s2.now + w } .awake = some { s2 with now := s2.now + w, wake := Option.none, procs := s2.procs + 1 } := by
      simp [step, hw, g2.free]
    have g4 := good_step g3 (show Own .awake from trivial) ha rfl (fun _ => rfl)
    refine finish (ls2 ++ [.tick w, .awake]) _ ?_ (run_append r2 (by simp only [run, ht, ha, Option.bind_some])) g4 hp2 hu2 (by simp)
    intro l hl
    rcases List.mem_append.1 hl with h | h
    · exact o2 l h
    · simp at h; rcases h with rfl | rfl <;> trivial
  rcases g1.alert (by rw [hp1]; simp) with h | h | h | ⟨x, hx, h⟩
  · exact finish [] s1 (by simp) rfl g1 hp1 hu h
  · cases hw : s1.wake with
    | some w => exact sleeper [] s1 w (by simp) rfl g1 hp1 hu hw
    | none =>
      have hs : step s1 .reprocess = some (reprocess { s1 with repros := s1.repros - 1 }) := by
        simp only [step, g1.free, Bool.false_or]; rw [if_neg (by simp; omega)]
      have ho : ∀ l ∈ [Label.reprocess], Own l := by intro l hl; simp at hl; subst hl; trivial
      cases hl : s1.last with
      | none =>
        have e : reprocess { s1 with repros := s1.repros - 1 } = { s1 with repros := s1.repros - 1, wake := some (s1.now + s1.delay) } := by
          simp [reprocess, hw, hl]
        rw [e] at hs
        exact sleeper [.reprocess] _ _ ho (by simp [run, hs]) (good_step g1 (show Own .reprocess from trivial) hs rfl (fun _ => rfl)) hp1 hu rfl
      | some t =>
        by_cases hd : s1.now - t < s1.delay
        · have e : reprocess { s1 with repros := s1.repros - 1 } = { s1 with repros := s1.repros - 1, wake := some (s1.now + (s1.delay - (s1.now - t))) } := by
            simp [reprocess, hw, hl, hd]
          rw [e] at hs
          exact sleeper [.reprocess] _ _ ho (by simp [run, hs]) (good_step g1 (show Own .reprocess from trivial) hs rfl (fun _ => rfl)) hp1 hu rfl
        · have e : reprocess { s1 with repros := s1.repros - 1 } = { s1 with repros := s1.repros - 1, procs := s1.procs + 1 } := by
            simp [reprocess, hw, hl, hd]
          rw [e] at hs
          exact finish [.reprocess] _ ho (by simp [run, hs]) (good_step g1 (show Own .reprocess from trivial) hs rfl (fun _ => rfl)) hp1 hu (by simp)
  · obtain ⟨w, hw⟩ := Option.isSome_iff_exists.1 h
    exact sleeper [] s1 w (by simp) rfl g1 hp1 hu hw
  · rw [none x hx] at h; simp at h

/-- a state that meets the hypotheses: tokens taken, a request pending behind them -/
example : ((run (new 3 5 10) [.request 2, .process none, .request 3, .wait 1 true, .touch 0]).map fun s => (s.pending, s.stuck, s.used)) = some ([1], false, 2) := by
  decide +kernel

end Verif.Rp
