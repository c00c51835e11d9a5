import Verif.Server.LifeProps

/-! # C26, C61: archiving and killing -/

namespace Verif.Server

/-! ## C26 -/

/-- Specification: does the op, with the answer it gets, give job `k` a new life (it is added or
reserved)? -/
def renews (s : Life) (k : Nat) : Op → Bool
  | .reserve c k' => k' == k && (lstep s (.reserve c k')).2 == .ok
  | .add k' r gs => k' == k && (lstep s (.add k' r gs)).2 == .ok
  | _ => false

/-- Specification: who reported with this op, and was answered ok, that job `k` was started? -/
def starts (s : Life) (k : Nat) : Op → Option Nat
  | .jstart c k' v => if k' = k ∧ (lstep s (.jstart c k' v)).2 = .ok then some c else none
  | _ => none

/-- Specification: the exit code given with an archive request for `k` by its client. -/
def exits (s : Life) (k : Nat) : Op → Option Int
  | .jarchive c k' (some e) =>
    if k' = k ∧ e.exited = true ∧
      ((lstep s (.jarchive c k' (some e))).2 = .ok ∨
       (lstep s (.jarchive c k' (some e))).2 = .badRequest) then some e.code else none
  | _ => none

/-- The client that reported the start of job `k` since it was reserved last. -/
def begun (k : Nat) : Life → Option Nat → List Op → Option Nat
  | _, b, [] => b
  | s, b, o :: os =>
    begun k (lstep s o).1 (if renews s k o then none else (starts s k o).or b) os

/-- The exit code first reported for job `k` since it was reserved last. -/
def reported (k : Nat) : Life → Option Int → List Op → Option Int
  | _, b, [] => b
  | s, b, o :: os =>
    reported k (lstep s o).1 (if renews s k o then none else b.or (exits s k o)) os

/-- What the two say about the job while it is running. -/
def Told (s : Life) (k : Nat) (b : Option Nat) (r : Option Int) : Prop :=
  ∀ j, s.jobs k = some j → j.sub = .run →
    (j.started = true → b = j.by') ∧ (if j.exited then r = some j.code else r = none)

/-- A release of a running job takes it out of the run sub-queue; otherwise it changes nothing
about running jobs. -/
theorem releaseJob_run {s : Life} {k : Nat} {j : Job} (e : Option End) (f : Bool) {j' : Job}
    (h : (releaseJob s k j e f).1.jobs k = some j') (hr : j'.sub = .run) :
    s.jobs k = some j' := by
  have en : ∀ j2 : Job, j2.sub ≠ .run → (endRun s k j2 e f).jobs k = some j' → False := by
    intro j2 h2 h3
    simp only [endRun, put, upd_same, Option.some.injEq] at h3
    subst h3
    simp only [afterExit_sub] at hr
    exact h2 hr
  unfold releaseJob at h
  split at h
  · split at h
    · split at h
      · exact h
      · rename_i h1 _; exact (en j (by rw [h1]; decide) h).elim
    · split at h
      · exact (en { j with sub := .bury } (by simp) h).elim
      · exact h
  · split at h
    · split at h
      · exact h
      · rename_i h1 _; exact (en j (by rw [h1]; decide) h).elim
    · split at h
      · exact (en { j with sub := .delay } (by simp) h).elim
      · exact h

theorem lstep_told {s : Life} {k : Nat} {b : Option Nat} {r : Option Int} (h : Told s k b r)
    (o : Op) :
    Told (lstep s o).1 k (if renews s k o then none else (starts s k o).or b)
      (if renews s k o then none else r.or (exits s k o)) := by
  intro j hj hr
  by_cases hk : o.key = k
  · cases o <;> simp only [Op.key] at hk <;> subst hk
    case add k n gs =>
      simp only [lstep, add] at hj
      split at hj
      · rename_i j0 h0
        have e1 : renews s k (.add k n gs) = false := by simp [renews, lstep, add, h0]
        have := h j hj hr
        simpa [e1, starts, exits] using this
      · simp only [upd_same, Option.some.injEq] at hj
        subst hj; cases hr
    case reserve c k =>
      simp only [lstep, reserve] at hj
      split at hj
      · rename_i h0; rw [h0] at hj; cases hj
      · rename_i j0 h0
        split at hj
        · rename_i hc
          have e1 : renews s k (.reserve c k) = true := by
            simp [renews, lstep, reserve, h0, hc]
          simp only [put, upd_same, Option.some.injEq] at hj
          subst hj
          simp [e1]
        · rename_i hc
          have e1 : renews s k (.reserve c k) = false := by
            simp [renews, lstep, reserve, h0, hc]
          have := h j hj hr
          simpa [e1, starts, exits] using this
    case jstart c k v =>
      simp only [renews, exits, Bool.false_eq_true, if_false, Option.or_none]
      simp only [lstep, jstart] at hj
      split at hj
      · rename_i rr hg
        have e2 : starts s k (.jstart c k v) = none := by
          simp only [starts, lstep, jstart, hg]
          rcases getij_err hg with ⟨rfl, _⟩ | ⟨rfl, _⟩ <;> simp
        rw [e2]; exact h j hj hr
      · rename_i j0 hg
        have h1 := getij_ok hg
        split at hj
        · rename_i hv
          have e2 : starts s k (.jstart c k v) = some c := by
            simp [starts, lstep, jstart, hg, hv]
          simp only [put, upd_same, Option.some.injEq] at hj
          subst hj
          rw [e2]
          refine ⟨fun _ => ?_, ?_⟩
          · simp [h1.2.1]
          · exact (h j0 h1.1 (h1.2.2 rfl)).2
        · rename_i hv
          have e2 : starts s k (.jstart c k v) = none := by
            simp [starts, lstep, jstart, hg, hv]
          rw [e2]; exact h j hj hr
    case jtouch c k =>
      simp only [renews, starts, exits, Bool.false_eq_true, if_false, Option.or_none,
        Option.none_or]
      simp only [lstep, jtouch] at hj
      split at hj
      · exact h j hj hr
      · rename_i j0 hg
        have h1 := getij_ok hg
        split at hj
        · exact h j hj hr
        · simp only [put, upd_same, Option.some.injEq] at hj
          subst hj
          exact h j0 h1.1 (h1.2.2 rfl)
    case jarchive c k e =>
      simp only [renews, starts, Bool.false_eq_true, if_false, Option.none_or]
      have hl : (lstep s (.jarchive c k e)).1.jobs k = some j := hj
      simp only [lstep, jarchive] at hj
      split at hj
      · rename_i rr hg
        have e2 : exits s k (.jarchive c k e) = none := by
          cases e with
          | none => rfl
          | some e =>
            simp only [exits, lstep, jarchive, hg]
            rcases getij_err hg with ⟨rfl, _⟩ | ⟨rfl, _⟩ <;> simp
        rw [e2, Option.or_none]; exact h j hj hr
      · rename_i j0 hg
        have h1 := getij_ok hg
        have h2 := h j0 h1.1 (h1.2.2 rfl)
        split at hj
        · rename_i hc
          simp only [put, upd_same, Option.some.injEq] at hj
          have e3 : (lstep s (.jarchive c k e)).2 = .badRequest := by
            simp only [lstep, jarchive, hg, hc, if_true]
          subst hj
          refine ⟨fun hs => ?_, ?_⟩
          · rw [afterExit_by]
            rw [afterExit_started] at hs
            exact h2.1 hs
          · unfold afterExit
            cases hx : j0.exited with
            | true =>
              simp only [hx, if_true] at h2 ⊢
              rw [h2.2]; simp
            | false =>
              simp only [hx, Bool.false_eq_true, if_false] at h2 ⊢
              rw [h2.2, Option.none_or]
              cases e with
              | none => simp [hx, exits]
              | some e =>
                cases hee : e.exited
                · simp [hx, exits, hee]
                · simp [exits, hee, e3]
        · simp [upd_same] at hj
    case jrelease c k e =>
      simp only [renews, starts, exits, Bool.false_eq_true, if_false, Option.or_none,
        Option.none_or]
      simp only [lstep, jrelease] at hj
      split at hj
      · exact h j hj hr
      · rename_i j0 hg
        exact h j (releaseJob_run _ _ hj hr) hr
    case jbury c k e =>
      simp only [renews, starts, exits, Bool.false_eq_true, if_false, Option.or_none,
        Option.none_or]
      simp only [lstep, jbury] at hj
      split at hj
      · exact h j hj hr
      · rename_i j0 hg
        exact h j (releaseJob_run _ _ hj hr) hr
    case jkick k =>
      simp only [renews, starts, exits, Bool.false_eq_true, if_false, Option.or_none,
        Option.none_or]
      simp only [lstep, jkick] at hj
      split at hj
      · exact h j hj hr
      · split at hj
        · simp only [put, upd_same, Option.some.injEq] at hj
          subst hj; cases hr
        · exact h j hj hr
    case jkill k =>
      simp only [renews, starts, exits, Bool.false_eq_true, if_false, Option.or_none,
        Option.none_or]
      simp only [lstep, jkill] at hj
      split at hj
      · exact h j hj hr
      · rename_i j0 h0
        split at hj
        · split at hj
          · exact h j (releaseJob_run (j := { j0 with killed := true }) _ _ hj hr) hr
          · simp only [put, upd_same, Option.some.injEq] at hj
            subst hj
            exact h j0 h0 hr
        · exact h j hj hr
    case jdel k =>
      simp only [renews, starts, exits, Bool.false_eq_true, if_false, Option.or_none,
        Option.none_or]
      simp only [lstep, jdel] at hj
      split at hj
      · exact h j hj hr
      · split at hj
        · exact h j hj hr
        · simp [upd_same] at hj
    case ttr k =>
      simp only [renews, starts, exits, Bool.false_eq_true, if_false, Option.or_none,
        Option.none_or]
      simp only [lstep, ttr] at hj
      split at hj
      · exact h j hj hr
      · rename_i j0 h0
        split at hj
        · split at hj
          · simp only [put, upd_same, Option.some.injEq] at hj
            subst hj
            exact h j0 h0 hr
          · simp only [put, upd_same, Option.some.injEq] at hj
            subst hj; cases hr
        · exact h j hj hr
    case reap k =>
      simp only [renews, starts, exits, Bool.false_eq_true, if_false, Option.or_none,
        Option.none_or]
      simp only [lstep, reap] at hj
      split at hj
      · exact h j hj hr
      · rename_i j0 h0
        split at hj
        · exact h j (releaseJob_run _ _ hj hr) hr
        · exact h j hj hr
    case delayed k =>
      simp only [renews, starts, exits, Bool.false_eq_true, if_false, Option.or_none,
        Option.none_or]
      simp only [lstep, delayed] at hj
      split at hj
      · exact h j hj hr
      · split at hj
        · simp only [put, upd_same, Option.some.injEq] at hj
          subst hj; cases hr
        · exact h j hj hr
    case depUpdate k =>
      simp only [renews, starts, exits, Bool.false_eq_true, if_false, Option.or_none,
        Option.none_or]
      simp only [lstep, depUpdate] at hj
      split at hj
      · exact h j hj hr
      · simp only [put, upd_same, Option.some.injEq] at hj
        subst hj; cases hr
  · rw [lstep_frame s hk] at hj
    have h1 := h j hj hr
    have e1 : renews s k o = false := by
      cases o <;> simp only [Op.key] at hk <;> simp [renews, hk]
    have e2 : starts s k o = none := by
      cases o <;> simp only [Op.key] at hk <;> simp [starts, hk]
    have e3 : exits s k o = none := by
      cases o <;> simp only [Op.key] at hk <;> try rfl
      rename_i c k' e
      cases e <;> simp [exits, hk]
    simpa [e1, e2, e3] using h1

theorem lrun_told {k : Nat} : ∀ (os : List Op) (s : Life) (b : Option Nat) (r : Option Int),
    Told s k b r → Told (lrun s os) k (begun k s b os) (reported k s r os) := by
  intro os
  induction os with
  | nil => intro s b r h; exact h
  | cons o os ih => intro s b r h; exact ih _ _ _ (lstep_told h o)

theorem lrun_append (s : Life) (os os' : List Op) : lrun s (os ++ os') = lrun (lrun s os) os' := by
  induction os generalizing s with
  | nil => rfl
  | cons o os ih => simp only [List.cons_append, lrun]; exact ih _

theorem reported_append (k : Nat) (os os' : List Op) : ∀ (s : Life) (r : Option Int),
    reported k s r (os ++ os') = reported k (lrun s os) (reported k s r os) os' := by
  induction os with
  | nil => intro s r; rfl
  | cons o os ih => intro s r; simp only [List.cons_append, reported, lrun]; exact ih _ _

/-- **C26.** In any history, an archive request by client `c` for job `k` is accepted only if the
job is running, client `c` is the one that reserved it and reported its start since then, and the
exit code it reported is 0. Afterwards the job is in the complete store, and is neither in the
queue nor in the live store. -/
theorem C26_archive (lim : Nat → Option Nat) (os : List Op) (c k : Nat) (e : Option End)
    (h : (lstep (lrun (fresh lim) os) (.jarchive c k e)).2 = .ok) :
    (∃ j, (lrun (fresh lim) os).jobs k = some j ∧ j.sub = .run ∧ j.by' = some c) ∧
    begun k (fresh lim) none os = some c ∧
    reported k (fresh lim) none (os ++ [.jarchive c k e]) = some 0 ∧
    (lrun (fresh lim) (os ++ [.jarchive c k e])).jobs k = none ∧
    (lrun (fresh lim) (os ++ [.jarchive c k e])).live k = false ∧
    (lrun (fresh lim) (os ++ [.jarchive c k e])).done k = true := by
  have ht := lrun_told (k := k) os (fresh lim) none none (by intro j hj; simp [fresh] at hj)
  rw [lrun_append, reported_append]
  generalize lrun (fresh lim) os = s at *
  generalize begun k (fresh lim) none os = b at *
  generalize reported k (fresh lim) none os = r at *
  have h' := h
  simp only [lrun, reported, lstep, jarchive] at h ⊢
  cases hg : getij s c k true with
  | error rr =>
    rw [hg] at h
    rcases getij_err hg with ⟨rfl, _⟩ | ⟨rfl, _⟩ <;> cases h
  | ok j =>
    have h1 := getij_ok hg
    have h2 := ht j h1.1 (h1.2.2 rfl)
    rw [hg] at h
    simp only at h
    split at h
    · cases h
    · rename_i hc
      simp only [Bool.or_eq_true, Bool.not_eq_true', decide_eq_true_eq, not_or,
        Bool.not_eq_false, Decidable.not_not, ne_eq] at hc
      obtain ⟨⟨⟨c1, c2⟩, c3⟩, c4⟩ := hc
      rw [afterExit_started] at c3
      refine ⟨⟨j, h1.1, h1.2.2 rfl, h1.2.1⟩, ?_, ?_, ?_, ?_, ?_⟩
      · rw [h2.1 c3, h1.2.1]
      · simp only [renews, Bool.false_eq_true, if_false]
        have h3 := h2.2
        unfold afterExit at c1 c2
        cases hx : j.exited with
        | true =>
          simp only [hx, if_true] at c2 h3
          rw [h3, c2]; simp
        | false =>
          simp only [hx, Bool.false_eq_true, if_false] at c1 c2 h3
          rw [h3, Option.none_or]
          cases e with
          | none => simp [hx] at c1
          | some e =>
            cases hee : e.exited
            · simp [hee, hx] at c1
            · simp only [hee, if_true] at c2
              simp [exits, hee, h', c2]
      · simp [afterExit_started, c1, c2, c3, c4, upd_same]
      · simp [afterExit_started, c1, c2, c3, c4, upd_same]
      · simp [afterExit_started, c1, c2, c3, c4, upd_same]

/-- **C26, exactly once.** While the job has not been added again, every further archive request
for it, by any client, is refused. -/
theorem C26_once (s : Life) (k : Nat) (hk : s.jobs k = none) (os : List Op)
    (ho : ∀ o ∈ os, ∀ r gs, o ≠ .add k r gs) (c : Nat) (e : Option End) :
    (lstep (lrun s os) (.jarchive c k e)).2 = .badJob := by
  have key : (lrun s os).jobs k = none := by
    induction os generalizing s with
    | nil => exact hk
    | cons o os ih =>
      apply ih _ _ (fun o' h' => ho o' (List.mem_cons_of_mem _ h'))
      by_cases h : o.key = k
      · have hadd := ho o (List.mem_cons_self ..)
        have ge : ∀ c b, getij s c k b = .error .badJob := by
          intro c b; simp [getij, hk]
        cases o <;> simp only [Op.key] at h <;> subst h
        case add k r gs => exact absurd rfl (hadd r gs)
        all_goals
          simp [lstep, reserve, jstart, jtouch, jarchive, jrelease, jbury, jkick, jkill, jdel,
            ttr, reap, delayed, depUpdate, hk, ge]
      · rw [lstep_frame s h]; exact hk
  simp [lstep, jarchive, getij, key]

example :
    let os := demo ++ [.jtouch 1 5, .jtouch 2 5]
    (lstep (lrun (fresh fun _ => none) os) (.jarchive 1 5 (some ⟨true, 0, true⟩))).2 = .ok ∧
    (lstep (lrun (fresh fun _ => none) os) (.jarchive 1 5 (some ⟨true, 1, true⟩))).2 =
      .badRequest ∧
    begun 5 (fresh fun _ => none) none os = some 1 := by
  decide +kernel

/-! ## C61: a kill reaches the run it was meant for -/

/-- Specification: is the op a kill request for job `k` that is answered as done? -/
def asksKill (s : Life) (k : Nat) : Op → Bool
  | .jkill k' => k' == k && (lstep s (.jkill k')).2 == .ok
  | _ => false

/-- Specification: was the running job `k` asked to be killed since its client reported its
start? -/
def killAsked (k : Nat) : Life → Bool → List Op → Bool
  | _, b, [] => b
  | s, b, o :: os =>
    killAsked k (lstep s o).1
      (if (starts s k o).isSome then false
       else b || asksKill s k o) os

/-- The job's own flag says the same while it is running and was started. -/
def Flag (s : Life) (k : Nat) (b : Bool) : Prop :=
  ∀ j, s.jobs k = some j → j.sub = .run → j.started = true → j.killed = b

theorem lstep_flag {s : Life} {k : Nat} {b : Bool} (h : Flag s k b) (o : Op) :
    Flag (lstep s o).1 k (if (starts s k o).isSome then false
       else b || asksKill s k o) := by
  intro j hj hr hs
  by_cases hk : o.key = k
  · cases o <;> simp only [Op.key] at hk <;> subst hk
    case add k n gs =>
      simp only [starts, asksKill, Option.isSome_none, Bool.false_eq_true, if_false]
      simp only [lstep, add] at hj
      split at hj
      · simpa using h j hj hr hs
      · simp only [upd_same, Option.some.injEq] at hj
        subst hj; cases hr
    case reserve c k =>
      simp only [starts, asksKill, Option.isSome_none, Bool.false_eq_true, if_false]
      simp only [lstep, reserve] at hj
      split at hj
      · rename_i h0; rw [h0] at hj; cases hj
      · split at hj
        · simp only [put, upd_same, Option.some.injEq] at hj
          subst hj; cases hs
        · simpa using h j hj hr hs
    case jstart c k v =>
      simp only [lstep, jstart] at hj
      split at hj
      · rename_i rr hg
        have e2 : starts s k (.jstart c k v) = none := by
          simp only [starts, lstep, jstart, hg]
          rcases getij_err hg with ⟨rfl, _⟩ | ⟨rfl, _⟩ <;> simp
        simpa [e2, asksKill] using h j hj hr hs
      · rename_i j0 hg
        split at hj
        · rename_i hv
          have e2 : starts s k (.jstart c k v) = some c := by
            simp [starts, lstep, jstart, hg, hv]
          simp only [put, upd_same, Option.some.injEq] at hj
          subst hj
          simp [e2]
        · rename_i hv
          have e2 : starts s k (.jstart c k v) = none := by
            simp [starts, lstep, jstart, hg, hv]
          simpa [e2, asksKill] using h j hj hr hs
    case jtouch c k =>
      simp only [starts, asksKill, Option.isSome_none, Bool.false_eq_true, if_false]
      simp only [lstep, jtouch] at hj
      split at hj
      · simpa using h j hj hr hs
      · rename_i j0 hg
        have h1 := getij_ok hg
        split at hj
        · simpa using h j hj hr hs
        · simp only [put, upd_same, Option.some.injEq] at hj
          subst hj
          simpa using h j0 h1.1 (h1.2.2 rfl) hs
    case jarchive c k e =>
      simp only [starts, asksKill, Option.isSome_none, Bool.false_eq_true, if_false]
      simp only [lstep, jarchive] at hj
      split at hj
      · simpa using h j hj hr hs
      · rename_i j0 hg
        have h1 := getij_ok hg
        split at hj
        · simp only [put, upd_same, Option.some.injEq] at hj
          subst hj
          rw [afterExit_started] at hs
          have e1 : (afterExit j0 e).killed = j0.killed := by
            unfold afterExit
            split
            · rfl
            · split
              · rfl
              · split <;> rfl
          rw [e1]
          simpa using h j0 h1.1 (h1.2.2 rfl) hs
        · simp [upd_same] at hj
    case jrelease c k e =>
      simp only [starts, asksKill, Option.isSome_none, Bool.false_eq_true, if_false]
      simp only [lstep, jrelease] at hj
      split at hj
      · simpa using h j hj hr hs
      · rename_i j0 hg
        simpa using h j (releaseJob_run _ _ hj hr) hr hs
    case jbury c k e =>
      simp only [starts, asksKill, Option.isSome_none, Bool.false_eq_true, if_false]
      simp only [lstep, jbury] at hj
      split at hj
      · simpa using h j hj hr hs
      · rename_i j0 hg
        simpa using h j (releaseJob_run _ _ hj hr) hr hs
    case jkick k =>
      simp only [starts, asksKill, Option.isSome_none, Bool.false_eq_true, if_false]
      simp only [lstep, jkick] at hj
      split at hj
      · simpa using h j hj hr hs
      · split at hj
        · simp only [put, upd_same, Option.some.injEq] at hj
          subst hj; cases hr
        · simpa using h j hj hr hs
    case jkill k =>
      simp only [starts, asksKill, Option.isSome_none, Bool.false_eq_true, if_false]
      cases h0 : s.jobs k with
      | none => simp [lstep, jkill, h0] at hj
      | some j0 =>
        by_cases h1 : j0.sub = .run
        · cases h2 : j0.lost with
          | true =>
            simp only [lstep, jkill, h0, h1, h2, if_true] at hj
            -- a lost running job is always moved out of the run sub-queue
            exfalso
            unfold releaseJob at hj
            simp only [h1] at hj
            split at hj <;> simp [endRun, put, upd_same, afterExit_sub] at hj <;>
              (rw [← hj] at hr; simp [afterExit_sub] at hr)
          | false =>
            simp only [lstep, jkill, h0, h1, h2, if_true, Bool.false_eq_true, if_false, put,
              upd_same, Option.some.injEq] at hj
            subst hj
            simp [lstep, jkill, h0, h1, h2]
        · simp only [lstep, jkill, h0, h1, if_false] at hj
          injection hj with hj; subst hj; exact absurd hr h1
    case jdel k =>
      simp only [starts, asksKill, Option.isSome_none, Bool.false_eq_true, if_false]
      simp only [lstep, jdel] at hj
      split at hj
      · simpa using h j hj hr hs
      · split at hj
        · simpa using h j hj hr hs
        · simp [upd_same] at hj
    case ttr k =>
      simp only [starts, asksKill, Option.isSome_none, Bool.false_eq_true, if_false]
      simp only [lstep, ttr] at hj
      split at hj
      · simpa using h j hj hr hs
      · rename_i j0 h0
        split at hj
        · split at hj
          · simp only [put, upd_same, Option.some.injEq] at hj
            subst hj
            simpa using h j0 h0 hr hs
          · simp only [put, upd_same, Option.some.injEq] at hj
            subst hj; cases hr
        · simpa using h j hj hr hs
    case reap k =>
      simp only [starts, asksKill, Option.isSome_none, Bool.false_eq_true, if_false]
      simp only [lstep, reap] at hj
      split at hj
      · simpa using h j hj hr hs
      · rename_i j0 h0
        split at hj
        · simpa using h j (releaseJob_run _ _ hj hr) hr hs
        · simpa using h j hj hr hs
    case delayed k =>
      simp only [starts, asksKill, Option.isSome_none, Bool.false_eq_true, if_false]
      simp only [lstep, delayed] at hj
      split at hj
      · simpa using h j hj hr hs
      · split at hj
        · simp only [put, upd_same, Option.some.injEq] at hj
          subst hj; cases hr
        · simpa using h j hj hr hs
    case depUpdate k =>
      simp only [starts, asksKill, Option.isSome_none, Bool.false_eq_true, if_false]
      simp only [lstep, depUpdate] at hj
      split at hj
      · simpa using h j hj hr hs
      · simp only [put, upd_same, Option.some.injEq] at hj
        subst hj; cases hr
  · rw [lstep_frame s hk] at hj
    have h1 := h j hj hr hs
    have e2 : starts s k o = none := by
      cases o <;> simp only [Op.key] at hk <;> simp [starts, hk]
    have e3 : asksKill s k o = false := by
      cases o <;> simp only [Op.key] at hk <;> simp [asksKill, hk]
    simpa [e2, e3] using h1

theorem lrun_flag {k : Nat} : ∀ (os : List Op) (s : Life) (b : Bool),
    Flag s k b → Flag (lrun s os) k (killAsked k s b os) := by
  intro os
  induction os with
  | nil => intro s b h; exact h
  | cons o os ih => intro s b h; exact ih _ _ (lstep_flag h o)

/-- **C61 (partial: once the start was reported).** A touch of a running job that was reported
started tells its client to kill it exactly if a kill was requested since that start. Missing: the
time between the reservation and the report of the start, see `C61_violated_forgotten` and
`C61_violated_stale`. -/
theorem C61_partial (lim : Nat → Option Nat) (os : List Op) (c k : Nat) (j : Job)
    (hj : (lrun (fresh lim) os).jobs k = some j) (hr : j.sub = .run) (hc : j.by' = some c)
    (hs : j.started = true) :
    (lstep (lrun (fresh lim) os) (.jtouch c k)).2 =
      .kill (killAsked k (fresh lim) false os) := by
  have hf := lrun_flag (k := k) os (fresh lim) false (by intro j hj; simp [fresh] at hj)
    j hj hr hs
  have hg : getij (lrun (fresh lim) os) c k true = .ok j := by
    simp [getij, hj, hr, hc]
  simp only [lstep, jtouch, hg]
  rw [← hf]
  cases hkd : j.killed <;> simp

example : (lstep (lrun (fresh fun _ => none) (demo ++ [.jtouch 1 5, .jkill 5])) (.jtouch 1 5)).2 =
    .kill true := by decide +kernel

/-- **C61 is violated**: a kill of a job that is reserved but whose start has not been reported
yet is answered as done, and then forgotten when the start is reported. -/
theorem C61_violated_forgotten :
    let os : List Op := [.add 5 1 [], .reserve 1 5]
    let s := lrun (fresh fun _ => none) os
    (lstep s (.jkill 5)).2 = .ok ∧
    (lstep (lrun s [.jkill 5, .jstart 1 5 true]) (.jtouch 1 5)).2 = .kill false := by
  decide +kernel

/-- **C61 is violated**: the kill of a lost run also kills the next run of the job, by another
client, if that client touches the job before it reports the start. -/
theorem C61_violated_stale :
    let os : List Op := [.add 5 1 [], .reserve 1 5, .jstart 1 5 true, .ttr 5, .jkill 5,
      .delayed 5, .reserve 2 5]
    (lstep (lrun (fresh fun _ => none) os) (.jtouch 2 5)).2 = .kill true := by
  decide +kernel

/-- **C61 is violated**: after a lost run, a kill of the next run before its start is reported
releases the job at once, as if that run was lost too, although its client is alive. -/
theorem C61_violated_lost :
    let os : List Op := [.add 5 2 [], .reserve 1 5, .jstart 1 5 true, .ttr 5, .jkill 5,
      .delayed 5, .reserve 2 5, .jkill 5]
    ((lrun (fresh fun _ => none) os).jobs 5).map (·.sub) = some .delay := by
  decide +kernel

/-- C114: when nothing was heard of a reserved job for too long it is marked lost, and stays with its client, if it was reported started
and not ended; a job whose start was not reported, or whose end was, is given to others after a delay and has no slots. A job that is not
reserved stays as it is. -/
theorem C114_marked (s : Life) (k : Nat) (j : Job) (hj : s.jobs k = some j) :
    (j.sub = .run → j.started = true → j.exited = false →
      ∃ j', (lstep s (.ttr k)).1.jobs k = some j' ∧ j'.lost = true ∧ j'.sub = .run ∧ j'.held = j.held ∧ j'.by' = j.by') ∧
    (j.sub = .run → (j.started = false ∨ j.exited = true) →
      ∃ j', (lstep s (.ttr k)).1.jobs k = some j' ∧ j'.lost = j.lost ∧ j'.sub = .delay ∧ j'.held = []) ∧
    (j.sub ≠ .run → (lstep s (.ttr k)).1.jobs k = some j) := by
  refine ⟨?_, ?_, ?_⟩
  · intro h1 h2 h3
    simp [lstep, ttr, hj, h1, h2, h3, put, upd]
  · intro h1 h2
    have : (j.started && !j.exited) = false := by rcases h2 with h | h <;> simp [h]
    simp [lstep, ttr, hj, h1, this, put, upd]
  · intro h1
    simp [lstep, ttr, hj, h1]

/-- a job can be reserved and ended: a runner asked for it to be archived with a failed command -/
example : ((lrun (fresh fun _ => none) [.add 5 1 [], .reserve 1 5, .jstart 1 5 true,
    .jarchive 1 5 (some { exited := true, code := 1, ended := true })]).jobs 5).map (fun j => (j.sub, j.started, j.exited)) =
    some (.run, true, true) := by decide +kernel

end Verif.Server
