import Verif.Server.BackupCover

/-!
# C89, continued: the backup catches up, also when the manager is stopped

`Newer`, `Quiet` and `Idle` are in `Verif.Server.BackupProps`.
-/
namespace Verif.Server.Backup

/-- C89, it goes on: while there are threads, one of them can move, at once or when enough time has passed -/
theorem C89_goes_on (e : Bool) (evs : List Ev) (h : ¬ Idle (run (init e) evs)) :
    ∃ d i s', move (step (run (init e) evs) (.tick d)) i true = some s' := by
  have hs := inv2_run (inv2_init e) evs
  generalize run (init e) evs = s at h hs
  have go : ∀ t ∈ s.threads, t ≠ .done → t ≠ .closeWait → ∃ d i s', move (step s (.tick d)) i true = some s' := by
    intro t ht hd hw
    obtain ⟨i, hi⟩ := List.mem_iff_getElem?.1 ht
    cases t with
    | wait u =>
      refine ⟨u, i, (step s (.tick u)).at i (.start false), ?_⟩
      simp [move, step, hi]
    | copied c t =>
      refine ⟨0, i, ?_⟩
      simp only [move, step, hi]
      cases s.tmp <;> exact ⟨_, rfl⟩
    | finished c t => cases c <;> exact ⟨0, i, _, by simp only [move, step, hi]; rfl⟩
    | closeDrain =>
      refine ⟨0, i, ?_⟩
      have hi' : (step s (.tick 0)).threads[i]? = some .closeDrain := hi
      simp only [move, hi']
      split <;> exact ⟨_, rfl⟩
    | closeWait => exact absurd rfl hw
    | done => exact absurd rfl hd
    | call => exact ⟨0, i, _, by simp only [move, step, hi]; rfl⟩
    | start c => exact ⟨0, i, _, by simp only [move, step, hi]; rfl⟩
    | copying c t v => exact ⟨0, i, _, by simp only [move, step, hi]; rfl⟩
    | notify => exact ⟨0, i, _, by simp only [move, step, hi]; rfl⟩
  have ⟨t, ht, hd⟩ : ∃ t ∈ s.threads, t ≠ .done := by
    simp only [Idle] at h
    by_cases h' : ∃ t ∈ s.threads, t ≠ .done
    · exact h'
    · exfalso; apply h; intro t ht
      by_cases e : t = .done
      · exact e
      · exact absurd ⟨t, ht, e⟩ h'
  by_cases hw : t = .closeWait
  · subst hw
    rcases hs.cw ht with hn | hn | hb
    · obtain ⟨i, hi⟩ := List.mem_iff_getElem?.1 ht
      exact ⟨0, i, _, by simp only [move, step, hi, hn]; rfl⟩
    · exact go _ hn (by simp) (by simp)
    · obtain ⟨a, ha, hwa⟩ := hs.wb hb
      exact go a ha (by rintro rfl; simp [worker] at hwa) (by rintro rfl; simp [worker] at hwa)
  · exact go t ht hd hw

/-- C89, caught up: after a change that asks for a backup, in a manager with backups that is not being stopped, when from then on nothing
fails and all threads have ended, the backup has that change.

Missing from the full property: changes that do not ask, failures, and the end of the process (below). -/
theorem C89_latest_partial (evs evs' : List Ev) (hc : (run (init true) evs).closed = false) (hq : ∀ e ∈ evs', Quiet e)
    (hi : Idle (run (init true) (evs ++ .commit true :: evs'))) :
    Newer (run (init true) (evs ++ .commit true :: evs')).file ((run (init true) evs).ver + 1) := by
  rw [run_append] at hi ⊢
  have hs := inv2_run (inv2_init true) evs
  have he : (run (init true) evs).enabled = true := (ver_run evs (init true)).2
  generalize run (init true) evs = s at *
  have hsh : s.shut = false := by
    cases hsh : s.shut with
    | false => rfl
    | true => have := (hs.sh hsh).1; rw [hc] at this; cases this
  have h1 : step s (.commit true) = { s with ver := s.ver + 1, threads := s.threads ++ [.call] } := by
    simp only [step, hsh]; rfl
  have hcov : Cov (s.ver + 1) (step s (.commit true)) := by
    rw [h1]; exact .call (by simp) hc
  have := cov_run (s.ver + 1) evs' hq (step s (.commit true)) (inv2_step hs _) (by rw [h1]; exact Nat.le_refl _) (by rw [h1]; exact he) hcov
  have hi : Idle (run (step s (.commit true)) evs') := hi
  have hs2 := inv2_run (inv2_step hs (.commit true)) evs'
  show Newer (run (step s (.commit true)) evs').file (s.ver + 1)
  cases this with
  | file h => exact h
  | call h _ => have := hi _ h; cases this
  | wait u h => have := hi _ h; cases this
  | start c h => have := hi _ h; cases this
  | copying c t v h _ => have := hi _ h; cases this
  | copied c t v h _ _ => have := hi _ h; cases this
  | queued _ hb _ =>
    obtain ⟨a, ha, hwa⟩ := hs2.wb hb
    rw [hi a ha] at hwa; simp [worker] at hwa
  | closing _ a ha hca => rw [hi a ha] at hca; simp at hca

/-- C89, stopped: if nobody is about to ask for a backup when the database is closed, and from the change on nothing fails, the backup has
the change when closing ends.

Missing: the manager can be stopped while somebody is about to ask (below). -/
theorem C89_close_partial (evs evs' evs'' : List Ev) (hc : (run (init true) evs).closed = false) (hq : ∀ e ∈ evs', Quiet e)
    (hn : .call ∉ (run (init true) (evs ++ .commit true :: evs')).threads)
    (hq' : ∀ e ∈ evs'', Quiet e)
    (hsh : (run (init true) (evs ++ .commit true :: evs' ++ .close :: evs'')).shut = true) :
    Newer (run (init true) (evs ++ .commit true :: evs' ++ .close :: evs'')).file ((run (init true) evs).ver + 1) := by
  rw [run_append, run_append] at hsh ⊢
  rw [run_append] at hn
  have hs := inv2_run (inv2_init true) evs
  have he : (run (init true) evs).enabled = true := (ver_run evs (init true)).2
  generalize run (init true) evs = s at *
  have hsh0 : s.shut = false := by
    cases hsh : s.shut with
    | false => rfl
    | true => have := (hs.sh hsh).1; rw [hc] at this; cases this
  have h1 : step s (.commit true) = { s with ver := s.ver + 1, threads := s.threads ++ [.call] } := by
    simp only [step, hsh0]; rfl
  have hcov : Cov (s.ver + 1) (step s (.commit true)) := by
    rw [h1]; exact .call (by simp) hc
  have h2 := cov_run (s.ver + 1) evs' hq (step s (.commit true)) (inv2_step hs _) (by rw [h1]; exact Nat.le_refl _) (by rw [h1]; exact he) hcov
  have hs2 := inv2_run (inv2_step hs (.commit true)) evs'
  have hv2 := ver_run evs' (step s (.commit true))
  have hcl2 : ∀ (evs : List Ev) (s : St), (∀ e ∈ evs, Quiet e) → (run s evs).closed = s.closed := by
    intro evs
    induction evs with
    | nil => intro s _; rfl
    | cons e evs ih =>
      intro s h
      have h3 := ih (step s e) (fun e he => h e (List.mem_cons_of_mem _ he))
      refine h3.trans ?_
      have hq := h e (by simp)
      cases e with
      | commit asks => simp only [step]; split <;> rfl
      | move i ok =>
        simp only [step]
        cases hm : move s i ok with
        | none => rfl
        | some s' => exact (closed_move hm).1
      | tick d => rfl
      | close => exact absurd hq id
      | restart => exact absurd hq id
  have hcl3 : (run (step s (.commit true)) evs').closed = false := by rw [hcl2 evs' _ hq, h1]; exact hc
  have hv2' : s.ver + 1 ≤ (run (step s (.commit true)) evs').ver := by
    have := hv2.1
    rw [h1] at this ⊢
    exact this
  have he2 : (run (step s (.commit true)) evs').enabled = true := by rw [hv2.2, h1]; exact he
  have hn : .call ∉ (run (step s (.commit true)) evs').threads := hn
  have hsh : (run (step (run (step s (.commit true)) evs') .close) evs'').shut = true := hsh
  show Newer (run (step (run (step s (.commit true)) evs') .close) evs'').file (s.ver + 1)
  generalize run (step s (.commit true)) evs' = s2 at *
  have h3 := cov_close (s.ver + 1) hcl3 h2 hn
  have h4 := cov_run (s.ver + 1) evs'' hq' (step s2 .close) (inv2_step hs2 _) (Nat.le_trans hv2' (ver_step s2 .close).1)
    (by rw [(ver_step s2 .close).2]; exact he2) h3
  have hs4 := inv2_run (inv2_step hs2 .close) evs''
  generalize run (step s2 .close) evs'' = s4 at *
  obtain ⟨k1, k2, k3⟩ := hs4.sh hsh
  have nw := hs4.w0 k2
  cases h4 with
  | file h => exact h
  | call h hc => rw [k1] at hc; cases hc
  | wait u h => have := nw _ h; simp [worker] at this
  | start c h => cases c with
    | true => have := k3 _ h; simp [closer] at this
    | false => have := nw _ h; simp [worker] at this
  | copying c t v h _ => cases c with
    | true => have := k3 _ h; simp [closer] at this
    | false => have := nw _ h; simp [worker] at this
  | copied c t v h _ _ => cases c with
    | true => have := k3 _ h; simp [closer] at this
    | false => have := nw _ h; simp [worker] at this
  | queued _ _ hc => rw [k1] at hc; cases hc
  | closing _ a ha hca => have := k3 a ha; rcases hca with rfl | rfl <;> simp [closer] at this

/-- C89, off: without backups (a development manager) no backup is ever written -/
theorem C89_off (evs : List Ev) : (run (init false) evs).file = none ∧ (run (init false) evs).tmp = none :=
  off_run evs (init false) rfl ⟨rfl, rfl⟩ rfl rfl (by simp [init])

/-- C89, spaced out: when a backup ends at time `t1` that began at `t0`, the next one begins 30 seconds later at the earliest, and after as
much time as the last one took, unless the manager is stopped -/
theorem C89_gap (evs evs' : List Ev) (i j : Nat) (t0 : Nat) (ok : Bool)
    (hi : (run (init true) evs).threads[i]? = some (.finished false t0)) (hc : (run (init true) evs).closed = false)
    (hq : ∀ e ∈ evs', e ≠ .close ∧ e ≠ .restart) (c : Bool)
    (hj : (run (init true) (evs ++ .move i ok :: evs')).threads[j]? = some (.start c)) :
    (run (init true) evs).now + 30 ≤ (run (init true) (evs ++ .move i ok :: evs')).now ∧
    (run (init true) evs).now + ((run (init true) evs).now - t0) ≤ (run (init true) (evs ++ .move i ok :: evs')).now := by
  rw [run_append] at hj ⊢
  have hs := inv2_run (inv2_init true) evs
  have h3 := inv3_run evs (init true) ⟨by simp [init], by simp [init]⟩
  generalize run (init true) evs = s at *
  have hj : (run (step s (.move i ok)) evs').threads[j]? = some (.start c) := hj
  show s.now + 30 ≤ (run (step s (.move i ok)) evs').now ∧ s.now + (s.now - t0) ≤ (run (step s (.move i ok)) evs').now
  have e1 : step s (.move i ok) = finish s i t0 := by simp [step, move, hi]
  obtain ⟨T, hT1, hT2, hg⟩ := gap_finish hs h3 hi hc
  have hs1 := inv2_step hs (.move i ok)
  rw [e1] at hj hs1 ⊢
  have hg2 := gap_run T evs' hq _ hs1 hg
  have := hg2.later _ (List.mem_of_getElem? hj) (by
    cases c with
    | false => rfl
    | true => have := hg2.noclose _ (List.mem_of_getElem? hj); simp [closer] at this) (by simp)
  omega

/-! ## The hypotheses are met -/

/-- a backup after the first change -/
def one : List Ev := [.commit true, .move 0 true, .move 0 true, .move 0 true, .move 0 true, .move 0 true]

/-- the second change comes while the first backup is copied: a further one is queued, and begins after 30 seconds -/
def two : List Ev :=
  [.move 0 true, .move 0 true, .move 0 true, .commit true, .move 1 true, .tick 5, .move 0 true, .move 0 true, .move 0 true,
   .move 0 true, .tick 29, .move 0 true, .tick 1, .move 0 true, .move 0 true, .move 0 true, .move 0 true, .move 0 true]

example : Idle (run (init true) ([] ++ .commit true :: two)) ∧ (∀ e ∈ two, Quiet e) ∧ (run (init true) []).closed = false ∧
    (run (init true) ([] ++ .commit true :: two)).file = some (.full 2) := by decide

example : (run (init true) (one)).threads[0]? = some (.finished false 0) ∧
    (run (init true) (one ++ .move 0 true :: [.commit true, .move 1 true, .tick 30, .move 1 true])).threads[1]? = some (.start false) := by
  decide

/-- the manager is stopped while a backup runs and another one is queued -/
def stop : List Ev := [.move 0 true, .move 0 true, .move 0 true, .commit true, .move 1 true]

def stopped : List Ev :=
  [.move 0 true, .move 0 true, .move 0 true, .move 0 true, .move 2 true, .move 2 true, .move 2 true, .move 2 true, .move 2 true, .move 2 true]

example : (∀ e ∈ stop, Quiet e) ∧ .call ∉ (run (init true) ([] ++ .commit true :: stop)).threads ∧ (∀ e ∈ stopped, Quiet e) ∧
    (run (init true) ([] ++ .commit true :: stop ++ .close :: stopped)).shut = true ∧
    (run (init true) ([] ++ .commit true :: stop ++ .close :: stopped)).file = some (.full 2) := by decide

/-! ## What is not so -/

/-- C89, violated: if the manager is stopped between the end of a backup and the start of the one that is queued, a change that was reported
long ago is not in the backup, although nothing failed and closing is documented to make a final backup -/
theorem C89_violated_stop : ∃ evs, (∀ e ∈ evs, Quiet e ∨ e = .close) ∧ .commit false ∉ evs ∧ (run (init true) evs).shut = true ∧
    Idle (run (init true) evs) ∧ (run (init true) evs).ver = 2 ∧ (run (init true) evs).file = some (.full 1) :=
  ⟨[.commit true, .move 0 true, .move 0 true, .move 0 true, .commit true, .move 1 true, .move 0 true, .move 0 true, .move 0 true, .close,
    .move 0 true, .move 2 true], by decide⟩

/-- C89, violated: a change that is committed just before the manager is stopped, and asks for its backup just after, is not in it -/
theorem C89_violated_late : ∃ evs, (∀ e ∈ evs, Quiet e ∨ e = .close) ∧ .commit false ∉ evs ∧ (run (init true) evs).shut = true ∧
    Idle (run (init true) evs) ∧ (run (init true) evs).ver = 1 ∧ (run (init true) evs).file = none :=
  ⟨[.commit true, .close, .move 0 true, .move 1 true], by decide⟩

/-- C89, violated: the result of a failed run does not ask for a backup, so it is not in the backup, even after a regular stop -/
theorem C89_violated_unasked : ∃ evs, (∀ e ∈ evs, Quiet e ∨ e = .close) ∧ (run (init true) evs).shut = true ∧
    Idle (run (init true) evs) ∧ (run (init true) evs).ver = 2 ∧ (run (init true) evs).file = some (.full 1) :=
  ⟨[.commit true, .move 0 true, .move 0 true, .move 0 true, .move 0 true, .move 0 true, .move 0 true, .commit false, .close, .move 1 true],
   by decide⟩

/-- C89, violated: a backup that failed is not tried again, not even when the manager is stopped -/
theorem C89_violated_failed : ∃ evs, (run (init true) evs).shut = true ∧ Idle (run (init true) evs) ∧ .commit false ∉ evs ∧
    .restart ∉ evs ∧ (run (init true) evs).ver = 1 ∧ (run (init true) evs).file = none :=
  ⟨[.commit true, .move 0 true, .move 0 true, .move 0 true, .move 0 false, .move 0 true, .close, .move 1 true], by decide⟩

/-- C89, violated: a change that was not in the backup when the process died is still not after a restart, until something else is changed -/
theorem C89_violated_restart : ∃ evs, (∀ e ∈ evs, Quiet e ∨ e = .close ∨ e = .restart) ∧ .commit false ∉ evs ∧
    (run (init true) evs).shut = true ∧ Idle (run (init true) evs) ∧ (run (init true) evs).ver = 1 ∧ (run (init true) evs).file = none :=
  ⟨[.commit true, .restart, .close, .move 0 true], by decide⟩

end Verif.Server.Backup
