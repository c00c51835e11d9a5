import Verif.Server.Gate
/-!
# C86: A client that asks for a job is not kept waiting for ever
-/
namespace Verif.Server.Gate

namespace Spec

/-- requests do what they are for: no operation of the queue fails, and each addition has a new job in it -/
def Fruitful : Op → Prop
  | .updateFails _ => False
  | .added _ rac change => rac = true ∨ change = true
  | .addFails _ => False
  | .kickFails _ => False
  | _ => True

/-- what the server does by itself: going on with a request, and running callbacks -/
def Internal : Op → Prop
  | .update .. => True
  | .updateFails _ => True
  | .enqueueBegin _ => True
  | .added .. => True
  | .addFails _ => True
  | .kicked .. => True
  | .kickFails _ => True
  | .racStart _ => True
  | .racEnd => True
  | .changed => True
  | _ => False

instance (op : Op) : Decidable (Fruitful op) := by cases op <;> unfold Fruitful <;> infer_instance
instance (op : Op) : Decidable (Internal op) := by cases op <;> unfold Internal <;> infer_instance

/-- the server has nothing more to do by itself -/
def Quiescent (s : St) : Prop := s.threads = [] ∧ s.racs = 0 ∧ s.inRac = false ∧ s.changes = 0

instance (s : St) : Decidable (Quiescent s) := by unfold Quiescent; infer_instance

end Spec
open Spec

/-! ## all the server's own work ends -/

def weight1 : Phase → Nat
  | .updating n => 4 * n + 13
  | .between => 9
  | .adding => 4
  | .kicking => 4

def weights (l : List Phase) : Nat := (l.map weight1).sum

/-- a bound on the steps that the server takes by itself -/
def weight (s : St) : Nat := weights s.threads + 2 * s.racs + b2n s.inRac + s.changes

theorem weights_set : ∀ (l : List Phase) (t : Nat) (p q : Phase), l[t]? = some p → weights (l.set t q) + weight1 p = weights l + weight1 q
  | [], t, p, q, h => by simp at h
  | a :: l, 0, p, q, h => by
    simp only [List.getElem?_cons_zero, Option.some.injEq] at h
    subst h
    simp only [weights, List.set_cons_zero, List.map_cons, List.sum_cons]
    omega
  | a :: l, t + 1, p, q, h => by
    have := weights_set l t p q (by simpa using h)
    simp only [weights, List.set_cons_succ, List.map_cons, List.sum_cons] at this ⊢
    omega

theorem weights_erase : ∀ (l : List Phase) (t : Nat) (p : Phase), l[t]? = some p → weights (l.eraseIdx t) + weight1 p = weights l
  | [], t, p, h => by simp at h
  | a :: l, 0, p, h => by
    simp only [List.getElem?_cons_zero, Option.some.injEq] at h
    subst h
    simp only [weights, List.eraseIdx_cons_zero, List.map_cons, List.sum_cons]
    omega
  | a :: l, t + 1, p, h => by
    have := weights_erase l t p (by simpa using h)
    simp only [weights, List.eraseIdx_cons_succ, List.map_cons, List.sum_cons] at this ⊢
    omega

theorem b2n_le (b : Bool) : b2n b ≤ 1 := by cases b <;> simp [b2n]

/-- C86, the server's own work ends: each step of it makes the rest smaller -/
theorem C86_ends (s s' : St) (op : Op) (hi : Internal op) (h : step s op = some s') : weight s' < weight s := by
  cases op <;> try (exact absurd hi id)
  case update t rac change =>
    simp only [step] at h
    split at h
    · rename_i n hn
      cases h
      have h1 := b2n_le rac
      have h2 := b2n_le change
      have h3 := weights_set s.threads t (.updating n) (if n ≤ 1 then .between else .updating (n - 1)) hn
      simp only [weight, effects]
      split at h3
      · rw [if_pos (by assumption)]; simp only [weight1] at h3; omega
      · rw [if_neg (by assumption)]; simp only [weight1] at h3; omega
    · cases h
  case updateFails t =>
    simp only [step] at h
    split at h
    · rename_i n hn
      cases h
      have h3 := weights_erase s.threads t _ hn
      simp only [weight, weight1] at h3 ⊢
      omega
    · cases h
  case enqueueBegin t =>
    simp only [step] at h
    split at h
    · rename_i hn
      cases h
      have h3 := weights_set s.threads t _ .adding hn
      simp only [weight, weight1] at h3 ⊢
      omega
    · cases h
  case added t rac change =>
    simp only [step] at h
    split at h
    · rename_i hn
      cases h
      have h1 := b2n_le rac
      have h2 := b2n_le change
      have h3 := weights_erase s.threads t _ hn
      simp only [weight, weight1, effects] at h3 ⊢
      omega
    · cases h
  case addFails t =>
    simp only [step] at h
    split at h
    · rename_i hn
      cases h
      have h3 := weights_erase s.threads t _ hn
      simp only [weight, weight1] at h3 ⊢
      omega
    · cases h
  case kicked t ready =>
    simp only [step] at h
    split at h
    · rename_i hn
      cases h
      have h1 := b2n_le ready
      have h2 := b2n_le (!ready)
      have h3 := weights_erase s.threads t _ hn
      simp only [weight, weight1, effects] at h3 ⊢
      omega
    · cases h
  case kickFails t =>
    simp only [step] at h
    split at h
    · rename_i hn
      cases h
      have h3 := weights_erase s.threads t _ hn
      simp only [weight, weight1] at h3 ⊢
      omega
    · cases h
  case racStart left =>
    simp only [step] at h
    split at h
    · cases h
    · rename_i h1
      simp only [Bool.or_eq_true, decide_eq_true_eq, not_or, Bool.not_eq_true, Nat.not_le] at h1
      split at h
      · cases h
        simp only [weight]
        omega
      · cases h
        simp only [weight, b2n, h1.1]
        simp
        omega
  case racEnd =>
    simp only [step] at h
    split at h
    · rename_i h1
      cases h
      simp only [weight, release, b2n, h1]
      simp
    · cases h
  case changed =>
    simp only [step] at h
    split at h
    · cases h
    · split at h
      · cases h
        simp only [weight, release]
        omega
      · cases h
        simp only [weight]
        omega

/-- C86, and until it has ended, there is a next step -/
theorem C86_goes_on (s : St) (h : ¬ Quiescent s) : ∃ op s', Internal op ∧ Fruitful op ∧ step s op = some s' := by
  cases ht : s.threads with
  | cons p l =>
    have hp : s.threads[0]? = some p := by rw [ht]; rfl
    cases p with
    | updating n => exact ⟨.update 0 false false, _, trivial, trivial, by simp only [step, hp]; rfl⟩
    | between => exact ⟨.enqueueBegin 0, _, trivial, trivial, by simp only [step, hp]; rfl⟩
    | adding => exact ⟨.added 0 true false, _, trivial, .inl rfl, by simp only [step, hp]; rfl⟩
    | kicking => exact ⟨.kicked 0 true, _, trivial, trivial, by simp only [step, hp]; rfl⟩
  | nil =>
    cases hi : s.inRac with
    | true => exact ⟨.racEnd, _, trivial, trivial, by simp only [step, hi]; rfl⟩
    | false =>
      cases hr : s.racs with
      | succ n =>
        cases hd : s.drain with
        | true => exact ⟨.racStart n, { s with racs := n }, trivial, trivial, by simp [step, hi, hr, hd]⟩
        | false => exact ⟨.racStart n, { s with racs := n, inRac := true, running := true }, trivial, trivial, by simp [step, hi, hr, hd]⟩
      | zero =>
        cases hc : s.changes with
        | zero => exact absurd ⟨ht, hr, hi, hc⟩ h
        | succ n =>
          cases hp : s.pending with
          | true => exact ⟨.changed, { release s with pending := false, changes := n }, trivial, trivial, by simp [step, hc, hp]⟩
          | false => exact ⟨.changed, { s with changes := n }, trivial, trivial, by simp [step, hc, hp]⟩

/-! ## then nobody waits -/

structure Inv (s : St) : Prop where
  wait : s.waiting ≠ [] → s.pending = true ∨ s.running = true
  run : s.running = true → s.inRac = true
  owed : s.pending = true → s.threads ≠ [] ∨ 0 < s.racs ∨ s.inRac = true ∨ 0 < s.changes ∨ s.drain = true

theorem set_ne_nil {l : List Phase} {t : Nat} {p q : Phase} (h : l[t]? = some p) : l.set t q ≠ [] := by
  intro e
  have : (l.set t q).length = 0 := by rw [e]; rfl
  rw [List.length_set] at this
  rw [List.eq_nil_of_length_eq_zero this] at h
  simp at h

theorem inv_step (s s' : St) (op : Op) (hf : Fruitful op) (hi : Inv s) (h : step s op = some s') : Inv s' := by
  obtain ⟨h1, h2, h3⟩ := hi
  cases op with
  | updateFails t => exact absurd hf id
  | addFails t => exact absurd hf id
  | kickFails t => exact absurd hf id
  | reserve c =>
    simp only [step] at h
    split at h
    · cases h; exact ⟨h1, h2, h3⟩
    · split at h
      · rename_i hp
        cases h
        exact ⟨fun _ => by simpa using hp, h2, h3⟩
      · cases h; exact ⟨h1, h2, h3⟩
  | addBegin n =>
    simp only [step] at h
    cases h
    exact ⟨fun _ => .inl rfl, h2, fun _ => .inl (by simp)⟩
  | update t rac change =>
    simp only [step] at h
    split at h
    · rename_i n hn
      cases h
      exact ⟨h1, h2, fun _ => .inl (set_ne_nil hn)⟩
    · cases h
  | enqueueBegin t =>
    simp only [step] at h
    split at h
    · rename_i hn
      cases h
      exact ⟨fun _ => .inl rfl, h2, fun _ => .inl (set_ne_nil hn)⟩
    · cases h
  | added t rac change =>
    simp only [step] at h
    split at h
    · rename_i hn
      cases h
      refine ⟨h1, h2, fun _ => ?_⟩
      simp only [effects]
      rcases hf with rfl | rfl
      · right; left; simp [b2n]
      · right; right; right; left; simp [b2n]
    · cases h
  | kickBegin =>
    simp only [step] at h
    cases h
    exact ⟨fun _ => .inl rfl, h2, fun _ => .inl (by simp)⟩
  | kicked t ready =>
    simp only [step] at h
    split at h
    · rename_i hn
      cases h
      refine ⟨h1, h2, fun _ => ?_⟩
      simp only [effects]
      cases ready
      · right; right; right; left; simp [b2n]
      · right; left; simp [b2n]
    · cases h
  | other rac change =>
    simp only [step] at h
    cases h
    refine ⟨h1, h2, fun hp => ?_⟩
    simp only [effects]
    rcases h3 hp with h | h | h | h | h
    · exact .inl h
    · exact .inr (.inl (by omega))
    · exact .inr (.inr (.inl h))
    · exact .inr (.inr (.inr (.inl (by omega))))
    · exact .inr (.inr (.inr (.inr h)))
  | racStart left =>
    simp only [step] at h
    split at h
    · cases h
    · split at h
      · rename_i hd
        cases h
        exact ⟨h1, h2, fun _ => .inr (.inr (.inr (.inr hd)))⟩
      · cases h
        exact ⟨fun _ => .inr rfl, fun _ => rfl, fun _ => .inr (.inr (.inl rfl))⟩
  | racEnd =>
    simp only [step] at h
    split at h
    · cases h
      exact ⟨fun hw => absurd rfl hw, fun hr => by simp at hr, fun hp => by simp at hp⟩
    · cases h
  | changed =>
    simp only [step] at h
    split at h
    · cases h
    · split at h
      · cases h
        exact ⟨fun hw => absurd rfl hw, h2, fun hp => by simp at hp⟩
      · rename_i hp
        cases h
        exact ⟨h1, h2, fun hp' => absurd hp' hp⟩
  | pause =>
    simp only [step] at h
    cases h
    exact ⟨h1, h2, fun _ => .inr (.inr (.inr (.inr rfl)))⟩
  | resume =>
    simp only [step] at h
    split at h
    · cases h
      exact ⟨h1, h2, fun _ => .inr (.inl (Nat.succ_pos _))⟩
    · cases h
      exact ⟨h1, h2, h3⟩

theorem inv_run (ops : List Op) (hf : ∀ op ∈ ops, Fruitful op) : ∀ s s', Inv s → run s ops = some s' → Inv s' := by
  induction ops with
  | nil => intro s s' hi h; cases h; exact hi
  | cons op ops ih =>
    intro s s' hi h
    unfold run at h
    split at h
    · rename_i s1 h1
      exact ih (fun o ho => hf o (List.mem_cons_of_mem _ ho)) s1 s' (inv_step s s1 op (hf op (by simp)) hi h1) h
    · cases h

/-- nobody is forgotten -/
theorem kept_step (s s' : St) (op : Op) (c : Nat) (h : step s op = some s') :
    (c ∈ s.waiting ∨ c ∈ s.passed → c ∈ s'.waiting ∨ c ∈ s'.passed) ∧ (op = .reserve c → c ∈ s'.waiting ∨ c ∈ s'.passed) := by
  cases op <;> simp only [step] at h
  all_goals first
    | (cases h; refine ⟨?_, fun e => by cases e⟩; intro hc; simpa [effects] using hc)
    | skip
  case reserve x =>
    split at h
    · cases h
      refine ⟨?_, ?_⟩
      · rintro (h | h)
        · exact .inl h
        · exact .inr (List.mem_append_left _ h)
      · intro e; cases e; exact .inr (by simp)
    · split at h
      · cases h
        refine ⟨?_, ?_⟩
        · rintro (h | h)
          · exact .inl (List.mem_append_left _ h)
          · exact .inr h
        · intro e; cases e; exact .inl (by simp)
      · cases h
        refine ⟨?_, ?_⟩
        · rintro (h | h)
          · exact .inl h
          · exact .inr (List.mem_append_left _ h)
        · intro e; cases e; exact .inr (by simp)
  case racEnd =>
    split at h
    · cases h
      refine ⟨?_, fun e => by cases e⟩
      rintro (h | h)
      · exact .inr (List.mem_append_right _ h)
      · exact .inr (List.mem_append_left _ h)
    · cases h
  case changed =>
    split at h
    · cases h
    · split at h
      · cases h
        refine ⟨?_, fun e => by cases e⟩
        rintro (h | h)
        · exact .inr (List.mem_append_right _ h)
        · exact .inr (List.mem_append_left _ h)
      · cases h
        exact ⟨id, fun e => by cases e⟩
  case racStart left =>
    split at h
    · cases h
    · split at h <;> (cases h; exact ⟨id, fun e => by cases e⟩)
  case resume =>
    split at h <;> (cases h; exact ⟨id, fun e => by cases e⟩)
  all_goals
    split at h
    · cases h
      refine ⟨?_, fun e => by cases e⟩
      intro hc; simpa [effects] using hc
    · cases h

theorem kept_run (ops : List Op) (c : Nat) : ∀ s s', run s ops = some s' →
    (c ∈ s.waiting ∨ c ∈ s.passed ∨ .reserve c ∈ ops) → c ∈ s'.waiting ∨ c ∈ s'.passed := by
  induction ops with
  | nil =>
    intro s s' h hc
    cases h
    rcases hc with h | h | h
    · exact .inl h
    · exact .inr h
    · cases h
  | cons op ops ih =>
    intro s s' h hc
    unfold run at h
    split at h
    · rename_i s1 h1
      have hk := kept_step s s1 op c h1
      refine ih s1 s' h ?_
      have : (c ∈ s1.waiting ∨ c ∈ s1.passed) ∨ .reserve c ∈ ops := by
        rcases hc with hc | hc | hc
        · exact .inl (hk.1 (.inl hc))
        · exact .inl (hk.1 (.inr hc))
        · rcases List.mem_cons.1 hc with e | e
          · exact .inl (hk.2 e.symm)
          · exact .inr e
      rcases this with (h | h) | h
      · exact .inl h
      · exact .inr (.inl h)
      · exact .inr (.inr h)
    · cases h

/-- C86: in every history, whenever the server has done all that it does by itself, and is not paused, every client that asked for a job
was let through. Partial: if requests to add or kick jobs succeed, and have something new in them. -/
theorem C86_partial (ops : List Op) (s : St) (h : run {} ops = some s) (hf : ∀ op ∈ ops, Fruitful op) (hq : Quiescent s)
    (hd : s.drain = false) (c : Nat) (hc : .reserve c ∈ ops) : c ∈ s.passed := by
  have hi := inv_run ops hf {} s ⟨by simp, by simp, by simp⟩ h
  rcases kept_run ops c {} s h (.inr (.inr hc)) with hw | hp
  · exfalso
    obtain ⟨q1, q2, q3, q4⟩ := hq
    rcases hi.wait (List.ne_nil_of_mem hw) with hp | hr
    · rcases hi.owed hp with h | h | h | h | h
      · exact h q1
      · omega
      · rw [q3] at h; cases h
      · omega
      · rw [hd] at h; cases h
    · have := hi.run hr
      rw [q3] at this
      cases this
  · exact hp

/-- a history that meets the hypotheses: two clients wait for an addition with a job to update; during the callback another one comes;
the server is paused and resumed -/
def exOps : List Op := [.addBegin 1, .reserve 1, .update 0 false false, .enqueueBegin 0, .reserve 2, .added 0 true false, .pause, .racStart 0,
  .resume, .racStart 0, .reserve 3, .racEnd, .kickBegin, .reserve 4, .kicked 0 false, .changed]

example : (run {} exOps).map (fun s => (s.passed, decide (Quiescent s))) = some ([1, 2, 3, 4], true) ∧
    ∀ op ∈ exOps, Fruitful op := by decide

/-- C86, violated: jobs that are all in the queue already are added. Nothing changes in the queue, so no callback is called, and all clients
that ask for a job wait until something else happens (a job that is ready is not run) -/
theorem C86_violated_duplicate : ∃ ops s, run {} ops = some s ∧ (∀ op ∈ ops, Fruitful op ∨ ∃ t, op = .added t false false) ∧ Quiescent s ∧
    s.drain = false ∧ .reserve 1 ∈ ops ∧ 1 ∉ s.passed := by
  refine ⟨[.addBegin 0, .enqueueBegin 0, .added 0 false false, .reserve 1], _, rfl, ?_, by decide⟩
  intro op h
  simp only [List.mem_cons, List.not_mem_nil, or_false] at h
  rcases h with rfl | rfl | rfl | rfl
  · exact .inl trivial
  · exact .inl trivial
  · exact .inr ⟨0, rfl⟩
  · exact .inl trivial

/-- C86, violated: when a job that is to be kicked is not buried any more, the flag is reset, but clients that wait are not told -/
theorem C86_violated_kick : ∃ ops s, run {} ops = some s ∧ (∀ op ∈ ops, Fruitful op ∨ ∃ t, op = .kickFails t) ∧ Quiescent s ∧
    s.drain = false ∧ s.pending = false ∧ .reserve 1 ∈ ops ∧ 1 ∉ s.passed := by
  refine ⟨[.kickBegin, .reserve 1, .kickFails 0], _, rfl, ?_, by decide⟩
  intro op h
  simp only [List.mem_cons, List.not_mem_nil, or_false] at h
  rcases h with rfl | rfl | rfl
  · exact .inl trivial
  · exact .inl trivial
  · exact .inr ⟨0, rfl⟩

/-- C86, violated: a client that waits when the server is paused is answered after the pause only, though a client that comes during
the pause is answered at once -/
theorem C86_violated_pause : ∃ ops s, run {} ops = some s ∧ (∀ op ∈ ops, Fruitful op) ∧ Quiescent s ∧
    .reserve 1 ∈ ops ∧ 1 ∉ s.passed ∧ .reserve 2 ∈ ops ∧ 2 ∈ s.passed :=
  ⟨[.addBegin 0, .reserve 1, .enqueueBegin 0, .added 0 true false, .pause, .racStart 0, .reserve 2], _, rfl, by decide, by decide⟩

/-- C86, violated: a client that waits for the callback, which assigns new jobs to their groups, is let through by any other change
in the queue, before the callback has run -/
theorem C86_violated_early : ∃ ops s, run {} ops = some s ∧ (∀ op ∈ ops, Fruitful op) ∧ 0 < s.racs ∧ .reserve 1 ∈ ops ∧ 1 ∈ s.passed :=
  ⟨[.addBegin 0, .enqueueBegin 0, .added 0 true false, .reserve 1, .other false true, .changed], _, rfl, by decide, by decide⟩

/-- C86, after a failure: a client that asks after a request to add or kick jobs failed goes on at once, unless the callback runs -/
theorem C86_failed (s s' s'' : St) (op : Op) (t c : Nat) (ho : op = .addFails t ∨ op = .kickFails t) (hr : s.running = false)
    (h : step s op = some s') (h2 : step s' (.reserve c) = some s'') : c ∈ s''.passed := by
  have hs : s'.pending = false ∧ s'.running = false := by
    rcases ho with rfl | rfl
    all_goals
      simp only [step] at h
      split at h
      · cases h; exact ⟨rfl, hr⟩
      · cases h
  simp only [step, hs.1, hs.2] at h2
  split at h2
  · cases h2; simp
  · simp at h2; subst h2; simp

example : ∃ s', run {} [.addBegin 0, .enqueueBegin 0, .addFails 0, .reserve 1] = some s' ∧ 1 ∈ s'.passed := ⟨_, rfl, by decide⟩

end Verif.Server.Gate
