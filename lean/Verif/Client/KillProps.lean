/-
Killing the command of a job: properties (C130).
-/
import Verif.Client.Kill

namespace Verif.Client.Kill

/-! ## Specification -/

/-- a process is one of those of the job -/
def isMine (ps : List Proc) (p : Nat) : Prop := ∃ x ∈ ps, x.pid = p ∧ x.mine = true

instance (ps : List Proc) (p : Nat) : Decidable (isMine ps p) := by unfold isMine; infer_instance

/-- the second is a descendant of the first: a living child, or a descendant of one -/
inductive Desc (ps : List Proc) : Nat → Nat → Prop
  | child {q p : Nat} : p ∈ kids ps q → Desc ps q p
  | more {q r p : Nat} : r ∈ kids ps q → Desc ps r p → Desc ps q p

/-- the processes of a computer: numbers are different and used in order, the command's process belongs to the job and process 1 doesn't,
and children of processes of the job are processes of the job -/
structure WF (s : S) : Prop where
  nodup : (s.procs.map (·.pid)).Nodup
  lt : ∀ x ∈ s.procs, x.pid < s.next ∧ x.parent < s.next
  one : ∀ x ∈ s.procs, x.pid = 1 → x.mine = false
  gtOne : 1 < s.next
  main : isMine s.procs s.main
  kids : ∀ x ∈ s.procs, isMine s.procs x.parent → x.mine = true

/-- all along a run -/
def along (P : S → Ev → Bool) : S → List Ev → Bool
  | _, [] => true
  | s, e :: es => P s e && (match step s e with
    | none => true
    | some s' => along P s' es)

/-- not a process of the job that makes another -/
def noOwnFork (s : S) : Ev → Bool
  | .fork p => !decide (isMine s.procs p)
  | _ => true

/-- and not one that ends by itself -/
def quiet (s : S) : Ev → Bool
  | .fork p => !decide (isMine s.procs p)
  | .exit p => !decide (isMine s.procs p)
  | _ => true

/-! ## Helpers -/

theorem mem_kids {ps : List Proc} {p q : Nat} : p ∈ kids ps q ↔ ∃ x ∈ ps, x.pid = p ∧ x.parent = q ∧ x.alive = true := by
  unfold kids
  constructor
  · intro h
    obtain ⟨x, hx, rfl⟩ := List.mem_map.mp h
    obtain ⟨h1, h2⟩ := List.mem_filter.mp hx
    simp at h2
    exact ⟨x, h1, rfl, h2.1, h2.2⟩
  · rintro ⟨x, h1, rfl, h2, h3⟩
    exact List.mem_map.mpr ⟨x, List.mem_filter.mpr ⟨h1, by simp [h2, h3]⟩, rfl⟩

theorem die_mem {ps : List Proc} {p : Nat} {y : Proc} : y ∈ die ps p ↔ ∃ x ∈ ps, y = { x with
    alive := if x.pid = p then false else x.alive
    parent := if x.parent = p then 1 else x.parent } := by
  unfold die
  rw [List.mem_map]
  constructor
  · rintro ⟨x, hx, rfl⟩; exact ⟨x, hx, rfl⟩
  · rintro ⟨x, hx, rfl⟩; exact ⟨x, hx, rfl⟩

theorem die_isMine {ps : List Proc} {p q : Nat} : isMine (die ps p) q ↔ isMine ps q := by
  unfold isMine
  constructor
  · rintro ⟨y, hy, h1, h2⟩
    obtain ⟨x, hx, rfl⟩ := die_mem.mp hy
    exact ⟨x, hx, h1, h2⟩
  · rintro ⟨x, hx, h1, h2⟩
    exact ⟨_, die_mem.mpr ⟨x, hx, rfl⟩, h1, h2⟩

theorem die_living {ps : List Proc} {p q : Nat} : living (die ps p) q ↔ living ps q ∧ q ≠ p := by
  unfold living
  constructor
  · rintro ⟨y, hy, h1, h2⟩
    obtain ⟨x, hx, rfl⟩ := die_mem.mp hy
    simp only at h1 h2
    split at h2
    · simp at h2
    · rename_i hp
      exact ⟨⟨x, hx, h1, h2⟩, fun e => hp (h1.trans e)⟩
  · rintro ⟨⟨x, hx, h1, h2⟩, hne⟩
    refine ⟨_, die_mem.mpr ⟨x, hx, rfl⟩, h1, ?_⟩
    have : ¬ x.pid = p := fun e => hne (h1.symm.trans e)
    simp [this, h2]

theorem die_pids (ps : List Proc) (p : Nat) : (die ps p).map (·.pid) = ps.map (·.pid) := by
  unfold die
  rw [List.map_map]
  rfl

theorem wf_die {s : S} {p : Nat} (h : WF s) {t : S} (hp : t.procs = die s.procs p) (hn : t.next = s.next) (hm : t.main = s.main) : WF t := by
  refine ⟨by rw [hp, die_pids]; exact h.nodup, ?_, ?_, by rw [hn]; exact h.gtOne, by rw [hp, hm, die_isMine]; exact h.main, ?_⟩
  · intro y hy
    rw [hp] at hy
    obtain ⟨x, hx, rfl⟩ := die_mem.mp hy
    have := h.lt x hx
    rw [hn]
    refine ⟨this.1, ?_⟩
    simp only
    split
    · exact h.gtOne
    · exact this.2
  · intro y hy h1
    rw [hp] at hy
    obtain ⟨x, hx, rfl⟩ := die_mem.mp hy
    exact h.one x hx h1
  · intro y hy h1
    rw [hp] at hy h1
    obtain ⟨x, hx, rfl⟩ := die_mem.mp hy
    rw [die_isMine] at h1
    simp only at h1 ⊢
    split at h1
    · obtain ⟨z, hz, e1, e2⟩ := h1
      rw [h.one z hz e1] at e2
      cases e2
    · exact h.kids x hx h1

theorem wf_same {s t : S} (h : WF s) (hp : t.procs = s.procs) (hn : t.next = s.next) (hm : t.main = s.main) : WF t := by
  obtain ⟨a, b, c, d, e, f⟩ := h
  refine ⟨?_, ?_, ?_, ?_, ?_, ?_⟩
  all_goals first | (rw [hp]; assumption) | skip
  · rw [hp, hn]; exact b
  · rw [hn]; exact d
  · rw [hp, hm]; exact e

/-- a process of the job, by its number -/
theorem mine_of_pid {s : S} (h : WF s) {x : Proc} (hx : x ∈ s.procs) (hm : isMine s.procs x.pid) : x.mine = true := by
  obtain ⟨y, hy, e1, e2⟩ := hm
  have hnd := h.nodup
  have : x = y := by
    have key : ∀ l : List Proc, (l.map (·.pid)).Nodup → x ∈ l → y ∈ l → y.pid = x.pid → x = y := by
      intro l
      induction l with
      | nil => intro _ h; cases h
      | cons a l ih =>
        intro hn h1 h2 h3
        simp only [List.map_cons, List.nodup_cons] at hn
        rcases List.mem_cons.mp h1 with e1 | h1 <;> rcases List.mem_cons.mp h2 with e2 | h2
        · rw [e1, e2]
        · exact absurd (List.mem_map.mpr ⟨y, h2, by rw [h3, e1]⟩) hn.1
        · exact absurd (List.mem_map.mpr ⟨x, h1, by rw [← h3, e2]⟩) hn.1
        · exact ih hn.2 h1 h2 h3
    exact key s.procs hnd hx hy e1
  rw [this]
  exact e2

theorem kid_mine {s : S} (h : WF s) {p q : Nat} (hq : isMine s.procs q) (hk : p ∈ kids s.procs q) : isMine s.procs p := by
  obtain ⟨x, hx, h1, h2, _⟩ := mem_kids.mp hk
  exact ⟨x, hx, h1, h.kids x hx (by rw [h2]; exact hq)⟩

theorem wf_fork {s : S} (h : WF s) {p : Nat} {x : Proc} (hf : s.procs.find? (fun x => x.pid = p) = some x) {t : S}
    (hp : t.procs = s.procs ++ [{ pid := s.next, parent := p, alive := true, mine := x.mine }]) (hn : t.next = s.next + 1)
    (hm : t.main = s.main) : WF t := by
  have hxm := List.mem_of_find?_eq_some hf
  have hxp : x.pid = p := by simpa using List.find?_some hf
  have hmine : ∀ q, isMine t.procs q → isMine s.procs q ∨ (q = s.next ∧ x.mine = true) := by
    rintro q ⟨y, hy, e1, e2⟩
    rw [hp] at hy
    rcases List.mem_append.mp hy with hy | hy
    · exact Or.inl ⟨y, hy, e1, e2⟩
    · simp at hy
      subst hy
      exact Or.inr ⟨e1.symm, e2⟩
  refine ⟨?_, ?_, ?_, ?_, ?_, ?_⟩
  · rw [hp]
    simp only [List.map_append, List.map_cons, List.map_nil]
    rw [List.nodup_append]
    refine ⟨h.nodup, by simp, ?_⟩
    intro a ha b hb
    simp at hb
    subst hb
    obtain ⟨y, hy, rfl⟩ := List.mem_map.mp ha
    exact Nat.ne_of_lt (h.lt y hy).1
  · intro y hy
    rw [hp] at hy
    rw [hn]
    rcases List.mem_append.mp hy with hy | hy
    · have := h.lt y hy; omega
    · simp at hy
      subst hy
      have := (h.lt x hxm).1
      simp only
      omega
  · intro y hy h1
    rw [hp] at hy
    rcases List.mem_append.mp hy with hy | hy
    · exact h.one y hy h1
    · simp at hy
      subst hy
      have := h.gtOne
      simp only at h1
      omega
  · have := h.gtOne; omega
  · obtain ⟨y, hy, e1, e2⟩ := h.main
    rw [hm]
    exact ⟨y, by rw [hp]; simp [hy], e1, e2⟩
  · intro y hy h1
    rw [hp] at hy
    rcases hmine _ h1 with h1 | ⟨h1, h2⟩
    · rcases List.mem_append.mp hy with hy | hy
      · exact h.kids y hy h1
      · simp at hy
        subst hy
        simp only at h1 ⊢
        rw [← hxp] at h1
        exact mine_of_pid h hxm h1
    · rcases List.mem_append.mp hy with hy | hy
      · have := (h.lt y hy).2; omega
      · simp at hy
        subst hy
        have := (h.lt x hxm).1
        simp only at h1
        omega

/-- processes only come to be by forks; those of the job stay such; who is dead stays dead -/
structure Later (s t : S) : Prop where
  wf : WF t
  main : t.main = s.main
  next : s.next ≤ t.next
  mine : ∀ p, isMine s.procs p → isMine t.procs p
  dead : ∀ p, p < s.next → ¬ living s.procs p → ¬ living t.procs p

theorem later_step {s t : S} {e : Ev} (h : WF s) (hs : step s e = some t) : Later s t := by
  have same : t.procs = s.procs → t.next = s.next → t.main = s.main → Later s t := by
    intro h1 h2 h3
    refine ⟨wf_same h h1 h2 h3, h3, by omega, ?_, ?_⟩
    · rw [h1]; exact fun _ h => h
    · rw [h1]; exact fun _ _ h => h
  have died : ∀ p, t.procs = die s.procs p → t.next = s.next → t.main = s.main → Later s t := by
    intro p h1 h2 h3
    refine ⟨wf_die h h1 h2 h3, h3, by omega, ?_, ?_⟩
    · intro q hq
      rw [h1, die_isMine]
      exact hq
    · intro q _ hq
      rw [h1, die_living]
      exact fun hc => hq hc.1
  cases e with
  | fork p =>
    simp only [step] at hs
    split at hs
    · rename_i x hf
      split at hs
      · cases hs
        refine ⟨wf_fork h hf rfl rfl rfl, rfl, by simp, ?_, ?_⟩
        · rintro q ⟨y, hy, e⟩
          exact ⟨y, by simp [hy], e⟩
        · rintro q hq hd ⟨y, hy, e1, e2⟩
          simp only [List.mem_append, List.mem_singleton] at hy
          rcases hy with hy | rfl
          · exact hd ⟨y, hy, e1, e2⟩
          · simp only at e1
            omega
      · cases hs
    · cases hs
  | exit p =>
    simp only [step] at hs
    split at hs
    · cases hs; exact died p rfl rfl rfl
    · cases hs
  | start =>
    simp only [step] at hs
    split at hs
    · cases hs; exact same rfl rfl rfl
    · cases hs
  | query =>
    simp only [step] at hs
    split at hs
    · cases hs; exact same rfl rfl rfl
    · cases hs
  | killMain =>
    simp only [step] at hs
    split at hs
    · cases hs; exact died s.main rfl rfl rfl
    · cases hs
  | term dies =>
    simp only [step] at hs
    split at hs
    · rename_i p tt k _
      cases hs
      cases dies
      · exact same (by simp) rfl rfl
      · exact died p (by simp) rfl rfl
    · cases hs
  | kill i =>
    simp only [step] at hs
    split at hs
    · split at hs
      · rename_i p _
        cases hs; exact died p rfl rfl rfl
      · cases hs
    · cases hs
  | finish =>
    simp only [step] at hs
    split at hs
    · cases hs; exact same rfl rfl rfl
    · cases hs

theorem Later.trans {a b c : S} (h1 : Later a b) (h2 : Later b c) : Later a c :=
  ⟨h2.wf, h2.main.trans h1.main, Nat.le_trans h1.next h2.next, fun p h => h2.mine p (h1.mine p h),
    fun p hp h => h2.dead p (Nat.lt_of_lt_of_le hp h1.next) (h1.dead p hp h)⟩

theorem later_run {es : List Ev} : ∀ {s t : S}, WF s → run s es = some t → Later s t := by
  induction es with
  | nil =>
    intro s t h hr
    cases hr
    exact ⟨h, rfl, Nat.le_refl _, fun _ h => h, fun _ _ h => h⟩
  | cons e es ih =>
    intro s t h hr
    unfold run at hr
    cases h1 : step s e with
    | none => rw [h1] at hr; cases hr
    | some u =>
      rw [h1] at hr
      have l := later_step h h1
      exact l.trans (ih l.wf hr)

/-- the numbers a kill works with are of processes of the job -/
structure Own (s : S) : Prop where
  found : ∀ p ∈ s.found, isMine s.procs p
  hit : ∀ p ∈ s.hit, isMine s.procs p
  todo : ∀ l, s.phase = .listing l → ∀ p ∈ l, isMine s.procs p
  ending : ∀ a b, s.phase = .ending a b → ∀ p, p ∈ a ∨ p ∈ b → isMine s.procs p

theorem own_step {s t : S} {e : Ev} (h : WF s) (ho : Own s) (hs : step s e = some t) : Own t := by
  have hl := later_step h hs
  have keep : t.found = s.found → t.hit = s.hit → t.phase = s.phase → Own t := by
    intro h1 h2 h3
    refine ⟨?_, ?_, ?_, ?_⟩
    · rw [h1]; exact fun p hp => hl.mine p (ho.found p hp)
    · rw [h2]; exact fun p hp => hl.mine p (ho.hit p hp)
    · rw [h3]; exact fun l hp p hq => hl.mine p (ho.todo l hp p hq)
    · rw [h3]; exact fun a b hp p hq => hl.mine p (ho.ending a b hp p hq)
  cases e with
  | fork p =>
    simp only [step] at hs
    split at hs
    · split at hs
      · cases hs; exact keep rfl rfl rfl
      · cases hs
    · cases hs
  | exit p =>
    simp only [step] at hs
    split at hs
    · cases hs; exact keep rfl rfl rfl
    · cases hs
  | start =>
    simp only [step] at hs
    split at hs
    · cases hs
      refine ⟨by simp, ho.hit, ?_, by simp⟩
      intro l hp p hq
      cases hp
      simp at hq
      subst hq
      exact h.main
    · cases hs
  | query =>
    simp only [step] at hs
    split at hs
    · rename_i p tl hph
      cases hs
      have hpm := ho.todo _ hph p (by simp)
      refine ⟨?_, ho.hit, ?_, by simp⟩
      · intro q hq
        rcases List.mem_append.mp hq with hq | hq
        · exact ho.found q hq
        · exact kid_mine h hpm hq
      · intro l hl' q hq
        cases hl'
        rcases List.mem_append.mp hq with hq | hq
        · exact kid_mine h hpm hq
        · exact ho.todo _ hph q (by simp [hq])
    · cases hs
  | killMain =>
    simp only [step] at hs
    split at hs
    · cases hs
      refine ⟨fun p hp => die_isMine.mpr (ho.found p hp), ?_, by simp, ?_⟩
      · intro p hp
        rcases List.mem_cons.mp hp with rfl | hp
        · exact die_isMine.mpr h.main
        · exact die_isMine.mpr (ho.hit p hp)
      · intro a b hab p hp
        cases hab
        rcases hp with hp | hp
        · exact die_isMine.mpr (ho.found p hp)
        · cases hp
    · cases hs
  | term dies =>
    simp only [step] at hs
    split at hs
    · rename_i q tl k hph
      cases hs
      have hq := ho.ending _ _ hph q (by simp)
      refine ⟨fun p hp => hl.mine p (ho.found p hp), ?_, by simp, ?_⟩
      · intro p hp
        rcases List.mem_cons.mp hp with rfl | hp
        · exact hl.mine _ hq
        · exact hl.mine _ (ho.hit p hp)
      · intro a b hab p hp
        cases hab
        apply hl.mine
        rcases hp with hp | hp
        · exact ho.ending _ _ hph p (by simp [hp])
        · rcases List.mem_append.mp hp with hp | hp
          · exact ho.ending _ _ hph p (by simp [hp])
          · simp at hp; subst hp; exact hq
    · cases hs
  | kill i =>
    simp only [step] at hs
    split at hs
    · rename_i tl k hph
      split at hs
      · rename_i q hk
        cases hs
        have hq := ho.ending _ _ hph q (Or.inr (List.mem_of_getElem? hk))
        refine ⟨fun p hp => hl.mine p (ho.found p hp), ?_, by simp, ?_⟩
        · intro p hp
          rcases List.mem_cons.mp hp with rfl | hp
          · exact hl.mine _ hq
          · exact hl.mine _ (ho.hit p hp)
        · intro a b hab p hp
          cases hab
          apply hl.mine
          rcases hp with hp | hp
          · exact ho.ending _ _ hph p (by simp [hp])
          · exact ho.ending _ _ hph p (Or.inr (List.mem_of_mem_eraseIdx hp))
      · cases hs
    · cases hs
  | finish =>
    simp only [step] at hs
    split at hs
    · cases hs
      exact ⟨ho.found, ho.hit, by simp, by simp⟩
    · cases hs

/-- what has been found is dead, or going to be -/
structure Going (s : S) : Prop where
  main : (∃ a b, s.phase = .ending a b) ∨ s.phase = .done → ¬ living s.procs s.main
  ending : ∀ a b, s.phase = .ending a b → ∀ p ∈ s.found, p ∈ a ∨ p ∈ b ∨ ¬ living s.procs p
  done : s.phase = .done → ∀ p ∈ s.found, ¬ living s.procs p

theorem pid_lt {s : S} (h : WF s) {p : Nat} (hm : isMine s.procs p) : p < s.next := by
  obtain ⟨x, hx, rfl, _⟩ := hm
  exact (h.lt x hx).1

theorem mem_eraseIdx_or {α : Type} : ∀ (l : List α) (i : Nat) (p x : α), l[i]? = some x → p ∈ l → p = x ∨ p ∈ l.eraseIdx i
  | [], _, _, _, _, h => by cases h
  | a :: l, 0, p, x, hi, h => by
    simp at hi
    subst hi
    rcases List.mem_cons.mp h with h | h
    · exact Or.inl h
    · exact Or.inr (by simpa using h)
  | a :: l, i + 1, p, x, hi, h => by
    simp at hi
    rcases List.mem_cons.mp h with h | h
    · exact Or.inr (by simp [h])
    · rcases mem_eraseIdx_or l i p x hi h with h | h
      · exact Or.inl h
      · exact Or.inr (by simp [h])

theorem going_step {s t : S} {e : Ev} (h : WF s) (ho : Own s) (hg : Going s) (hs : step s e = some t) : Going t := by
  have hl := later_step h hs
  have keep : t.found = s.found → t.phase = s.phase → Going t := by
    intro h1 h3
    refine ⟨?_, ?_, ?_⟩
    · rw [h3, hl.main]
      exact fun hp => hl.dead _ (pid_lt h h.main) (hg.main hp)
    · rw [h1, h3]
      intro a b hab p hp
      rcases hg.ending a b hab p hp with h | h' | h'
      · exact Or.inl h
      · exact Or.inr (Or.inl h')
      · exact Or.inr (Or.inr (hl.dead p (pid_lt h (ho.found p hp)) h'))
    · rw [h1, h3]
      exact fun hd p hp => hl.dead p (pid_lt h (ho.found p hp)) (hg.done hd p hp)
  cases e with
  | fork p =>
    simp only [step] at hs
    split at hs
    · split at hs
      · cases hs; exact keep rfl rfl
      · cases hs
    · cases hs
  | exit p =>
    simp only [step] at hs
    split at hs
    · cases hs; exact keep rfl rfl
    · cases hs
  | start =>
    simp only [step] at hs
    split at hs
    · cases hs
      exact ⟨by simp, by simp, by simp⟩
    · cases hs
  | query =>
    simp only [step] at hs
    split at hs
    · cases hs
      exact ⟨by simp, by simp, by simp⟩
    · cases hs
  | killMain =>
    simp only [step] at hs
    split at hs
    · cases hs
      refine ⟨?_, ?_, by simp⟩
      · intro _ hc
        exact (die_living.mp hc).2 rfl
      · intro a b hab p hp
        cases hab
        exact Or.inl hp
    · cases hs
  | term dies =>
    simp only [step] at hs
    split at hs
    · rename_i q tl k hph
      cases hs
      refine ⟨?_, ?_, by simp⟩
      · intro _
        exact hl.dead _ (pid_lt h h.main) (hg.main (Or.inl ⟨_, _, hph⟩))
      · intro a b hab p hp
        cases hab
        rcases hg.ending _ _ hph p hp with h' | h' | h'
        · rcases List.mem_cons.mp h' with rfl | h'
          · exact Or.inr (Or.inl (by simp))
          · exact Or.inl h'
        · exact Or.inr (Or.inl (by simp [h']))
        · exact Or.inr (Or.inr (hl.dead p (pid_lt h (ho.found p hp)) h'))
    · cases hs
  | kill i =>
    simp only [step] at hs
    split at hs
    · rename_i tl k hph
      split at hs
      · rename_i q hk
        cases hs
        refine ⟨?_, ?_, by simp⟩
        · intro _
          exact hl.dead _ (pid_lt h h.main) (hg.main (Or.inl ⟨_, _, hph⟩))
        · intro a b hab p hp
          cases hab
          rcases hg.ending _ _ hph p hp with h' | h' | h'
          · exact Or.inl h'
          · rcases mem_eraseIdx_or _ _ p _ hk h' with rfl | h'
            · exact Or.inr (Or.inr (fun hc => (die_living.mp hc).2 rfl))
            · exact Or.inr (Or.inl h')
          · exact Or.inr (Or.inr (hl.dead p (pid_lt h (ho.found p hp)) h'))
      · cases hs
    · cases hs
  | finish =>
    simp only [step] at hs
    split at hs
    · rename_i hph
      cases hs
      refine ⟨fun _ => hg.main (Or.inl ⟨_, _, hph⟩), by simp, ?_⟩
      intro _ p hp
      rcases hg.ending _ _ hph p hp with h' | h' | h'
      · cases h'
      · cases h'
      · exact h'
    · cases hs

theorem inv_run {es : List Ev} : ∀ {s t : S}, WF s → Own s → Going s → run s es = some t → WF t ∧ Own t ∧ Going t := by
  induction es with
  | nil => intro s t a b c hr; cases hr; exact ⟨a, b, c⟩
  | cons e es ih =>
    intro s t a b c hr
    unfold run at hr
    cases h1 : step s e with
    | none => rw [h1] at hr; cases hr
    | some u =>
      rw [h1] at hr
      exact ih (later_step a h1).wf (own_step a b h1) (going_step a b c h1) hr

/-- nothing was killed yet -/
def Start (s : S) : Prop := WF s ∧ s.phase = .idle ∧ s.found = [] ∧ s.hit = []

theorem start_inv {s : S} (h : Start s) : WF s ∧ Own s ∧ Going s := by
  obtain ⟨h, h2, h3, h4⟩ := h
  refine ⟨h, ⟨by simp [h3], by simp [h4], by simp [h2], by simp [h2]⟩, ⟨by simp [h2], by simp [h2], by simp [h2]⟩⟩

/-! ## Properties -/

/-- **C130**: whatever processes do meanwhile, a kill sends signals to nothing but processes of the job. -/
theorem C130_only_own {s t : S} {es : List Ev} (h : Start s) (hr : run s es = some t) : ∀ p ∈ t.hit, isMine t.procs p := by
  obtain ⟨a, b, c⟩ := start_inv h
  exact (inv_run a b c hr).2.1.hit

/-- **C130**: when a kill is over, the command and all processes that were found are dead, and stay so. -/
theorem C130_found_dead {s t : S} {es : List Ev} (h : Start s) (hr : run s es = some t) (hd : t.phase = .done) :
    ¬ living t.procs t.main ∧ ∀ p ∈ t.found, ¬ living t.procs p := by
  obtain ⟨a, b, c⟩ := start_inv h
  obtain ⟨_, _, g⟩ := inv_run a b c hr
  exact ⟨g.main (Or.inr hd), g.done hd⟩

theorem run_append {es fs : List Ev} : ∀ {s t : S}, run s (es ++ fs) = some t → ∃ u, run s es = some u ∧ run u fs = some t := by
  induction es with
  | nil => intro s t h; exact ⟨s, rfl, h⟩
  | cons e es ih =>
    intro s t h
    simp only [List.cons_append, run] at h ⊢
    cases h1 : step s e with
    | none => rw [h1] at h; cases h
    | some u =>
      rw [h1] at h
      exact ih h

/-- the children of processes of the job are those they were, at least -/
def Stays (s0 s : S) : Prop := ∀ q p, isMine s0.procs q → p ∈ kids s0.procs q → p ∈ kids s.procs q

/-- what is looked for: found, or below one that has still to be asked -/
def Covers (s0 s : S) : Prop := ∀ l, s.phase = .listing l → ∀ p, Desc s0.procs s0.main p →
  p ∈ s.found ∨ ∃ q ∈ l, isMine s0.procs q ∧ Desc s0.procs q p

theorem stays_step {s0 s t : S} {e : Ev} (h0 : WF s0) (h : WF s) (hm : ∀ p, isMine s0.procs p → isMine s.procs p) (hq : quiet s e = true)
    (hst : Stays s0 s) (hs : step s e = some t) (hne : ∃ l, t.phase = .listing l) : Stays s0 t := by
  cases e with
  | fork p =>
    simp only [step] at hs
    split at hs
    · split at hs
      · cases hs
        intro q p hq hp
        obtain ⟨x, hx, e⟩ := mem_kids.mp (hst q p hq hp)
        exact mem_kids.mpr ⟨x, by simp [hx], e⟩
      · cases hs
    · cases hs
  | exit p =>
    have hnm : ¬ isMine s.procs p := by simpa [quiet] using hq
    simp only [step] at hs
    split at hs
    · cases hs
      intro q r hq' hr
      have hq2 := hm q hq'
      obtain ⟨x, hx, e1, e2, e3⟩ := mem_kids.mp (hst q r hq' hr)
      have hr2 : isMine s.procs r := hm r (kid_mine h0 hq' hr)
      refine mem_kids.mpr ⟨_, die_mem.mpr ⟨x, hx, rfl⟩, e1, ?_, ?_⟩
      · have : ¬ x.parent = p := fun e => hnm (by rw [← e, e2]; exact hq2)
        simp only; rw [if_neg this]; exact e2
      · have : ¬ x.pid = p := fun e => hnm (by rw [← e, e1]; exact hr2)
        simp only; rw [if_neg this]; exact e3
    · cases hs
  | start =>
    simp only [step] at hs
    split at hs
    · cases hs; exact hst
    · cases hs
  | query =>
    simp only [step] at hs
    split at hs
    · cases hs; exact hst
    · cases hs
  | killMain =>
    obtain ⟨l, hl⟩ := hne
    simp only [step] at hs
    split at hs
    · cases hs; cases hl
    · cases hs
  | term dies =>
    obtain ⟨l, hl⟩ := hne
    simp only [step] at hs
    split at hs
    · cases hs; cases hl
    · cases hs
  | kill i =>
    obtain ⟨l, hl⟩ := hne
    simp only [step] at hs
    split at hs
    · split at hs
      · cases hs; cases hl
      · cases hs
    · cases hs
  | finish =>
    obtain ⟨l, hl⟩ := hne
    simp only [step] at hs
    split at hs
    · cases hs; cases hl
    · cases hs

theorem desc_mine {s : S} (h : WF s) {q p : Nat} (hd : Desc s.procs q p) : isMine s.procs q → isMine s.procs p := by
  induction hd with
  | child hk => exact fun hq => kid_mine h hq hk
  | more hk _ ih => exact fun hq => ih (kid_mine h hq hk)

theorem covers_step {s0 s t : S} {e : Ev} (h0 : WF s0) (hst : Stays s0 s) (hc : Covers s0 s) (hmain : s.main = s0.main)
    (hs : step s e = some t) : Covers s0 t := by
  have keep : t.found = s.found → t.phase = s.phase → Covers s0 t := by
    intro h1 h2 l hl p hp
    rw [h1]
    rw [h2] at hl
    exact hc l hl p hp
  cases e with
  | fork p =>
    simp only [step] at hs
    split at hs
    · split at hs
      · cases hs; exact keep rfl rfl
      · cases hs
    · cases hs
  | exit p =>
    simp only [step] at hs
    split at hs
    · cases hs; exact keep rfl rfl
    · cases hs
  | start =>
    simp only [step] at hs
    split at hs
    · cases hs
      intro l hl p hp
      cases hl
      exact Or.inr ⟨s.main, by simp, by rw [hmain]; exact h0.main, by rw [hmain]; exact hp⟩
    · cases hs
  | query =>
    simp only [step] at hs
    split at hs
    · rename_i q tl hph
      cases hs
      intro l hl p hp
      cases hl
      rcases hc _ hph p hp with h | ⟨r, hr, hrm, hd⟩
      · exact Or.inl (by simp [h])
      · rcases List.mem_cons.mp hr with rfl | hr
        · cases hd with
          | child hk => exact Or.inl (by simp [hst _ _ hrm hk])
          | more hk hd' =>
            exact Or.inr ⟨_, List.mem_append.mpr (Or.inl (hst _ _ hrm hk)), kid_mine h0 hrm hk, hd'⟩
        · exact Or.inr ⟨r, by simp [hr], hrm, hd⟩
    · cases hs
  | killMain =>
    simp only [step] at hs
    split at hs
    · cases hs; intro l hl; cases hl
    · cases hs
  | term dies =>
    simp only [step] at hs
    split at hs
    · cases hs; intro l hl; cases hl
    · cases hs
  | kill i =>
    simp only [step] at hs
    split at hs
    · split at hs
      · cases hs; intro l hl; cases hl
      · cases hs
    · cases hs
  | finish =>
    simp only [step] at hs
    split at hs
    · cases hs; intro l hl; cases hl
    · cases hs

/-- once a kill has gone on to signals, it doesn't list any more -/
theorem listing_back {s t : S} {e : Ev} (hs : step s e = some t) (hl : ∃ l, t.phase = .listing l) :
    (∃ l, s.phase = .listing l) ∨ s.phase = .idle := by
  obtain ⟨l, hl⟩ := hl
  cases hp : s.phase with
  | idle => exact Or.inr rfl
  | listing l => exact Or.inl ⟨l, rfl⟩
  | ending a b =>
    exfalso
    cases e <;> simp only [step, hp] at hs <;> (repeat' split at hs) <;> cases hs <;> simp_all
  | done =>
    exfalso
    cases e <;> simp only [step, hp] at hs <;> (repeat' split at hs) <;> cases hs <;> simp_all

theorem listing_run {s0 : S} (h0 : WF s0) : ∀ {es : List Ev} {s t : S}, Later s0 s → ((∃ l, s.phase = .listing l) ∨ s.phase = .idle → Stays s0 s) →
    Covers s0 s → along quiet s es = true → run s es = some t → ((∃ l, t.phase = .listing l) ∨ t.phase = .idle → Stays s0 t) ∧ Covers s0 t
  | [], s, t, hl, hst, hc, ha, hr => by cases hr; exact ⟨hst, hc⟩
  | e :: es, s, t, hl, hst, hc, ha, hr => by
    unfold run at hr
    unfold along at ha
    cases h1 : step s e with
    | none => rw [h1] at hr; cases hr
    | some u =>
      rw [h1] at hr ha
      simp only [Bool.and_eq_true] at ha
      have hlu := later_step hl.wf h1
      refine listing_run h0 (hl.trans hlu) ?_ ?_ ha.2 hr
      · rintro (hu | hu)
        · exact stays_step h0 hl.wf hl.mine ha.1 (hst (listing_back h1 hu)) h1 hu
        · -- still idle
          have hs : s.phase = .idle := by
            cases hp : s.phase with
            | idle => rfl
            | listing l =>
              exfalso
              cases e <;> simp only [step, hp] at h1 <;> (repeat' split at h1) <;> cases h1 <;> simp_all
            | ending a b =>
              exfalso
              cases e <;> simp only [step, hp] at h1 <;> (repeat' split at h1) <;> cases h1 <;> simp_all
            | done =>
              exfalso
              cases e <;> simp only [step, hp] at h1 <;> (repeat' split at h1) <;> cases h1 <;> simp_all
          have hst' := hst (Or.inr hs)
          cases e with
          | fork p =>
            simp only [step] at h1
            split at h1
            · split at h1
              · cases h1
                intro q p hq hp
                obtain ⟨x, hx, e⟩ := mem_kids.mp (hst' q p hq hp)
                exact mem_kids.mpr ⟨x, by simp [hx], e⟩
              · cases h1
            · cases h1
          | exit p =>
            have hnm : ¬ isMine s.procs p := by simpa [quiet] using ha.1
            simp only [step] at h1
            split at h1
            · cases h1
              intro q r hq' hr'
              have hq2 := hl.mine q hq'
              obtain ⟨x, hx, e1, e2, e3⟩ := mem_kids.mp (hst' q r hq' hr')
              have hr2 : isMine s.procs r := hl.mine r (kid_mine h0 hq' hr')
              refine mem_kids.mpr ⟨_, die_mem.mpr ⟨x, hx, rfl⟩, e1, ?_, ?_⟩
              · have : ¬ x.parent = p := fun e => hnm (by rw [← e, e2]; exact hq2)
                simp only; rw [if_neg this]; exact e2
              · have : ¬ x.pid = p := fun e => hnm (by rw [← e, e1]; exact hr2)
                simp only; rw [if_neg this]; exact e3
            · cases h1
          | start => simp only [step, hs] at h1; cases h1; cases hu
          | query => simp only [step, hs] at h1; cases h1
          | killMain => simp only [step, hs] at h1; cases h1
          | term d => simp only [step, hs] at h1; cases h1
          | kill i => simp only [step, hs] at h1; cases h1
          | finish => simp only [step, hs] at h1; cases h1
      · by_cases hcase : (∃ l, s.phase = .listing l) ∨ s.phase = .idle
        · exact covers_step h0 (hst hcase) hc hl.main h1
        · intro l hul
          exact absurd (listing_back h1 ⟨l, hul⟩) hcase

/-- **C130**, as far as it is so: if no process of the job makes another or ends while they are looked for - other processes may do
what they like, and all may afterwards - then when the kill is over the command and every process that descended from it when the kill
began is dead. -/
theorem C130_killed_partial {s t : S} {es fs : List Ev} (h : Start s) (hr : run s (es ++ .killMain :: fs) = some t)
    (hq : along quiet s es = true) (hd : t.phase = .done) :
    ¬ living t.procs s.main ∧ ∀ p, Desc s.procs s.main p → ¬ living t.procs p := by
  obtain ⟨a, b, c⟩ := start_inv h
  obtain ⟨u, h1, h2⟩ := run_append hr
  obtain ⟨wu, ou, gu⟩ := inv_run a b c h1
  have hlr := listing_run a (s0 := s) (s := s) ⟨a, rfl, Nat.le_refl _, fun _ h => h, fun _ _ h => h⟩ (fun _ _ _ _ h => h)
    (by intro l hl; rw [h.2.1] at hl; cases hl) hq h1
  unfold run at h2
  cases h3 : step u .killMain with
  | none => rw [h3] at h2; cases h2
  | some v =>
    rw [h3] at h2
    have hfd := C130_found_dead h hr hd
    have hml := (later_run a hr).main
    refine ⟨by rw [← hml]; exact hfd.1, ?_⟩
    intro p hp
    -- found when the signals begin
    have hph : u.phase = .listing [] := by
      simp only [step] at h3
      split at h3
      · assumption
      · cases h3
    have hf : p ∈ u.found := by
      rcases hlr.2 _ hph p hp with h' | ⟨q, hq, _⟩
      · exact h'
      · cases hq
    have hv : v.found = u.found ∧ ∃ x y, v.phase = .ending x y := by
      simp only [step, hph] at h3
      cases h3
      exact ⟨rfl, _, _, rfl⟩
    -- and found does not change after that
    have key : ∀ (fs : List Ev) (v w : S), ((∃ x y, v.phase = .ending x y) ∨ v.phase = .done) → run v fs = some w → w.found = v.found := by
      intro fs
      induction fs with
      | nil => intro v w _ hr; cases hr; rfl
      | cons e es ih =>
        intro v w hv hr
        unfold run at hr
        cases h1 : step v e with
        | none => rw [h1] at hr; cases hr
        | some x =>
          rw [h1] at hr
          have : x.found = v.found ∧ ((∃ a b, x.phase = .ending a b) ∨ x.phase = .done) := by
            rcases hv with ⟨x1, y1, hv⟩ | hv <;> cases e <;> simp only [step, hv] at h1 <;> (repeat' split at h1) <;> cases h1 <;> simp_all
          rw [ih x w this.2 hr, this.1]
    have := key fs v t (Or.inl hv.2) h2
    exact hfd.2 p (by rw [this, hv.1]; exact hf)

/-- no new processes of the job -/
theorem own_same {es : List Ev} : ∀ {s t : S}, WF s → along noOwnFork s es = true → run s es = some t →
    ∀ p, isMine t.procs p → living t.procs p → isMine s.procs p ∧ living s.procs p := by
  induction es with
  | nil => intro s t _ _ hr p h1 h2; cases hr; exact ⟨h1, h2⟩
  | cons e es ih =>
    intro s t hw ha hr p h1 h2
    unfold run at hr
    unfold along at ha
    cases hs : step s e with
    | none => rw [hs] at hr; cases hr
    | some u =>
      rw [hs] at hr ha
      simp only [Bool.and_eq_true] at ha
      obtain ⟨m1, m2⟩ := ih (later_step hw hs).wf ha.2 hr p h1 h2
      have died : ∀ q, u.procs = die s.procs q → isMine s.procs p ∧ living s.procs p := by
        intro q hq
        rw [hq] at m1 m2
        exact ⟨die_isMine.mp m1, (die_living.mp m2).1⟩
      have same : u.procs = s.procs → isMine s.procs p ∧ living s.procs p := by
        intro hq
        rw [hq] at m1 m2
        exact ⟨m1, m2⟩
      cases e with
      | fork q =>
        have hnm : ¬ isMine s.procs q := by simpa [noOwnFork] using ha.1
        simp only [step] at hs
        split at hs
        · rename_i x hf
          split at hs
          · cases hs
            have hxm := List.mem_of_find?_eq_some hf
            have hxp : x.pid = q := by simpa using List.find?_some hf
            have hx : x.mine = false := by
              cases hx : x.mine with
              | false => rfl
              | true => exact absurd ⟨x, hxm, hxp, hx⟩ hnm
            obtain ⟨y, hy, e1, e2⟩ := m1
            simp only [List.mem_append, List.mem_singleton] at hy
            rcases hy with hy | rfl
            · refine ⟨⟨y, hy, e1, e2⟩, ?_⟩
              obtain ⟨z, hz, f1, f2⟩ := m2
              simp only [List.mem_append, List.mem_singleton] at hz
              rcases hz with hz | rfl
              · exact ⟨z, hz, f1, f2⟩
              · have := (hw.lt y hy).1
                simp only at f1
                omega
            · simp only at e2
              rw [hx] at e2
              cases e2
          · cases hs
        · cases hs
      | exit q =>
        simp only [step] at hs
        split at hs
        · cases hs; exact died q rfl
        · cases hs
      | start =>
        simp only [step] at hs
        split at hs
        · cases hs; exact same rfl
        · cases hs
      | query =>
        simp only [step] at hs
        split at hs
        · cases hs; exact same rfl
        · cases hs
      | killMain =>
        simp only [step] at hs
        split at hs
        · cases hs; exact died s.main rfl
        · cases hs
      | term dies =>
        simp only [step] at hs
        split at hs
        · rename_i q tt k _
          cases hs
          cases dies
          · exact same (by simp)
          · exact died q (by simp)
        · cases hs
      | kill i =>
        simp only [step] at hs
        split at hs
        · split at hs
          · rename_i q _
            cases hs; exact died q rfl
          · cases hs
        · cases hs
      | finish =>
        simp only [step] at hs
        split at hs
        · cases hs; exact same rfl
        · cases hs

/-- **C130**, as far as it is so: if moreover no process of the job makes another during the kill, and none has become an orphan before
it, then no process of the job is left when it is over. -/
theorem C130_none_left_partial {s t : S} {es fs : List Ev} (h : Start s) (hr : run s (es ++ .killMain :: fs) = some t)
    (hq : along quiet s es = true) (hf : along noOwnFork s (es ++ .killMain :: fs) = true)
    (ho : ∀ p, isMine s.procs p → living s.procs p → p = s.main ∨ Desc s.procs s.main p) (hd : t.phase = .done) :
    ∀ p, isMine t.procs p → ¬ living t.procs p := by
  intro p hm hl
  obtain ⟨m1, m2⟩ := own_same h.1 hf hr p hm hl
  obtain ⟨k1, k2⟩ := C130_killed_partial h hr hq hd
  rcases ho p m1 m2 with rfl | hp
  · exact k1 hl
  · exact k2 p hp hl

/-- **C130**: a kill never stands still: until it is over one of its steps can be done. -/
theorem C130_goes_on (s : S) : s.phase = .idle ∨ s.phase = .done ∨
    ∃ e ∈ [Ev.query, Ev.killMain, Ev.term false, Ev.kill 0, Ev.finish], (step s e).isSome = true := by
  cases hp : s.phase with
  | idle => exact Or.inl rfl
  | done => exact Or.inr (Or.inl rfl)
  | listing l =>
    refine Or.inr (Or.inr ?_)
    cases l with
    | nil => exact ⟨.killMain, by simp, by simp [step, hp]⟩
    | cons a l => exact ⟨.query, by simp, by simp [step, hp]⟩
  | ending a b =>
    refine Or.inr (Or.inr ?_)
    cases a with
    | cons x a => exact ⟨.term false, by simp, by simp [step, hp]⟩
    | nil =>
      cases b with
      | nil => exact ⟨.finish, by simp, by simp [step, hp]⟩
      | cons y b => exact ⟨.kill 0, by simp, by simp [step, hp]⟩

/-- how many steps a kill has still to do, once it sends signals -/
def left (s : S) : Nat :=
  match s.phase with
  | .ending a b => 2 * a.length + b.length + 1
  | _ => 0

/-- **C130**: and once it sends signals it is over after two steps for each process found: nothing else makes it longer, and each of its own
steps makes it shorter. -/
theorem C130_ends {s t : S} {e : Ev} (h : ∃ a b, s.phase = .ending a b) (hs : step s e = some t) :
    left t ≤ left s ∧ ((∃ p, e = .fork p) ∨ (∃ p, e = .exit p) ∨ left t < left s) := by
  obtain ⟨a, b, hp⟩ := h
  cases e with
  | fork p =>
    simp only [step] at hs
    split at hs
    · split at hs
      · cases hs; exact ⟨Nat.le_refl _, Or.inl ⟨p, rfl⟩⟩
      · cases hs
    · cases hs
  | exit p =>
    simp only [step] at hs
    split at hs
    · cases hs; exact ⟨Nat.le_refl _, Or.inr (Or.inl ⟨p, rfl⟩)⟩
    · cases hs
  | start => simp only [step, hp] at hs; cases hs
  | query => simp only [step, hp] at hs; cases hs
  | killMain => simp only [step, hp] at hs; cases hs
  | term d =>
    simp only [step, hp] at hs
    cases a with
    | nil => cases hs
    | cons x a =>
      cases hs
      simp [left, hp]
      omega
  | kill i =>
    simp only [step, hp] at hs
    split at hs
    · rename_i p hk
      cases hs
      have hlt := (List.getElem?_eq_some_iff.mp hk).1
      have := List.length_eraseIdx_of_lt hlt
      simp [left, hp]
      omega
    · cases hs
  | finish =>
    simp only [step, hp] at hs
    split at hs
    · cases hs
      simp [left, hp]
    · cases hs

/-! ## A concrete case, and what is not so -/

/-- a shell (10) that runs a program (11), which has two others (12, 13); and something else (20) -/
def tree : S where
  procs := [⟨1, 0, true, false⟩, ⟨5, 1, true, false⟩, ⟨10, 5, true, true⟩, ⟨11, 10, true, true⟩, ⟨12, 11, true, true⟩, ⟨13, 11, true, true⟩,
    ⟨20, 1, true, false⟩]
  next := 21
  main := 10
  phase := .idle
  found := []
  hit := []

theorem tree_start : Start tree := by
  refine ⟨⟨by decide, by decide, by decide, by decide, by decide, by decide⟩, rfl, rfl, rfl⟩

/-- the others go on; the kill -/
def killIt : List Ev := [.start, .fork 20, .query, .query, .exit 20, .query, .query]
def signals : List Ev := [.term true, .term false, .kill 1, .term false, .kill 0, .kill 0, .finish]

example : along quiet tree killIt = true ∧ along noOwnFork tree (killIt ++ .killMain :: signals) = true ∧
    ((run tree (killIt ++ .killMain :: signals)).map (fun t => (t.phase, (t.procs.filter (·.alive)).map (·.pid), t.hit))) =
    some (.done, [1, 5, 21], [13, 11, 13, 12, 12, 11, 10]) := by decide

example : Desc tree.procs tree.main 13 := .more (r := 11) (by decide) (.child (by decide))

/-- **C130** is not so: a process of the job that makes another while the kill is going on. -/
theorem C130_violated_fork : ((run tree (killIt ++ .killMain :: .fork 13 :: signals)).map (fun t =>
    (t.phase, (t.procs.filter (fun x => x.alive && x.mine)).map (·.pid)))) = some (.done, [22]) := by decide

/-- **C130** is not so: a process that ends while the others are looked for: its children are not found. -/
theorem C130_violated_exit : ((run tree [.start, .query, .exit 11, .query, .killMain, .term true, .kill 0, .finish]).map (fun t =>
    (t.phase, (t.procs.filter (fun x => x.alive && x.mine)).map (·.pid)))) = some (.done, [12, 13]) := by decide

/-- **C130** is not so: a process whose parent ended before (as that of a command put in the background by a shell that ended). -/
theorem C130_violated_orphan : ((run tree [.exit 11, .start, .query, .killMain, .finish]).map (fun t =>
    (t.phase, (t.procs.filter (fun x => x.alive && x.mine)).map (·.pid)))) = some (.done, [12, 13]) := by decide

/-- **C130** is not so: if the server can't be told of the start, only the shell is killed; what it started goes on, and the job will be
run again. -/
theorem C130_violated_started : ((killOnly tree).procs.filter (fun x => x.alive && x.mine)).map (·.pid) = [11, 12, 13] := by decide

end Verif.Client.Kill
