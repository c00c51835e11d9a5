import Verif.Cloud.ServerProps
/-!
# C46: a server is not destroyed for being idle while it is in use
# C69: a server that became idle is destroyed in the end
-/
namespace Verif.Cloud

/-- What C46 needs of a step: commands need a core or memory; a server that has begun to be destroyed is given no new
command; and Go does not choose the timer if a cancellation waits. -/
def Calm (s : St) : Ev → Prop
  | .allocate r => r.Sensible ∧ (0 < r.cores ∨ 0 < r.ram) ∧ Phase.timeUp ∉ s.srv.rows ∧ Phase.dying ∉ s.srv.rows
  | .timeUp _ => s.srv.cancels = 0
  | _ => True

/-- What C69 needs of a step: sensible requirements, and nothing is released while a cancellation is being dealt with. -/
def Slow (s : St) : Ev → Prop
  | .allocate r => r.Sensible
  | .release _ => s.srv.cancels = 0
  | _ => True

/-- `P` holds at each step of the history -/
def Along (P : St → Ev → Prop) : St → List Ev → Prop
  | _, [] => True
  | s, e :: h => P s e ∧ ∀ s', step s e = some s' → Along P s' h

/-- specification: no goroutine has anything left to do; only a user can act -/
def Settled (s : St) : Prop := ∀ e s', step s e = some s' → (∃ r, e = .allocate r) ∨ ∃ i, e = .release i

/-! ### Rows -/

def Phase.live : Phase → Bool
  | .dying => false
  | _ => true

private theorem countP_erase {α : Type} (p : α → Bool) : ∀ (l : List α) (i : Nat) (a : α), l[i]? = some a →
    (l.eraseIdx i).countP p + (if p a then 1 else 0) = l.countP p
  | [], _, _, h => by simp at h
  | x :: l, 0, a, h => by simp at h; subst h; simp [List.countP_cons]
  | x :: l, i + 1, a, h => by
    simp only [List.getElem?_cons_succ] at h
    have := countP_erase p l i a h
    simp only [List.eraseIdx_cons_succ, List.countP_cons]; omega

private theorem countP_set' {α : Type} (p : α → Bool) (b : α) : ∀ (l : List α) (i : Nat) (a : α), l[i]? = some a →
    (l.set i b).countP p + (if p a then 1 else 0) = l.countP p + (if p b then 1 else 0)
  | [], _, _, h => by simp at h
  | x :: l, 0, a, h => by simp at h; subst h; simp [List.countP_cons]; omega
  | x :: l, i + 1, a, h => by
    simp only [List.getElem?_cons_succ] at h
    have := countP_set' p b l i a h
    simp only [List.set_cons_succ, List.countP_cons]; omega

private theorem mem_erase_of_ne {α : Type} {x a : α} : ∀ {l : List α} {i : Nat}, l[i]? = some a → x ≠ a → x ∈ l → x ∈ l.eraseIdx i
  | [], _, h, _, _ => by simp at h
  | y :: l, 0, h, hne, hx => by
    simp at h; subst h
    rcases List.mem_cons.1 hx with e | e
    · exact absurd e hne
    · exact e
  | y :: l, i + 1, h, hne, hx => by
    simp only [List.getElem?_cons_succ] at h
    simp only [List.eraseIdx_cons_succ]
    rcases List.mem_cons.1 hx with e | e
    · subst e; simp
    · exact List.mem_cons_of_mem _ (mem_erase_of_ne h hne e)

private theorem mem_set_of_ne {α : Type} {x a b : α} : ∀ {l : List α} {i : Nat}, l[i]? = some a → x ≠ a → x ∈ l → x ∈ l.set i b
  | [], _, h, _, _ => by simp at h
  | y :: l, 0, h, hne, hx => by
    simp at h; subst h
    rcases List.mem_cons.1 hx with e | e
    · exact absurd e hne
    · exact List.mem_cons_of_mem _ e
  | y :: l, i + 1, h, hne, hx => by
    simp only [List.getElem?_cons_succ] at h
    simp only [List.set_cons_succ]
    rcases List.mem_cons.1 hx with e | e
    · subst e; simp
    · exact List.mem_cons_of_mem _ (mem_set_of_ne h hne e)

private theorem mem_set_self {α : Type} {a b : α} {l : List α} {i : Nat} (h : l[i]? = some a) : b ∈ l.set i b := by
  have hi : i < l.length := (List.getElem?_eq_some_iff.1 h).1
  exact List.mem_iff_getElem.2 ⟨i, by simpa using hi, by simp⟩

private theorem not_live {l : List Phase} (h : l.countP Phase.live = 0) {p : Phase} (hp : p ∈ l) : p = .dying := by
  have := List.countP_eq_zero.1 h p hp
  cases p <;> simp [Phase.live] at this ⊢

private theorem sum_nonneg {g : Req → Int} : ∀ {l : List Req}, (∀ r ∈ l, 0 ≤ g r) → 0 ≤ (l.map g).sum
  | [], _ => by simp
  | a :: l, h => by
    have := sum_nonneg (l := l) fun r hr => h r (List.mem_cons_of_mem _ hr)
    have := h a (by simp)
    simp only [List.map_cons, List.sum_cons]; omega

private theorem sum_zero {g : Req → Int} : ∀ {l : List Req}, (∀ r ∈ l, 0 ≤ g r) → (l.map g).sum ≤ 0 → ∀ r ∈ l, g r = 0
  | [], _, _ => by simp
  | a :: l, h, hs => by
    have h1 := sum_nonneg (l := l) fun r hr => h r (List.mem_cons_of_mem _ hr)
    have h2 := h a (by simp)
    simp only [List.map_cons, List.sum_cons] at hs
    intro r hr
    rcases List.mem_cons.1 hr with e | e
    · subst e; omega
    · exact sum_zero (fun r hr => h r (List.mem_cons_of_mem _ hr)) (by omega) r e

/-- what all histories keep: at most one goroutine holds the server on death row -/
structure Row (s : St) : Prop where
  one : s.srv.rows.countP Phase.live = if s.srv.onDeathrow then 1 else 0
  nonneg : 0 ≤ s.srv.cancels

/-- `Allocate` and the rows -/
private theorem allocate_row {s s' : Srv} {r : Req} (h : allocate s r = (s', true)) :
    s.destroyed = false ∧ s'.rows = s.rows ∧ s'.onDeathrow = s.onDeathrow ∧ s'.idlers = s.idlers ∧ s'.destroyed = s.destroyed ∧
    s'.ttd = s.ttd ∧ s'.cancels = s.cancels + (if s.onDeathrow then 1 else 0) := by
  unfold allocate at h
  split at h
  · simp at h
  · rename_i hn
    have hd : s.destroyed = false := by
      cases hd : s.destroyed with
      | false => rfl
      | true => exact absurd (by unfold checkSpace; simp [hd]) hn
    simp only [Prod.mk.injEq, and_true] at h
    subst h
    by_cases hz : r.cores = 0
    · simp only [hz, if_true]
      cases s.onDeathrow <;> simp [hd]
    · simp only [hz, if_false]
      cases s.onDeathrow <;> simp [hd]

private theorem release_row (s : Srv) (r : Req) : (release s r).rows = s.rows ∧ (release s r).onDeathrow = s.onDeathrow ∧
    (release s r).cancels = s.cancels ∧ (release s r).destroyed = s.destroyed ∧ (release s r).ttd = s.ttd ∧
    (release s r).idlers = s.idlers + (if (release s r).usedCores ≤ 0 ∧ (release s r).usedZeroCores ≤ 0 ∧ (release s r).usedRAM ≤ 0 ∧ s.ttd then 1 else 0) := by
  unfold release
  by_cases hz : r.cores = 0
  · simp only [hz, if_true]; split <;> rename_i hc <;> simp only [hc] <;> simp <;> simp at hc <;> simp [hc]
  · simp only [hz, if_false]; split <;> rename_i hc <;> simp only [hc] <;> simp <;> simp at hc <;> simp [hc]

theorem Row.step {s s' : St} {e : Ev} (b : Row s) (h : step s e = some s') : Row s' := by
  obtain ⟨b1, b2⟩ := b
  cases e with
  | allocate r =>
    simp only [Cloud.step] at h
    split at h
    · rename_i srv ha
      injection h with h; subst h
      obtain ⟨_, h1, h2, _, _, _, h3⟩ := allocate_row ha
      refine ⟨by simp only [h1, h2]; exact b1, ?_⟩
      simp only [h3]; split <;> omega
    · injection h with h; subst h; exact ⟨b1, b2⟩
  | release i =>
    simp only [Cloud.step] at h
    split at h
    · rename_i r hr
      injection h with h; subst h
      obtain ⟨h1, h2, h3, _, _, _⟩ := release_row s.srv r
      exact ⟨by simp only [h1, h2]; exact b1, by simp only [h3]; exact b2⟩
    · cases h
  | enter =>
    simp only [Cloud.step] at h
    split at h
    · cases h
    · split at h
      · injection h with h; subst h; exact ⟨b1, b2⟩
      · rename_i ho
        split at h
        · injection h with h; subst h; exact ⟨b1, b2⟩
        · injection h with h; subst h
          refine ⟨?_, b2⟩
          simp only [List.countP_append, b1, ho]; rfl
  | cancel i =>
    simp only [Cloud.step] at h
    split at h
    · rename_i hc
      injection h with h; subst h
      refine ⟨?_, b2⟩
      have := countP_set' Phase.live .cancelled _ _ _ hc.1
      simp only [Phase.live, if_true] at this
      simp only []; rw [← b1]; omega
    · cases h
  | cancelled i =>
    simp only [Cloud.step] at h
    split at h
    · rename_i hc
      injection h with h; subst h
      refine ⟨?_, by simp⟩
      have := countP_erase Phase.live _ _ _ hc
      simp only [Phase.live, if_true] at this
      simp only [Bool.false_eq_true, if_false]
      split at b1 <;> omega
    · cases h
  | timeUp i =>
    simp only [Cloud.step] at h
    split at h
    · rename_i hc
      injection h with h; subst h
      refine ⟨?_, b2⟩
      have := countP_set' Phase.live .timeUp _ _ _ hc
      simp only [Phase.live, if_true] at this
      simp only []; rw [← b1]; omega
    · cases h
  | mark i =>
    simp only [Cloud.step] at h
    split at h
    · rename_i hc
      injection h with h; subst h
      refine ⟨?_, b2⟩
      have := countP_set' Phase.live .dying _ _ _ hc
      simp only [Phase.live, if_true, Bool.false_eq_true, if_false] at this
      simp only [Bool.false_eq_true, if_false]
      split at b1 <;> omega
    · cases h
  | destroy i =>
    simp only [Cloud.step] at h
    split at h
    · rename_i hc
      injection h with h; subst h
      refine ⟨?_, b2⟩
      have := countP_erase Phase.live _ _ _ hc
      simp only [Phase.live, Bool.false_eq_true, if_false] at this
      simp only []; rw [← b1]; omega
    · cases h

/-! ### C46 -/

/-- the invariant of C46 -/
structure Idle (s : St) : Prop where
  hungry : ∀ r ∈ s.out, 0 < r.cores ∨ 0 < r.ram
  none : s.srv.onDeathrow = false → s.srv.cancels = 0
  waits : .waiting ∈ s.srv.rows → s.srv.cancels = 0 → s.out = []
  up : .timeUp ∈ s.srv.rows → s.srv.cancels = 0 ∧ s.out = []
  dying : .dying ∈ s.srv.rows → s.out = []
  dead : s.srv.destroyed = true → s.out = []

private theorem live_of {s : St} (b : Row s) {p : Phase} (hp : p ∈ s.srv.rows) (hl : p.live = true) : s.srv.onDeathrow = true := by
  cases ho : s.srv.onDeathrow with
  | true => rfl
  | false =>
    have h1 := b.one
    rw [ho] at h1
    simp only [Bool.false_eq_true, if_false] at h1
    rw [not_live h1 hp] at hl
    simp [Phase.live] at hl

private theorem erase_nil {l : List Req} {i : Nat} (h : l = []) : l.eraseIdx i = [] := by subst h; simp

private theorem mem_of_set {b x : Phase} {l : List Phase} {i : Nat} (h : x ∈ l.set i b) (hx : x ≠ b) : x ∈ l := by
  rcases List.mem_or_eq_of_mem_set h with h | h
  · exact h
  · exact absurd h hx

theorem Idle.step {f d} {s s' : St} {e : Ev} (b : Books f d s) (w : Row s) (n : Idle s) (he : Calm s e) (h : step s e = some s') : Idle s' := by
  have w' := w.step h
  obtain ⟨n1, n2, n3, n4, n5, n6⟩ := n
  cases e with
  | allocate r =>
    simp only [Cloud.step] at h
    split at h
    · rename_i srv ha
      injection h with h; subst h
      obtain ⟨h0, h1, h2, _, h4, _, h3⟩ := allocate_row ha
      obtain ⟨_, e1, e2, e3⟩ := he
      refine ⟨?_, ?_, ?_, ?_, ?_, ?_⟩
      · intro x hx
        rcases List.mem_append.1 hx with hx | hx
        · exact n1 x hx
        · simp at hx; subst hx; exact e1
      · simp only [h2, h3]; intro ho; simp [ho, n2 ho]
      · simp only [h1, h3]
        intro hw hc
        have ho := live_of w hw rfl
        simp only [ho, if_true] at hc
        have := w.nonneg
        omega
      · simp only [h1]; intro hx; exact absurd hx e2
      · simp only [h1]; intro hx; exact absurd hx e3
      · simp only [h4, h0]; simp
    · injection h with h; subst h; exact ⟨n1, n2, n3, n4, n5, n6⟩
  | release i =>
    simp only [Cloud.step] at h
    split at h
    · rename_i r hr
      injection h with h; subst h
      obtain ⟨h1, h2, h3, h4, _, _⟩ := release_row s.srv r
      refine ⟨fun x hx => n1 x (List.mem_of_mem_eraseIdx hx), by simp only [h2, h3]; exact n2, ?_, ?_, ?_, ?_⟩
      · simp only [h1, h3]; intro a c; exact erase_nil (n3 a c)
      · simp only [h1, h3]; intro a; exact ⟨(n4 a).1, erase_nil (n4 a).2⟩
      · simp only [h1]; intro a; exact erase_nil (n5 a)
      · simp only [h4]; intro a; exact erase_nil (n6 a)
    · cases h
  | enter =>
    simp only [Cloud.step] at h
    split at h
    · cases h
    · split at h
      · injection h with h; subst h; exact ⟨n1, n2, n3, n4, n5, n6⟩
      · rename_i ho
        split at h
        · injection h with h; subst h; exact ⟨n1, n2, n3, n4, n5, n6⟩
        · rename_i hu
          injection h with h; subst h
          have hout : s.out = [] := by
            cases ho : s.out with
            | nil => rfl
            | cons a l =>
              have hm : a ∈ s.out := by rw [ho]; simp
              have z1 := sum_zero (g := (·.cores)) (fun r hr => (b.sens r hr).1) (by rw [← b.cores]; have := hu; simp only [not_or] at this; omega) a hm
              have z2 := sum_zero (g := (·.ram)) (fun r hr => (b.sens r hr).2.1) (by rw [← b.ram]; have := hu; simp only [not_or] at this; omega) a hm
              have := n1 a hm
              omega
          refine ⟨n1, by simp, fun _ _ => hout, ?_, ?_, n6⟩
          · intro hx
            rcases List.mem_append.1 hx with hx | hx
            · exact n4 hx
            · simp at hx
          · intro _; exact hout
  | cancel i =>
    simp only [Cloud.step] at h
    split at h
    · rename_i hc
      injection h with h; subst h
      exact ⟨n1, n2, fun hx => n3 (mem_of_set hx (by simp)), fun hx => n4 (mem_of_set hx (by simp)),
        fun hx => n5 (mem_of_set hx (by simp)), n6⟩
    · cases h
  | cancelled i =>
    simp only [Cloud.step] at h
    split at h
    · rename_i hc
      injection h with h; subst h
      have hz := w'.one
      simp only [Bool.false_eq_true, if_false] at hz
      refine ⟨n1, by simp, ?_, ?_, fun hx => n5 (List.mem_of_mem_eraseIdx hx), n6⟩
      · intro hx; have := not_live hz hx; simp at this
      · intro hx; have := not_live hz hx; simp at this
    · cases h
  | timeUp i =>
    simp only [Cloud.step] at h
    split at h
    · rename_i hc
      injection h with h; subst h
      have hw : .waiting ∈ s.srv.rows := List.mem_of_getElem? hc
      exact ⟨n1, n2, fun hx => n3 (mem_of_set hx (by simp)), fun _ => ⟨he, n3 hw he⟩,
        fun hx => n5 (mem_of_set hx (by simp)), n6⟩
    · cases h
  | mark i =>
    simp only [Cloud.step] at h
    split at h
    · rename_i hc
      injection h with h; subst h
      have hz := w'.one
      simp only [Bool.false_eq_true, if_false] at hz
      have hu := n4 (List.mem_of_getElem? hc)
      exact ⟨n1, fun _ => hu.1, fun hx => by (have := not_live hz hx; simp at this), fun hx => by (have := not_live hz hx; simp at this), fun _ => hu.2, n6⟩
    · cases h
  | destroy i =>
    simp only [Cloud.step] at h
    split at h
    · rename_i hc
      injection h with h; subst h
      exact ⟨n1, n2, fun hx => n3 (List.mem_of_mem_eraseIdx hx), fun hx => n4 (List.mem_of_mem_eraseIdx hx),
        fun hx => n5 (List.mem_of_mem_eraseIdx hx), fun _ => n5 (List.mem_of_getElem? hc)⟩
    · cases h

private theorem Calm.sensible {s : St} {e : Ev} (h : Calm s e) : SensibleEv e := by
  cases e <;> simp only [Calm, SensibleEv] at * ; exact h.1

private theorem Slow.sensible {s : St} {e : Ev} (h : Slow s e) : SensibleEv e := by
  cases e <;> simp only [Slow, SensibleEv] at * ; exact h

private theorem Row.fresh (f : Flavor) (d : Int) (t : Bool) : Row (fresh f d t) := ⟨rfl, by simp [Cloud.fresh]⟩

private theorem run_idle {f d} (h : List Ev) : ∀ {s s' : St}, Books f d s → Row s → Idle s → Along Calm s h → run s h = some s' → Idle s' := by
  induction h with
  | nil => intro s s' _ _ n _ hr; simp [run] at hr; subst hr; exact n
  | cons e h ih =>
    intro s s' b w n ha hr
    simp only [run] at hr
    cases hs : Cloud.step s e with
    | none => rw [hs] at hr; cases hr
    | some s1 =>
      rw [hs] at hr
      exact ih (b.step ha.1.sensible hs) (w.step hs) (n.step b w ha.1 hs) (ha.2 s1 hs) hr

/-- C46, for histories in which commands need a core or memory, no allocation is made between the end of the countdown and
the destruction, and Go prefers a cancellation to the timer: a destroyed server has no allocations. Missing: the other
histories, for which it is false (below). -/
theorem C46_partial (f : Flavor) (d : Int) (t : Bool) (h1 : 0 ≤ f.cores) (h2 : 0 ≤ f.ram) (h3 : 0 ≤ d) (h : List Ev) (s : St)
    (hc : Along Calm (fresh f d t) h) (hr : run (fresh f d t) h = some s) (hd : s.srv.destroyed = true) : s.out = [] :=
  (run_idle h (Books.fresh f d t h1 h2 h3) (Row.fresh f d t)
    ⟨by simp [fresh], by simp [fresh], by simp [fresh], by simp [fresh], by simp [fresh], by simp [fresh]⟩ hc hr).dead hd

private def calmB (s : St) : Ev → Bool
  | .allocate r => decide (0 ≤ r.cores ∧ 0 ≤ r.ram ∧ 0 ≤ r.disk) && decide (0 < r.cores ∨ 0 < r.ram) && decide (Phase.timeUp ∉ s.srv.rows) && decide (Phase.dying ∉ s.srv.rows)
  | .timeUp _ => decide (s.srv.cancels = 0)
  | _ => true

private theorem calmB_sound {s : St} {e : Ev} (h : calmB s e = true) : Calm s e := by
  cases e <;> simp only [calmB, Calm, Bool.and_eq_true, decide_eq_true_eq] at * <;> first | trivial | exact h | exact ⟨h.1.1.1, h.1.1.2, h.1.2, h.2⟩

private def slowB (s : St) : Ev → Bool
  | .allocate r => decide (0 ≤ r.cores ∧ 0 ≤ r.ram ∧ 0 ≤ r.disk)
  | .release _ => decide (s.srv.cancels = 0)
  | _ => true

private theorem slowB_sound {s : St} {e : Ev} (h : slowB s e = true) : Slow s e := by
  cases e <;> simp only [slowB, Slow, decide_eq_true_eq] at * <;> first | trivial | exact h

private def alongB (p : St → Ev → Bool) : St → List Ev → Bool
  | _, [] => true
  | s, e :: h => p s e && (match step s e with | some s' => alongB p s' h | none => true)

private theorem alongB_sound {p : St → Ev → Bool} {P : St → Ev → Prop} (hp : ∀ s e, p s e = true → P s e) :
    ∀ (h : List Ev) (s : St), alongB p s h = true → Along P s h
  | [], _, _ => trivial
  | e :: h, s, hb => by
    simp only [alongB, Bool.and_eq_true] at hb
    refine ⟨hp _ _ hb.1, fun s' hs => ?_⟩
    have := hb.2
    rw [hs] at this
    exact alongB_sound hp h s' this

private def life : List Ev := [.allocate ⟨1000, 40, 0⟩, .release 0, .enter, .allocate ⟨1000, 20, 0⟩, .cancel 0, .cancelled 0,
  .release 0, .enter, .timeUp 0, .mark 0, .destroy 0]

/-- A non-trivial case: a server becomes idle, is saved by a new command, becomes idle again and is destroyed. -/
example : ∃ s, Along Calm (fresh ⟨4, 100, 10⟩ 10 true) life ∧ run (fresh ⟨4, 100, 10⟩ 10 true) life = some s ∧ s.srv.destroyed = true :=
  ⟨_, alongB_sound (fun _ _ => calmB_sound) _ _ (by decide +kernel), rfl, rfl⟩

/-- The code violates C46: the time is up and a cancellation waits; Go may choose the timer, and then destroys the server on
which a command runs. -/
theorem C46_violated_choice : ∃ h s, (∀ e ∈ h, SensibleEv e) ∧ run (fresh ⟨4, 100, 10⟩ 10 true) h = some s ∧ s.srv.destroyed = true ∧ s.out = [⟨1000, 20, 0⟩] :=
  ⟨[.allocate ⟨1000, 40, 0⟩, .release 0, .enter, .allocate ⟨1000, 20, 0⟩, .timeUp 0, .mark 0, .destroy 0], _,
    by simp [SensibleEv, Req.Sensible], rfl, rfl, rfl⟩

/-- The code violates C46: the server is marked as to be destroyed, then a command is allocated to it (`Allocate` does not
look at that mark), then it is destroyed. -/
theorem C46_violated_marked : ∃ h s, (∀ e ∈ h, SensibleEv e) ∧ run (fresh ⟨4, 100, 10⟩ 10 true) h = some s ∧ s.srv.destroyed = true ∧ s.out = [⟨1000, 20, 0⟩] :=
  ⟨[.allocate ⟨1000, 40, 0⟩, .release 0, .enter, .timeUp 0, .mark 0, .allocate ⟨1000, 20, 0⟩, .destroy 0], _,
    by simp [SensibleEv, Req.Sensible], rfl, rfl, rfl⟩

/-- The code violates C46: a command that needs no core and no memory is allocated before the goroutine that found the
server idle takes the lock; that goroutine looks at cores and memory only, and the server is destroyed. -/
theorem C46_violated_zero : ∃ h s, (∀ e ∈ h, SensibleEv e) ∧ run (fresh ⟨4, 100, 10⟩ 10 true) h = some s ∧ s.srv.destroyed = true ∧ s.out = [⟨0, 0, 5⟩] :=
  ⟨[.allocate ⟨1000, 40, 0⟩, .release 0, .allocate ⟨0, 0, 5⟩, .enter, .timeUp 0, .mark 0, .destroy 0], _,
    by simp [SensibleEv, Req.Sensible], rfl, rfl, rfl⟩

/-! ### C69 -/

/-- the invariant of C69; `u`: something was released -/
structure Doomed (u : Prop) (s : St) : Prop where
  ttd : s.srv.ttd = true
  sent : .cancelled ∈ s.srv.rows → s.srv.cancels ≠ 0
  busy : s.srv.cancels ≠ 0 → s.out ≠ [] ∨ .dying ∈ s.srv.rows ∨ s.srv.destroyed = true
  doom : u → s.out = [] → 0 < s.srv.idlers ∨ .dying ∈ s.srv.rows ∨ s.srv.destroyed = true ∨
    (s.srv.cancels = 0 ∧ (.waiting ∈ s.srv.rows ∨ .timeUp ∈ s.srv.rows))

private theorem Doomed.step {f d} {u : Prop} {s s' : St} {e : Ev} (b : Books f d s) (w : Row s) (n : Doomed u s) (he : Slow s e) (h : step s e = some s') :
    Doomed (u ∨ ∃ i, e = .release i) s' := by
  have w' := w.step h
  have b' := b.step he.sensible h
  obtain ⟨n1, n2, n3, n4⟩ := n
  cases e with
  | allocate r =>
    simp only [Cloud.step] at h
    split at h
    · rename_i srv ha
      injection h with h; subst h
      obtain ⟨h0, h1, h2, h6, h4, h5, h3⟩ := allocate_row ha
      refine ⟨by simp only [h5]; exact n1, ?_, ?_, ?_⟩
      · simp only [h1, h3]
        intro hw
        have := w.nonneg
        have := n2 hw
        split <;> omega
      · intro _; left; simp
      · intro _ ho; simp at ho
    · injection h with h; subst h
      exact ⟨n1, n2, n3, fun hu => n4 (by simpa using hu)⟩
  | release i =>
    simp only [Cloud.step] at h
    split at h
    · rename_i r hr
      injection h with h; subst h
      obtain ⟨h1, h2, h3, h4, h5, h6⟩ := release_row s.srv r
      refine ⟨by simp only [h5]; exact n1, by simp only [h1, h3]; exact n2, ?_, ?_⟩
      · simp only [h3]; intro hc; exact absurd he hc
      · intro _ ho
        left
        have e1 := b'.cores
        have e2 := b'.ram
        have e3 := b'.zero
        rw [ho] at e1 e2 e3
        simp at e1 e2 e3
        simp only [h6]
        rw [if_pos ⟨by omega, by omega, by omega, n1⟩]
        omega
    · cases h
  | enter =>
    simp only [Cloud.step] at h
    split at h
    · cases h
    · split at h
      · rename_i ho
        injection h with h; subst h
        refine ⟨n1, n2, n3, ?_⟩
        intro hu hout
        right
        by_cases hc : s.srv.cancels = 0
        · have h1 := w.one
          simp only [show s.srv.onDeathrow = true from ho, if_true] at h1
          obtain ⟨p, hp, hl⟩ := List.countP_pos_iff.1 (show 0 < s.srv.rows.countP Phase.live by omega)
          cases p with
          | waiting => right; right; exact ⟨hc, Or.inl hp⟩
          | timeUp => right; right; exact ⟨hc, Or.inr hp⟩
          | cancelled => exact absurd hc (n2 hp)
          | dying => simp [Phase.live] at hl
        · rcases n3 hc with e | e | e
          · exact absurd hout e
          · exact Or.inl e
          · exact Or.inr (Or.inl e)
      · split at h
        · rename_i hu
          injection h with h; subst h
          refine ⟨n1, n2, n3, ?_⟩
          intro _ hout
          exfalso
          have e1 := b.cores
          have e2 := b.ram
          simp only at hout
          rw [hout] at e1 e2
          simp at e1 e2 hu
          omega
        · injection h with h; subst h
          refine ⟨n1, ?_, ?_, ?_⟩
          · intro hx
            rcases List.mem_append.1 hx with hx | hx
            · exact n2 hx
            · simp at hx
          · intro hc
            rcases n3 hc with e | e | e
            · exact Or.inl e
            · exact Or.inr (Or.inl (List.mem_append_left _ e))
            · exact Or.inr (Or.inr e)
          · intro hu hout
            right
            by_cases hc : s.srv.cancels = 0
            · exact Or.inr (Or.inr ⟨hc, Or.inl (by simp)⟩)
            · rcases n3 hc with e | e | e
              · exact absurd hout e
              · exact Or.inl (List.mem_append_left _ e)
              · exact Or.inr (Or.inl e)
  | cancel i =>
    simp only [Cloud.step] at h
    split at h
    · rename_i hc
      injection h with h; subst h
      have hne : s.srv.cancels ≠ 0 := by have := hc.2; omega
      refine ⟨n1, fun _ => hne, ?_, ?_⟩
      · intro hx
        rcases n3 hx with e | e | e
        · exact Or.inl e
        · exact Or.inr (Or.inl (mem_set_of_ne hc.1 (by simp) e))
        · exact Or.inr (Or.inr e)
      · intro _ hout
        right
        rcases n3 hne with e | e | e
        · exact absurd hout e
        · exact Or.inl (mem_set_of_ne hc.1 (by simp) e)
        · exact Or.inr (Or.inl e)
    · cases h
  | cancelled i =>
    simp only [Cloud.step] at h
    split at h
    · rename_i hc
      injection h with h; subst h
      have hne := n2 (List.mem_of_getElem? hc)
      have hz := w'.one
      simp only [Bool.false_eq_true, if_false] at hz
      refine ⟨n1, ?_, by simp, ?_⟩
      · intro hx; have := not_live hz hx; simp at this
      · intro _ hout
        right
        rcases n3 hne with e | e | e
        · exact absurd hout e
        · exact Or.inl (mem_erase_of_ne hc (by simp) e)
        · exact Or.inr (Or.inl e)
    · cases h
  | timeUp i =>
    simp only [Cloud.step] at h
    split at h
    · rename_i hc
      injection h with h; subst h
      refine ⟨n1, fun hx => n2 (mem_of_set hx (by simp)), ?_, ?_⟩
      · intro hx
        rcases n3 hx with e | e | e
        · exact Or.inl e
        · exact Or.inr (Or.inl (mem_set_of_ne hc (by simp) e))
        · exact Or.inr (Or.inr e)
      · intro hu hout
        rcases n4 (by simpa using hu) hout with e | e | e | e
        · exact Or.inl e
        · exact Or.inr (Or.inl (mem_set_of_ne hc (by simp) e))
        · exact Or.inr (Or.inr (Or.inl e))
        · exact Or.inr (Or.inr (Or.inr ⟨e.1, Or.inr (mem_set_self hc)⟩))
    · cases h
  | mark i =>
    simp only [Cloud.step] at h
    split at h
    · rename_i hc
      injection h with h; subst h
      exact ⟨n1, fun hx => n2 (mem_of_set hx (by simp)), fun _ => Or.inr (Or.inl (mem_set_self hc)), fun _ _ => Or.inr (Or.inl (mem_set_self hc))⟩
    · cases h
  | destroy i =>
    simp only [Cloud.step] at h
    split at h
    · rename_i hc
      injection h with h; subst h
      exact ⟨n1, fun hx => n2 (List.mem_of_mem_eraseIdx hx), fun _ => Or.inr (Or.inr rfl), fun _ _ => Or.inr (Or.inr (Or.inl rfl))⟩
    · cases h

private theorem Doomed.mono {u v : Prop} {s : St} (n : Doomed u s) (h : v → u) : Doomed v s := ⟨n.ttd, n.sent, n.busy, fun hv => n.doom (h hv)⟩

private theorem run_doomed {f d} (h : List Ev) : ∀ {u : Prop} {s s' : St}, Books f d s → Row s → Doomed u s → Along Slow s h → run s h = some s' →
    Doomed (u ∨ ∃ i, .release i ∈ h) s' := by
  induction h with
  | nil => intro u s s' _ _ n _ hr; simp [run] at hr; subst hr; exact n.mono (by simp)
  | cons e h ih =>
    intro u s s' b w n ha hr
    simp only [run] at hr
    cases hs : Cloud.step s e with
    | none => rw [hs] at hr; cases hr
    | some s1 =>
      rw [hs] at hr
      refine (ih (b.step ha.1.sensible hs) (w.step hs) (n.step b w ha.1 hs) (ha.2 s1 hs) hr).mono ?_
      rintro (hu | ⟨i, hi⟩)
      · exact Or.inl (Or.inl hu)
      · rcases List.mem_cons.1 hi with e | e
        · exact Or.inl (Or.inr ⟨i, e.symm⟩)
        · exact Or.inr ⟨i, e⟩

/-- C69, for histories in which nothing is released between an allocation that takes the server off death row and the moment
that is dealt with: when nothing is left to be done, a server that was used and is idle is destroyed. Missing: the other
histories, for which it is false (below). -/
theorem C69_partial (f : Flavor) (d : Int) (h1 : 0 ≤ f.cores) (h2 : 0 ≤ f.ram) (h3 : 0 ≤ d) (h : List Ev) (s : St)
    (hc : Along Slow (fresh f d true) h) (hr : run (fresh f d true) h = some s) (hs : Settled s)
    (hu : ∃ i, .release i ∈ h) (ho : s.out = []) : s.srv.destroyed = true := by
  have n := run_doomed h (u := False) (Books.fresh f d true h1 h2 h3) (Row.fresh f d true)
    ⟨rfl, by simp [fresh], by simp [fresh], by simp⟩ hc hr
  have act : ∀ (p : Phase) (e : Nat → Ev), (∀ i, s.srv.rows[i]? = some p → ∃ s', step s (e i) = some s') →
      (∀ i, ¬ ((∃ r, e i = .allocate r) ∨ ∃ j, e i = .release j)) → p ∉ s.srv.rows := by
    intro p e h1 h2 hp
    obtain ⟨i, hi⟩ := List.mem_iff_getElem?.1 hp
    obtain ⟨s', h'⟩ := h1 i hi
    exact h2 i (hs _ _ h')
  rcases n.doom (Or.inr hu) ho with e | e | e | ⟨_, e | e⟩
  · exfalso
    have : ∃ s', step s .enter = some s' := by
      simp only [step]
      rw [if_neg (by omega)]
      split
      · exact ⟨_, rfl⟩
      · split <;> exact ⟨_, rfl⟩
    obtain ⟨s', h'⟩ := this
    rcases hs _ _ h' with ⟨_, e⟩ | ⟨_, e⟩ <;> cases e
  · exact absurd e (act .dying .destroy (fun i hi => ⟨_, by simp only [step]; exact if_pos hi⟩) (by simp))
  · exact e
  · exact absurd e (act .waiting .timeUp (fun i hi => ⟨_, by simp only [step]; exact if_pos hi⟩) (by simp))
  · exact absurd e (act .timeUp .mark (fun i hi => ⟨_, by simp only [step]; exact if_pos hi⟩) (by simp))

private theorem settled_of {s : St} (h1 : s.srv.idlers = 0) (h2 : s.srv.rows = []) : Settled s := by
  intro e s' h
  cases e with
  | allocate r => exact Or.inl ⟨r, rfl⟩
  | release i => exact Or.inr ⟨i, rfl⟩
  | enter => simp [step, h1] at h
  | cancel i => simp [step, h2] at h
  | cancelled i => simp [step, h2] at h
  | timeUp i => simp [step, h2] at h
  | mark i => simp [step, h2] at h
  | destroy i => simp [step, h2] at h

/-- A non-trivial case. -/
example : ∃ s, Along Slow (fresh ⟨4, 100, 10⟩ 10 true) life ∧ run (fresh ⟨4, 100, 10⟩ 10 true) life = some s ∧ Settled s ∧ s.out = [] :=
  ⟨_, alongB_sound (fun _ _ => slowB_sound) _ _ (by decide +kernel), rfl, settled_of rfl rfl, rfl⟩

/-- The code violates C69: a command is allocated to a server on death row and released before the cancellation is dealt
with. The goroutine of that release sees the server on death row and does nothing; then the server is taken off death row. It
is idle, and nothing will destroy it. -/
theorem C69_violated : ∃ h s, (∀ e ∈ h, SensibleEv e) ∧ run (fresh ⟨4, 100, 10⟩ 10 true) h = some s ∧ Settled s ∧
    (∃ i, .release i ∈ h) ∧ s.out = [] ∧ s.srv.destroyed = false :=
  ⟨[.allocate ⟨1000, 40, 0⟩, .release 0, .enter, .allocate ⟨1000, 20, 0⟩, .release 0, .enter, .cancel 0, .cancelled 0], _,
    by simp [SensibleEv, Req.Sensible], rfl, settled_of rfl rfl, ⟨0, by simp⟩, rfl, rfl⟩

end Verif.Cloud
