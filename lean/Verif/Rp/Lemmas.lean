import Verif.Rp.Model
/-! # Invariants of the protector -/
namespace Verif.Rp

theorem upd_same {α} (f : Nat → α) (i v) : upd f i v i = v := by simp [upd]
theorem upd_ne {α} (f : Nat → α) {i j} (v) (h : j ≠ i) : upd f i v j = f j := by simp [upd, h]

/-- The sum of `f` over the first `n` receipts. -/
def total (f : Nat → Int) : Nat → Int
  | 0 => 0
  | n + 1 => total f n + f n

theorem total_congr {f g : Nat → Int} : ∀ {n}, (∀ i < n, f i = g i) → total f n = total g n
  | 0, _ => rfl
  | n + 1, h => by simp only [total]; rw [total_congr (fun i hi => h i (by omega)), h n (by omega)]

theorem total_change {f g : Nat → Int} {n r : Nat} (hr : r < n) (h : ∀ i, i ≠ r → g i = f i) : total g n = total f n - f r + g r := by
  induction n with
  | zero => omega
  | succ n ih =>
    simp only [total]
    by_cases e : r = n
    · subst e; rw [total_congr (f := g) (g := f) (fun i hi => h i (by omega))]; omega
    · rw [ih (by omega), h n (by omega)]; omega

theorem total_nonneg {f : Nat → Int} : ∀ {n}, (∀ i < n, 0 ≤ f i) → 0 ≤ total f n
  | 0, _ => by simp [total]
  | n + 1, h => by have := total_nonneg (n := n) (fun i hi => h i (by omega)); have := h n (by omega); simp only [total]; omega

theorem total_le {f g : Nat → Int} : ∀ {n}, (∀ i < n, f i ≤ g i) → total f n ≤ total g n
  | 0, _ => by simp [total]
  | n + 1, h => by have := total_le (n := n) (fun i hi => h i (by omega)); have := h n (by omega); simp only [total]; omega

theorem total_pos {f : Nat → Int} : ∀ {n}, 0 < total f n → ∃ i < n, 0 < f i
  | 0, h => by simp [total] at h
  | n + 1, h => by
    simp only [total] at h
    by_cases e : 0 < f n
    · exact ⟨n, by omega, e⟩
    · obtain ⟨i, hi, h'⟩ := total_pos (n := n) (f := f) (by omega); exact ⟨i, by omega, h'⟩

/-- The request's tokens are taken: it was granted and its goroutine has not returned them. -/
def taken (q : Req) : Bool := q.phase ≠ .idle && q.phase ≠ .returned

/-- What every step keeps. -/
structure Inv (s : State) : Prop where
  lt : ∀ r ∈ s.pending, r < s.next
  sorted : s.pending.Pairwise (· < ·)
  fresh : ∀ r, s.next ≤ r → s.req r = { tokens := 0 } ∧ s.inMap r = false
  idle : ∀ r, (s.req r).active = false ↔ (s.req r).phase = .idle
  pend : ∀ r ∈ s.pending, (s.req r).active = false
  fin : ∀ r, ((s.req r).phase = .fin ∨ (s.req r).phase = .returned ∨ (s.req r).releaseCh = true) → (s.req r).done = true
  rel : ∀ r, (s.req r).releaseCh = true → (s.req r).active = true
  order : ∀ r, (s.req r).active = true → ∀ p ∈ s.pending, r < p

/-- A request that is neither granted nor pending stays so. -/
structure Le (s s' : State) : Prop where
  next : s.next ≤ s'.next
  done : ∀ r < s.next, (s.req r).done = true → (s'.req r).done = true
  active : ∀ r < s.next, (s.req r).active = true → (s'.req r).active = true
  tokens : ∀ r < s.next, (s'.req r).tokens = (s.req r).tokens
  gone : ∀ r < s.next, (s.req r).active = false → r ∉ s.pending → (s'.req r).active = false ∧ r ∉ s'.pending
  now : s.now ≤ s'.now
  max : s'.max = s.max
  delay : s'.delay = s.delay

theorem Le.refl (s : State) : Le s s where
  next := Nat.le_refl _
  done _ _ h := h
  active _ _ h := h
  tokens _ _ := rfl
  gone _ _ h h' := ⟨h, h'⟩
  now := Nat.le_refl _
  max := rfl
  delay := rfl

theorem Le.trans {a b c : State} (h : Le a b) (h' : Le b c) : Le a c where
  next := Nat.le_trans h.next h'.next
  done r hr x := h'.done r (Nat.lt_of_lt_of_le hr h.next) (h.done r hr x)
  active r hr x := h'.active r (Nat.lt_of_lt_of_le hr h.next) (h.active r hr x)
  tokens r hr := by rw [h'.tokens r (Nat.lt_of_lt_of_le hr h.next), h.tokens r hr]
  gone r hr x y := by
    obtain ⟨x, y⟩ := h.gone r hr x y
    exact h'.gone r (Nat.lt_of_lt_of_le hr h.next) x y
  now := Nat.le_trans h.now h'.now
  max := by rw [h'.max, h.max]
  delay := by rw [h'.delay, h.delay]

/-- A step that changes only one request `r`, not its tokens, activity, ... -/
theorem inv_touchup {s : State} (i : Inv s) (r : Nat) (q : Req) (hr : r < s.next)
    (ht : q.tokens = (s.req r).tokens)
    (ha : q.active = (s.req r).active)
    (hd : (s.req r).done = true → q.done = true)
    (hi : q.phase = .idle ↔ (s.req r).phase = .idle)
    (hf : (q.phase = .fin ∨ q.phase = .returned ∨ q.releaseCh = true) → q.done = true)
    (hrel : q.releaseCh = true → q.active = true)
    (s' : State) (e1 : s'.req = upd s.req r q) (e2 : s'.pending = s.pending) (e3 : s'.next = s.next)
    (e4 : ∀ x, s'.inMap x = true → s.inMap x = true) (e5 : s.now ≤ s'.now) (e6 : s'.max = s.max) (e7 : s'.delay = s.delay) : Inv s' ∧ Le s s' := by
  have act : ∀ x, (upd s.req r q x).active = (s.req x).active := by
    intro x; by_cases e : x = r
    · subst e; rw [upd_same, ha]
    · rw [upd_ne _ _ e]
  constructor
  · constructor
    · rw [e2, e3]; exact i.lt
    · rw [e2]; exact i.sorted
    · intro x hx
      rw [e3] at hx
      rw [e1, upd_ne _ _ (by omega)]
      refine ⟨(i.fresh x hx).1, ?_⟩
      cases h : s'.inMap x with
      | false => rfl
      | true => have := e4 x h; rw [(i.fresh x hx).2] at this; simp at this
    · intro x; rw [e1, act, i.idle]
      by_cases e : x = r
      · subst e; rw [upd_same, hi]
      · rw [upd_ne _ _ e]
    · intro x hx; rw [e1, act]; rw [e2] at hx; exact i.pend x hx
    · intro x hx; rw [e1] at hx ⊢
      by_cases e : x = r
      · subst e; rw [upd_same] at hx ⊢; exact hf hx
      · rw [upd_ne _ _ e] at hx ⊢; exact i.fin x hx
    · intro x hx; rw [e1] at hx ⊢
      by_cases e : x = r
      · subst e; rw [upd_same] at hx ⊢; exact hrel hx
      · rw [upd_ne _ _ e] at hx ⊢; exact i.rel x hx
    · intro x hx; rw [e1, act] at hx; rw [e2]; exact i.order x hx
  · constructor
    · omega
    · intro x _ hx; rw [e1]
      by_cases e : x = r
      · subst e; rw [upd_same]; exact hd hx
      · rw [upd_ne _ _ e]; exact hx
    · intro x _ hx; rw [e1, act]; exact hx
    · intro x _; rw [e1]
      by_cases e : x = r
      · subst e; rw [upd_same]; exact ht
      · rw [upd_ne _ _ e]
    · intro x _ h1 h2; rw [e1, act, e2]; exact ⟨h1, h2⟩
    · exact e5
    · exact e6
    · exact e7

/-- The same, with the new state given by unification. -/
theorem inv_touchup' {s : State} (i : Inv s) (r : Nat) (q : Req) (s' : State) (e1 : s'.req = upd s.req r q) (e2 : s'.pending = s.pending) (e3 : s'.next = s.next)
    (e4 : ∀ x, s'.inMap x = true → s.inMap x = true) (e5 : s.now ≤ s'.now) (e6 : s'.max = s.max) (e7 : s'.delay = s.delay) (hr : r < s.next)
    (ht : q.tokens = (s.req r).tokens)
    (ha : q.active = (s.req r).active)
    (hd : (s.req r).done = true → q.done = true)
    (hi : q.phase = .idle ↔ (s.req r).phase = .idle)
    (hf : (q.phase = .fin ∨ q.phase = .returned ∨ q.releaseCh = true) → q.done = true)
    (hrel : q.releaseCh = true → q.active = true) : Inv s' ∧ Le s s' :=
  inv_touchup i r q hr ht ha hd hi hf hrel s' e1 e2 e3 e4 e5 e6 e7

/-- A step that changes no request. -/
theorem inv_same {s : State} (i : Inv s) (s' : State) (e1 : s'.req = s.req) (e2 : s'.pending = s.pending) (e3 : s'.next = s.next)
    (e4 : ∀ x, s'.inMap x = true → s.inMap x = true) (e5 : s.now ≤ s'.now) (e6 : s'.max = s.max) (e7 : s'.delay = s.delay) : Inv s' ∧ Le s s' := by
  constructor
  · constructor
    · rw [e2, e3]; exact i.lt
    · rw [e2]; exact i.sorted
    · intro x hx; rw [e3] at hx; rw [e1]; refine ⟨(i.fresh x hx).1, ?_⟩
      cases h : s'.inMap x with
      | false => rfl
      | true => have := e4 x h; rw [(i.fresh x hx).2] at this; simp at this
    · rw [e1]; exact i.idle
    · rw [e1, e2]; exact i.pend
    · rw [e1]; exact i.fin
    · rw [e1]; exact i.rel
    · rw [e1, e2]; exact i.order
  · constructor
    · omega
    · rw [e1]; exact fun _ _ h => h
    · rw [e1]; exact fun _ _ h => h
    · rw [e1]; exact fun _ _ => rfl
    · rw [e1, e2]; exact fun _ _ h h' => ⟨h, h'⟩
    · exact e5
    · exact e6
    · exact e7

theorem Inv.lt_of {s : State} (i : Inv s) {r : Nat} (h : s.req r ≠ { tokens := 0 }) : r < s.next := by
  by_cases h' : r < s.next
  · exact h'
  · exact absurd (i.fresh r (by omega)).1 h
theorem Inv.lt_map {s : State} (i : Inv s) {r : Nat} (h : s.inMap r = true) : r < s.next := by
  by_cases h' : r < s.next
  · exact h'
  · rw [(i.fresh r (by omega)).2] at h; simp at h

theorem inv_request {s : State} (i : Inv s) (n : Int) : Inv (request s n) ∧ Le s (request s n) := by
  unfold request
  split
  · exact ⟨i, Le.refl s⟩
  split
  · exact ⟨i, Le.refl s⟩
  have key : ∀ s' : State, s'.req = upd s.req s.next { tokens := n } → s'.pending = s.pending ++ [s.next] → s'.next = s.next + 1 →
      s'.inMap = upd s.inMap s.next true → s'.now = s.now → s'.max = s.max → s'.delay = s.delay → Inv s' ∧ Le s s' := by
    intro s' e1 e2 e3 e4 e5 e6 e7
    constructor
    · constructor
      · intro r hr; rw [e2] at hr; rw [e3]
        rcases List.mem_append.1 hr with h | h
        · have := i.lt r h; omega
        · simp at h; omega
      · rw [e2, List.pairwise_append]
        refine ⟨i.sorted, by simp, ?_⟩
        intro a ha b hb; simp at hb; subst hb; exact i.lt a ha
      · intro r hr; rw [e3] at hr; rw [e1, e4, upd_ne _ _ (by omega), upd_ne _ _ (by omega)]; exact i.fresh r (by omega)
      · intro r; rw [e1]
        by_cases e : r = s.next
        · subst e; rw [upd_same]; simp
        · rw [upd_ne _ _ e]; exact i.idle r
      · intro r hr; rw [e1]
        by_cases e : r = s.next
        · subst e; rw [upd_same]
        · rw [upd_ne _ _ e]
          rw [e2] at hr
          rcases List.mem_append.1 hr with h | h
          · exact i.pend r h
          · simp at h; exact absurd h e
      · intro r; rw [e1]
        by_cases e : r = s.next
        · subst e; rw [upd_same]; simp
        · rw [upd_ne _ _ e]; exact i.fin r
      · intro r; rw [e1]
        by_cases e : r = s.next
        · subst e; rw [upd_same]; simp
        · rw [upd_ne _ _ e]; exact i.rel r
      · intro r hr p hp; rw [e1] at hr
        by_cases e : r = s.next
        · subst e; rw [upd_same] at hr; simp at hr
        · rw [upd_ne _ _ e] at hr
          rw [e2] at hp
          rcases List.mem_append.1 hp with h | h
          · exact i.order r hr p h
          · simp at h; subst h; apply i.lt_of; intro e'; rw [e'] at hr; simp at hr
    · constructor
      · omega
      · intro r hr h; rw [e1, upd_ne _ _ (by omega)]; exact h
      · intro r hr h; rw [e1, upd_ne _ _ (by omega)]; exact h
      · intro r hr; rw [e1, upd_ne _ _ (by omega)]
      · intro r hr h h'; rw [e1, upd_ne _ _ (by omega), e2]
        refine ⟨h, ?_⟩
        simp only [List.mem_append, List.mem_singleton, not_or]; exact ⟨h', by omega⟩
      · omega
      · exact e6
      · exact e7
  simp only
  split <;> exact key _ rfl rfl rfl rfl rfl rfl rfl

theorem inv_process {s : State} (i : Inv s) (a) : Inv (process s a) ∧ Le s (process s a) := by
  unfold process
  split
  · exact ⟨i, Le.refl s⟩
  rename_i r rest hp
  split
  · exact ⟨i, Le.refl s⟩
  simp only
  split
  · exact inv_same i _ rfl rfl rfl (fun _ h => h) (Nat.le_refl _) rfl rfl
  split
  · exact ⟨i, Le.refl s⟩
  have hr : r ∈ s.pending := by rw [hp]; simp
  have hrl := i.lt r hr
  have hs : (r :: rest).Pairwise (· < ·) := hp ▸ i.sorted
  rw [List.pairwise_cons] at hs
  have hg : (grant (s.req r)).active = true := by unfold grant; split <;> rfl
  have hgd : (grant (s.req r)).done = (s.req r).done := by unfold grant; split <;> rfl
  have hgt : (grant (s.req r)).tokens = (s.req r).tokens := by unfold grant; split <;> rfl
  have hgr : (grant (s.req r)).releaseCh = (s.req r).releaseCh := by unfold grant; split <;> rfl
  have hgr' : (s.req r).releaseCh = false := by
    cases h : (s.req r).releaseCh with
    | false => rfl
    | true => have h1 := i.rel r h; rw [i.pend r hr] at h1; simp at h1
  constructor
  · constructor
    · intro x hx; exact i.lt x (by rw [hp]; exact List.mem_cons_of_mem _ hx)
    · exact hs.2
    · intro x hx
      simp only at hx
      simp only [upd_ne _ _ (show x ≠ r by omega)]; exact i.fresh x hx
    · intro x
      by_cases e : x = r
      · subst e; simp only [upd_same, hg]; simp
      · simp only [upd_ne _ _ e]; exact i.idle x
    · intro x hx
      have := hs.1 x hx
      simp only [upd_ne _ _ (show x ≠ r by omega)]; exact i.pend x (by rw [hp]; exact List.mem_cons_of_mem _ hx)
    · intro x hx
      by_cases e : x = r
      · subst e; simp only [upd_same, hgr, hgr'] at hx; simp at hx
      · simp only [upd_ne _ _ e] at hx ⊢; exact i.fin x hx
    · intro x hx
      by_cases e : x = r
      · subst e; simp only [upd_same, hg]
      · simp only [upd_ne _ _ e] at hx ⊢; exact i.rel x hx
    · intro x hx p hpp
      have := hs.1 p hpp
      by_cases e : x = r
      · omega
      · simp only [upd_ne _ _ e] at hx
        exact i.order x hx p (by rw [hp]; exact List.mem_cons_of_mem _ hpp)
  · constructor
    · exact Nat.le_refl _
    · intro x _ hx
      by_cases e : x = r
      · subst e; simp only [upd_same, hgd]; exact hx
      · simp only [upd_ne _ _ e]; exact hx
    · intro x _ hx
      by_cases e : x = r
      · subst e; simp only [upd_same, hg]
      · simp only [upd_ne _ _ e]; exact hx
    · intro x _
      by_cases e : x = r
      · subst e; simp only [upd_same, hgt]
      · simp only [upd_ne _ _ e]
    · intro x _ h1 h2
      rw [hp, List.mem_cons, not_or] at h2
      simp only [upd_ne _ _ h2.1]; exact ⟨h1, h2.2⟩
    · exact Nat.le_refl _
    · rfl
    · rfl

theorem inv_reprocess {s : State} (i : Inv s) : Inv (reprocess s) ∧ Le s (reprocess s) := by
  unfold reprocess
  split
  · exact ⟨i, Le.refl s⟩
  split
  · exact inv_same i _ rfl rfl rfl (fun _ h => h) (Nat.le_refl _) rfl rfl
  split <;> exact inv_same i _ rfl rfl rfl (fun _ h => h) (Nat.le_refl _) rfl rfl

theorem release_active (q : Req) : (release q).active = q.active := by unfold release; split <;> rfl
theorem release_tokens (q : Req) : (release q).tokens = q.tokens := by unfold release; split <;> rfl
theorem release_phase (q : Req) : (release q).phase = q.phase := by unfold release; split <;> rfl
theorem release_done (q : Req) (h : q.done = true) : (release q).done = true := by unfold release; split <;> simp [h]
theorem release_ch (q : Req) (h : (release q).releaseCh = true) : q.releaseCh = true ∨ q.active = true ∧ (release q).done = true := by
  unfold release at h ⊢; split at h
  · exact Or.inl h
  · rename_i h'; simp at h'; rw [if_neg (by simp [h'])]; exact Or.inr ⟨h'.1, rfl⟩
theorem touch_active (q : Req) : (touch q).active = q.active := by unfold touch; split; rfl; split <;> rfl
theorem touch_tokens (q : Req) : (touch q).tokens = q.tokens := by unfold touch; split; rfl; split <;> rfl
theorem touch_phase (q : Req) : (touch q).phase = q.phase := by unfold touch; split; rfl; split <;> rfl
theorem touch_done (q : Req) : (touch q).done = q.done := by unfold touch; split; rfl; split <;> rfl
theorem touch_ch (q : Req) : (touch q).releaseCh = q.releaseCh := by unfold touch; split; rfl; split <;> rfl

theorem inv_shutdown {s : State} (i : Inv s) : Inv (shutdown s) ∧ Le s (shutdown s) := by
  have act : ∀ r, ((shutdown s).req r).active = (s.req r).active := by
    intro r; unfold shutdown; simp only; split
    · exact release_active _
    · rfl
  have ph : ∀ r, ((shutdown s).req r).phase = (s.req r).phase := by
    intro r; unfold shutdown; simp only; split
    · exact release_phase _
    · rfl
  have dn : ∀ r, (s.req r).done = true → ((shutdown s).req r).done = true := by
    intro r h; unfold shutdown; simp only; split
    · exact release_done _ h
    · exact h
  have ch : ∀ r, ((shutdown s).req r).releaseCh = true → (s.req r).releaseCh = true ∨ (s.req r).active = true ∧ ((shutdown s).req r).done = true := by
    intro r h; unfold shutdown at h ⊢; simp only at h ⊢; split at h
    · rename_i hm; simp only [hm, if_true]; exact release_ch _ h
    · exact Or.inl h
  constructor
  · constructor
    · exact i.lt
    · exact i.sorted
    · intro r hr
      refine ⟨?_, rfl⟩
      have := i.fresh r hr
      unfold shutdown; simp only [this.2]; exact this.1
    · intro r; rw [act, ph]; exact i.idle r
    · intro r hr; rw [act]; exact i.pend r hr
    · intro r hr; rw [ph] at hr
      rcases hr with h | h | h
      · exact dn r (i.fin r (Or.inl h))
      · exact dn r (i.fin r (Or.inr (Or.inl h)))
      · rcases ch r h with h | h
        · exact dn r (i.fin r (Or.inr (Or.inr h)))
        · exact h.2
    · intro r h; rw [act]
      rcases ch r h with h | h
      · exact i.rel r h
      · exact h.1
    · intro r h; rw [act] at h; exact i.order r h
  · constructor
    · exact Nat.le_refl _
    · intro r _ h; exact dn r h
    · intro r _ h; rw [act]; exact h
    · intro r _; unfold shutdown; simp only; split
      · exact release_tokens _
      · rfl
    · intro r _ h h'; rw [act]; exact ⟨h, h'⟩
    · exact Nat.le_refl _
    · rfl
    · rfl

theorem inv_timer {s : State} (i : Inv s) (r : Nat) (hr : r < s.next) : Inv (timer s r) ∧ Le s (timer s r) := by
  unfold timer
  simp only
  split
  · exact inv_same i _ rfl rfl rfl (fun _ h => h) (Nat.le_refl _) rfl rfl
  · rename_i hna
    have memE : ∀ x, x ∈ s.pending.erase r → x ∈ s.pending := fun x h => List.mem_of_mem_erase h
    -- first remove it from pending, then the rest
    have h1 : Inv { s with pending := s.pending.erase r, inMap := upd s.inMap r false } ∧
        Le s { s with pending := s.pending.erase r, inMap := upd s.inMap r false } := by
      constructor
      · constructor
        · intro x hx; exact i.lt x (memE x hx)
        · exact i.sorted.sublist List.erase_sublist
        · intro x hx; simp only at hx; simp only [upd_ne _ _ (show x ≠ r by omega)]; exact i.fresh x hx
        · exact i.idle
        · intro x hx; exact i.pend x (memE x hx)
        · exact i.fin
        · exact i.rel
        · intro x hx p hp; exact i.order x hx p (memE p hp)
      · constructor
        · exact Nat.le_refl _
        · exact fun _ _ h => h
        · exact fun _ _ h => h
        · exact fun _ _ => rfl
        · intro x _ h h'; exact ⟨h, fun h2 => h' (memE x h2)⟩
        · exact Nat.le_refl _
        · rfl
        · rfl
    split
    · obtain ⟨a, b⟩ := inv_same h1.1 { s with timers := s.timers.erase r, pending := s.pending.erase r, inMap := upd s.inMap r false, stuck := true }
        rfl rfl rfl (fun _ h => h) (Nat.le_refl _) rfl rfl
      exact ⟨a, h1.2.trans b⟩
    · obtain ⟨a, b⟩ := inv_touchup h1.1 r { s.req r with cancelCh := true } hr rfl rfl (fun h => h) Iff.rfl (i.fin r) (i.rel r)
        { s with timers := s.timers.erase r, pending := s.pending.erase r, inMap := upd s.inMap r false, req := upd s.req r { s.req r with cancelCh := true } }
        rfl rfl rfl (fun _ h => h) (Nat.le_refl _) rfl rfl
      exact ⟨a, h1.2.trans b⟩

/-- Timeout goroutines exist only for receipts that were handed out. -/
def TimersOk (s : State) : Prop := ∀ r ∈ s.timers, r < s.next

theorem inv_wait {s : State} (i : Inv s) (r t) : Inv (wait s r t) ∧ Le s (wait s r t) := by
  unfold wait
  split
  · rename_i hm
    have hr := i.lt_map hm
    simp only
    have hsel : ∀ s2 : State, s2.req = s.req → s2.pending = s.pending → s2.next = s.next → s2.inMap = s.inMap → s2.now = s.now → s2.max = s.max → s2.delay = s.delay →
        Inv (if (s2.req r).done || (s2.req r).waiting then s2 else if (s2.req r).active then s2 else { s2 with req := upd s2.req r { s2.req r with waiting := true, waiter := true } }) ∧
        Le s (if (s2.req r).done || (s2.req r).waiting then s2 else if (s2.req r).active then s2 else { s2 with req := upd s2.req r { s2.req r with waiting := true, waiter := true } }) := by
      intro s2 e1 e2 e3 e4 e5 e6 e7
      have base := inv_same i s2 e1 e2 e3 (fun x h => by rw [e4] at h; exact h) (by omega) e6 e7
      split
      · exact base
      split
      · exact base
      · obtain ⟨a, b⟩ := inv_touchup base.1 r { s2.req r with waiting := true, waiter := true } (by omega) rfl rfl (fun h => h) Iff.rfl
          (base.1.fin r) (base.1.rel r) { s2 with req := upd s2.req r { s2.req r with waiting := true, waiter := true } } rfl rfl rfl (fun _ h => h) (Nat.le_refl _) rfl rfl
        exact ⟨a, base.2.trans b⟩
    cases t with
    | true => exact hsel { s with timers := r :: s.timers } rfl rfl rfl rfl rfl rfl rfl
    | false => exact hsel s rfl rfl rfl rfl rfl rfl rfl
  · exact ⟨i, Le.refl s⟩

theorem step_inv {s s' : State} {l : Label} (i : Inv s) (ht : TimersOk s) (h : step s l = some s') : Inv s' ∧ Le s s' := by
  cases l with
  | request n =>
    simp only [step] at h; split at h <;> simp at h; subst h; exact inv_request i n
  | wait r t =>
    simp only [step] at h; split at h <;> simp at h; subst h; exact inv_wait i r t
  | timer r =>
    simp only [step] at h; split at h <;> simp at h; subst h
    rename_i hc; simp at hc
    exact inv_timer i r (ht r hc.1.2)
  | waitTrue r =>
    simp only [step] at h; split at h <;> simp at h; subst h
    rename_i hc; simp at hc
    have hr : r < s.next := i.lt_of (by intro e; rw [e] at hc; simp at hc)
    exact inv_touchup' i r _ _ rfl rfl rfl (fun _ h => h) (Nat.le_refl _) rfl rfl hr rfl rfl (fun h => h) Iff.rfl (i.fin r) (i.rel r)
  | waitFalse r =>
    simp only [step] at h; split at h <;> simp at h; subst h
    rename_i hc; simp at hc
    have hr : r < s.next := i.lt_of (by intro e; rw [e] at hc; simp at hc)
    exact inv_touchup' i r _ _ rfl rfl rfl (fun _ h => h) (Nat.le_refl _) rfl rfl hr rfl rfl (fun _ => rfl) Iff.rfl (fun _ => rfl) (i.rel r)
  | touch r =>
    simp only [step] at h; split at h <;> simp at h; subst h
    split
    · rename_i hm
      refine inv_touchup' i r _ _ rfl rfl rfl (fun _ h => h) (Nat.le_refl _) rfl rfl (i.lt_map hm) (touch_tokens _) (touch_active _) (fun h => by rw [touch_done]; exact h) (by rw [touch_phase]) ?_ ?_
      · rw [touch_phase, touch_ch, touch_done]; exact i.fin r
      · rw [touch_ch, touch_active]; exact i.rel r
    · exact ⟨i, Le.refl s⟩
  | release r =>
    simp only [step] at h; split at h <;> simp at h; subst h
    split
    · rename_i hm
      refine inv_touchup' i r _ _ rfl rfl rfl (fun _ h => h) (Nat.le_refl _) rfl rfl (i.lt_map hm) (release_tokens _) (release_active _) (release_done _) (by rw [release_phase]) ?_ ?_
      · rw [release_phase]; rintro (h | h | h)
        · exact release_done _ (i.fin r (Or.inl h))
        · exact release_done _ (i.fin r (Or.inr (Or.inl h)))
        · rcases release_ch _ h with h | h
          · exact release_done _ (i.fin r (Or.inr (Or.inr h)))
          · exact h.2
      · intro h; rw [release_active]; rcases release_ch _ h with h | h
        · exact i.rel r h
        · exact h.1
    · exact ⟨i, Le.refl s⟩
  | shutdown =>
    simp only [step] at h; split at h <;> simp at h; subst h; exact inv_shutdown i
  | process a =>
    simp only [step] at h; split at h <;> simp at h; subst h
    have b := inv_same i { s with procs := s.procs - 1 } rfl rfl rfl (fun _ h => h) (Nat.le_refl _) rfl rfl
    have c := inv_process b.1 a
    exact ⟨c.1, b.2.trans c.2⟩
  | reprocess =>
    simp only [step] at h; split at h <;> simp at h; subst h
    have b := inv_same i { s with repros := s.repros - 1 } rfl rfl rfl (fun _ h => h) (Nat.le_refl _) rfl rfl
    have c := inv_reprocess b.1
    exact ⟨c.1, b.2.trans c.2⟩
  | awake =>
    simp only [step] at h; split at h
    · split at h <;> simp at h; subst h
      exact inv_same i _ rfl rfl rfl (fun _ h => h) (Nat.le_refl _) rfl rfl
    · simp at h
  | goLimit r =>
    simp only [step] at h; split at h
    · rename_i since hph
      split at h <;> simp at h; subst h
      have hr : r < s.next := i.lt_of (by intro e; rw [e] at hph; simp at hph)
      exact inv_touchup' i r _ _ rfl rfl rfl (fun _ h => h) (Nat.le_refl _) rfl rfl hr rfl rfl (fun h => h) (by simp [hph]) (by intro h; simp only [reduceCtorEq, false_or] at h; exact i.fin r (Or.inr (Or.inr h))) (i.rel r)
    · simp at h
  | goFinish r =>
    simp only [step] at h; split at h <;> simp at h; subst h
    rename_i hc; simp at hc
    have hr : r < s.next := i.lt_of (by intro e; rw [e] at hc; simp at hc)
    exact inv_touchup' i r _ _ rfl rfl rfl (fun _ h => h) (Nat.le_refl _) rfl rfl hr rfl rfl (fun _ => rfl) (by simp [hc.1]) (fun _ => rfl) (i.rel r)
  | goRelease r =>
    simp only [step] at h; split at h
    · rename_i since hph
      split at h <;> simp at h; subst h
      rename_i hc
      have hr : r < s.next := i.lt_of (by intro e; rw [e] at hph; simp at hph)
      have hd := i.fin r (Or.inr (Or.inr hc))
      exact inv_touchup' i r _ _ rfl rfl rfl (fun _ h => h) (Nat.le_refl _) rfl rfl hr rfl rfl (fun h => h) (by simp [hph]) (fun _ => hd) (by simp)
    · simp at h
  | goTouch r =>
    simp only [step] at h; split at h
    · rename_i since hph
      split at h <;> simp at h; subst h
      have hr : r < s.next := i.lt_of (by intro e; rw [e] at hph; simp at hph)
      exact inv_touchup' i r _ _ rfl rfl rfl (fun _ h => h) (Nat.le_refl _) rfl rfl hr rfl rfl (fun h => h) (by simp [hph]) (by intro h; simp only [reduceCtorEq, false_or] at h; exact i.fin r (Or.inr (Or.inr h))) (i.rel r)
    · simp at h
  | goReturn r =>
    simp only [step] at h; split at h <;> simp at h; subst h
    rename_i hc; simp at hc
    have hr : r < s.next := i.lt_of (by intro e; rw [e] at hc; simp at hc)
    have hd := i.fin r (Or.inl hc.2)
    refine inv_touchup' i r _ (giveBack s r) rfl rfl rfl ?_ (Nat.le_refl _) rfl rfl hr rfl rfl (fun h => h) (by simp [hc.2]) (fun _ => hd) (i.rel r)
    intro x hx
    by_cases e : x = r
    · subst e; simp [giveBack, upd_same] at hx
    · simpa [giveBack, upd_ne _ _ e] using hx
  | tick d =>
    simp only [step] at h; simp at h; subst h
    exact inv_same i _ rfl rfl rfl (fun _ h => h) (by simp) rfl rfl

theorem step_timers {s s' : State} {l : Label} (i : Inv s) (ht : TimersOk s) (h : step s l = some s') : TimersOk s' := by
  have hn := (step_inv i ht h).2.next
  have key : ∀ r ∈ s'.timers, r ∈ s.timers ∨ s.inMap r = true := by
    cases l with
    | request n =>
      simp only [step, request] at h; split at h <;> simp at h; subst h
      intro r hr; split at hr
      · exact Or.inl hr
      split at hr
      · exact Or.inl hr
      split at hr <;> exact Or.inl hr
    | wait r t =>
      simp only [step, wait] at h; split at h <;> simp at h; subst h
      intro x hx; split at hx
      · rename_i hm
        have : x ∈ r :: s.timers := by
          cases t <;> simp only [Bool.false_eq_true, if_false, if_true] at hx
          · split at hx
            · exact List.mem_cons_of_mem _ hx
            split at hx <;> exact List.mem_cons_of_mem _ hx
          · split at hx
            · exact hx
            split at hx <;> exact hx
        rcases List.mem_cons.1 this with rfl | h
        · exact Or.inr hm
        · exact Or.inl h
      · exact Or.inl hx
    | timer r =>
      simp only [step, timer] at h; split at h <;> simp at h; subst h
      intro x hx
      split at hx
      · exact Or.inl (List.mem_of_mem_erase hx)
      split at hx <;> exact Or.inl (List.mem_of_mem_erase hx)
    | process a =>
      simp only [step, process] at h; split at h <;> simp at h; subst h
      intro x hx
      split at hx
      · exact Or.inl hx
      split at hx
      · exact Or.inl hx
      split at hx
      · exact Or.inl hx
      split at hx <;> exact Or.inl hx
    | reprocess =>
      simp only [step, reprocess] at h; split at h <;> simp at h; subst h
      intro x hx
      split at hx
      · exact Or.inl hx
      split at hx
      · exact Or.inl hx
      split at hx <;> exact Or.inl hx
    | awake =>
      simp only [step] at h; split at h
      · split at h <;> simp at h; subst h; exact fun r hr => Or.inl hr
      · simp at h
    | touch r => simp only [step] at h; split at h <;> simp at h; subst h; intro x hx; split at hx <;> exact Or.inl hx
    | release r => simp only [step] at h; split at h <;> simp at h; subst h; intro x hx; split at hx <;> exact Or.inl hx
    | tick d => simp only [step] at h; simp at h; subst h; exact fun r hr => Or.inl hr
    | waitTrue r => simp only [step] at h; split at h <;> simp at h; subst h; exact fun r hr => Or.inl hr
    | waitFalse r => simp only [step] at h; split at h <;> simp at h; subst h; exact fun r hr => Or.inl hr
    | shutdown => simp only [step] at h; split at h <;> simp at h; subst h; exact fun r hr => Or.inl hr
    | goFinish r => simp only [step] at h; split at h <;> simp at h; subst h; exact fun r hr => Or.inl hr
    | goReturn r => simp only [step] at h; split at h <;> simp at h; subst h; exact fun r hr => Or.inl hr
    | goLimit r =>
      simp only [step] at h; split at h
      · split at h <;> simp at h; subst h; exact fun r hr => Or.inl hr
      · simp at h
    | goRelease r =>
      simp only [step] at h; split at h
      · split at h <;> simp at h; subst h; exact fun r hr => Or.inl hr
      · simp at h
    | goTouch r =>
      simp only [step] at h; split at h
      · split at h <;> simp at h; subst h; exact fun r hr => Or.inl hr
      · simp at h
  intro r hr
  rcases key r hr with h | h
  · have := ht r h; omega
  · have := i.lt_map h; omega

theorem inv_new (m d t) : Inv (new m d t) := by
  constructor <;> simp [new]

theorem run_inv {s s' : State} {ls} (i : Inv s) (ht : TimersOk s) (h : run s ls = some s') : Inv s' ∧ TimersOk s' ∧ Le s s' := by
  induction ls generalizing s with
  | nil => simp [run] at h; subst h; exact ⟨i, ht, Le.refl s⟩
  | cons l ls ih =>
    simp only [run] at h
    obtain ⟨s1, h1, h2⟩ := Option.bind_eq_some_iff.1 h
    obtain ⟨a, b⟩ := step_inv i ht h1
    obtain ⟨c, d, e⟩ := ih a (step_timers i ht h1) h2
    exact ⟨c, d, b.trans e⟩

end Verif.Rp
