import Verif.Queue.Wait

/-! # C100: calls of Reserve that wait -/

namespace Verif.Queue.Wait

/-! ## Specification -/

/-- The number of items of a group that are ready. -/
def readyOf (s : S) (g : String) : Nat := s.ready.countP fun p => p.2 = g

/-- The number of calls that were told of an item of a group, and have not gone on yet. -/
def toldOf (s : S) (g : String) : Nat := s.waiters.countP fun x => x.group = g ∧ x.st = .told

/-- No item that is ready is taken by anyone but a call that waited, or changes its group. -/
def Ev.undisturbed : Ev → Bool
  | .take _ | .regroup .. => false
  | _ => true

/-! ## Invariants -/

/-- Items are different, and the ready items of a group that calls wait for are promised to others. -/
structure Inv (s : S) : Prop where
  nodup : (s.ready.map (·.1)).Nodup
  promised : ∀ g, s.waiters.any (isWaiting g) = true → readyOf s g ≤ toldOf s g

theorem run_inv (P : S → Prop) (ok : Ev → Bool) (hstep : ∀ s e t, P s → ok e = true → step s e = some t → P t) {es : List Ev}
    {s t : S} (hs : P s) (hes : es.all ok = true) (h : run s es = some t) : P t := by
  induction es generalizing s with
  | nil => cases h; exact hs
  | cons e es ih =>
    simp only [List.all_cons, Bool.and_eq_true] at hes
    rw [run] at h
    cases hx : step s e with
    | none => rw [hx] at h; cases h
    | some u => rw [hx] at h; exact ih (hstep s e u hs hes.1 hx) hes.2 h

/-- how counts change when one call changes -/
theorem countP_setSt {s : S} {w : Nat} {x : Waiter} (hw : s.waiters[w]? = some x) (st : St) (p : Waiter → Bool) :
    (setSt s w st).countP p + (if p x then 1 else 0) = s.waiters.countP p + (if p { x with st := st } then 1 else 0) := by
  obtain ⟨hl, hx⟩ := List.getElem?_eq_some_iff.mp hw
  have e : setSt s w st = s.waiters.set w { x with st := st } := by simp [setSt, hw]
  rw [e, List.countP_set hl, hx]
  by_cases h : p x = true
  · have : 0 < s.waiters.countP p := List.countP_pos_iff.mpr ⟨x, List.mem_of_getElem? hw, h⟩
    simp only [h, if_true]
    omega
  · simp [h]

theorem any_waiting_iff (l : List Waiter) (g : String) : l.any (isWaiting g) = true ↔ 0 < l.countP (isWaiting g) := by
  rw [List.any_eq_true, List.countP_pos_iff]

theorem mem_setSt {s : S} {w : Nat} {st : St} {x : Waiter} (h : x ∈ setSt s w st) : x ∈ s.waiters ∨ x.st = st := by
  unfold setSt at h
  split at h
  · rcases List.mem_or_eq_of_mem_set h with h | rfl
    · exact .inl h
    · exact .inr rfl
  · exact .inl h

theorem waiting_setSt {s : S} {w : Nat} {st : St} (hst : st ≠ .waiting) {g : String}
    (h : (setSt s w st).any (isWaiting g) = true) : s.waiters.any (isWaiting g) = true := by
  obtain ⟨x, hx, hw⟩ := List.any_eq_true.mp h
  rcases mem_setSt hx with h | h
  · exact List.any_eq_true.mpr ⟨x, h, hw⟩
  · simp only [isWaiting, decide_eq_true_eq] at hw
    exact absurd (h.symm.trans hw.2) hst

/-- what `trigger` does: the number of calls told goes up by one if one is waiting; nothing else changes -/
theorem trigger_spec {s : S} {g : String} {w : Option Nat} {ws : List Waiter} (h : trigger s g w = some ws) :
    (s.waiters.any (isWaiting g) = false ∧ ws = s.waiters) ∨
      (ws.countP (fun x => x.group = g ∧ x.st = .told) = toldOf s g + 1 ∧
        (∀ g', g' ≠ g → ws.countP (fun x => x.group = g' ∧ x.st = .told) = toldOf s g') ∧
        (∀ g', ws.countP (isWaiting g') ≤ s.waiters.countP (isWaiting g'))) := by
  unfold trigger at h
  cases w with
  | none =>
    simp only at h
    split at h
    · cases h
    · rename_i hn
      cases h
      exact .inl ⟨by simpa using hn, rfl⟩
  | some w =>
    simp only at h
    split at h
    · rename_i hw
      cases h
      rcases hx : s.waiters[w]? with _ | ⟨g', st⟩
      · rw [hx] at hw; cases hw
      · rw [hx] at hw
        simp only [Option.any_some, isWaiting, decide_eq_true_eq] at hw
        obtain ⟨rfl, rfl⟩ := hw
        refine .inr ⟨?_, fun g'' hg => ?_, fun g'' => ?_⟩
        · have := countP_setSt hx .told fun x => x.group = g' ∧ x.st = .told
          simp at this
          simpa [toldOf] using this
        · have := countP_setSt hx .told fun x => x.group = g'' ∧ x.st = .told
          have hg' : ¬ g' = g'' := fun h => hg h.symm
          simp [hg'] at this
          simpa [toldOf] using this
        · have := countP_setSt hx .told (isWaiting g'')
          simp only [isWaiting] at this ⊢
          simp at this
          omega
    · cases h

theorem readyOf_append (l : List (Nat × String)) (i : Nat) (g g' : String) :
    (l ++ [(i, g)]).countP (fun p => p.2 = g') = l.countP (fun p => p.2 = g') + if g = g' then 1 else 0 := by
  rw [List.countP_append]
  by_cases h : g = g' <;> simp [h]

theorem readyOf_filter (l : List (Nat × String)) (i : Nat) (g : String) :
    (l.filter fun p => p.1 ≠ i).countP (fun p => p.2 = g) ≤ l.countP (fun p => p.2 = g) := by
  induction l with
  | nil => simp
  | cons x xs ih =>
    rw [List.filter_cons]
    split
    · rw [List.countP_cons, List.countP_cons]; omega
    · rw [List.countP_cons]; omega

/-- taking one item of a group -/
theorem readyOf_take (l : List (Nat × String)) (hn : (l.map (·.1)).Nodup) (i : Nat) (g : String) (h : (i, g) ∈ l) (g' : String) :
    (l.filter fun p => p.1 ≠ i).countP (fun p => p.2 = g') + (if g = g' then 1 else 0) = l.countP (fun p => p.2 = g') := by
  induction l with
  | nil => cases h
  | cons x xs ih =>
    simp only [List.map_cons, List.nodup_cons] at hn
    rcases List.mem_cons.mp h with rfl | h
    · have : xs.filter (fun p => p.1 ≠ i) = xs := by
        rw [List.filter_eq_self]
        intro p hp
        simp only [decide_eq_true_eq]
        intro he
        exact hn.1 (List.mem_map.mpr ⟨p, hp, he⟩)
      rw [List.filter_cons, if_neg (by simp), this, List.countP_cons]
      by_cases hg : g = g' <;> simp [hg]
    · have hne : x.1 ≠ i := by
        rintro rfl
        exact hn.1 (List.mem_map.mpr ⟨_, h, rfl⟩)
      have := ih hn.2 h
      rw [List.filter_cons, if_pos (by simp [hne]), List.countP_cons, List.countP_cons]
      omega

theorem nodup_filter (l : List (Nat × String)) (hn : (l.map (·.1)).Nodup) (p : Nat × String → Bool) :
    ((l.filter p).map (·.1)).Nodup := by
  induction l with
  | nil => simp
  | cons x xs ih =>
    simp only [List.map_cons, List.nodup_cons] at hn
    rw [List.filter_cons]
    split
    · rw [List.map_cons, List.nodup_cons]
      refine ⟨fun h => hn.1 ?_, ih hn.2⟩
      obtain ⟨y, hy, e⟩ := List.mem_map.mp h
      exact List.mem_map.mpr ⟨y, (List.mem_filter.mp hy).1, e⟩
    · exact ih hn.2

theorem nodup_append (l : List (Nat × String)) (hn : (l.map (·.1)).Nodup) (i : Nat) (g : String) (h : i ∉ l.map (·.1)) :
    ((l ++ [(i, g)]).map (·.1)).Nodup := by
  rw [List.map_append, List.nodup_append]
  refine ⟨hn, by simp, ?_⟩
  intro a ha b hb
  simp only [List.map_cons, List.map_nil, List.mem_singleton] at hb
  subst hb
  rintro rfl
  exact h ha

/-- after an item of group `g` got ready and one was told, if any -/
theorem promised_push {s : S} (hs : Inv s) {g : String} {w : Option Nat} {ws : List Waiter} (h : trigger s g w = some ws)
    (l : List (Nat × String)) (hl : ∀ g', l.countP (fun p => p.2 = g') ≤ readyOf s g') (i : Nat) (g' : String)
    (hw : ws.any (isWaiting g') = true) :
    (l ++ [(i, g)]).countP (fun p => p.2 = g') ≤ ws.countP (fun x => x.group = g' ∧ x.st = .told) := by
  rw [readyOf_append]
  have hl' := hl g'
  rcases trigger_spec h with ⟨h1, rfl⟩ | ⟨h1, h2, h3⟩
  · have hne : g ≠ g' := by rintro rfl; rw [h1] at hw; cases hw
    rw [if_neg hne]
    have := hs.promised g' hw
    unfold toldOf at this
    omega
  · have hw' : s.waiters.any (isWaiting g') = true := by
      rw [any_waiting_iff] at hw ⊢
      have := h3 g'
      omega
    have := hs.promised g' hw'
    by_cases hg : g = g'
    · subst hg
      rw [if_pos rfl, h1]; omega
    · rw [if_neg hg, h2 g' (fun h => hg h.symm)]; omega

theorem inv_step {s t : S} (hs : Inv s) (e : Ev) (h : step s e = some t) : Inv t := by
  cases e with
  | push i g w =>
    simp only [step] at h
    split at h
    · cases h
    · rename_i hni
      cases hx : trigger s g w with
      | none => rw [hx] at h; cases h
      | some ws =>
        rw [hx] at h
        cases h
        refine ⟨nodup_append _ hs.nodup i g (fun h => hni (List.contains_iff_mem.mpr h)), fun g' hw => ?_⟩
        exact promised_push hs hx s.ready (fun _ => Nat.le_refl _) i g' hw
  | regroup i g w =>
    simp only [step] at h
    split at h
    · cases hx : trigger s g w with
      | none => rw [hx] at h; cases h
      | some ws =>
        rw [hx] at h
        cases h
        refine ⟨nodup_append _ (nodup_filter _ hs.nodup _) i g ?_, fun g' hw => ?_⟩
        · intro hm
          obtain ⟨y, hy, e⟩ := List.mem_map.mp hm
          have := (List.mem_filter.mp hy).2
          simp at this
          exact this e
        · exact promised_push hs hx _ (fun g' => readyOf_filter s.ready i g') i g' hw
    · cases h
  | take i =>
    simp only [step] at h
    split at h
    · cases h
      refine ⟨nodup_filter _ hs.nodup _, fun g hw => ?_⟩
      have := hs.promised g hw
      have := readyOf_filter s.ready i g
      unfold readyOf toldOf at *
      simp only
      omega
    · cases h
  | wait g =>
    simp only [step] at h
    split at h
    · cases h
    · rename_i hn
      cases h
      refine ⟨hs.nodup, fun g' hw => ?_⟩
      have htold : toldOf { s with waiters := s.waiters ++ [{ group := g }] } g' = toldOf s g' := by
        simp [toldOf, List.countP_append]
      rw [htold]
      by_cases hg : g = g'
      · subst hg
        have : readyOf s g = 0 := by
          unfold readyOf
          rw [List.countP_eq_zero]
          intro p hp
          simp only [List.any_eq_true, not_exists, not_and] at hn
          exact hn p hp
        show readyOf s g ≤ _
        omega
      · have hw' : s.waiters.any (isWaiting g') = true := by
          simpa [List.any_append, isWaiting, hg] using hw
        exact hs.promised g' hw'
  | timeout w =>
    simp only [step] at h
    rcases hx : s.waiters[w]? with _ | ⟨g, st⟩
    · rw [hx] at h; cases h
    · rw [hx] at h
      cases st with
      | waiting =>
        cases h
        refine ⟨hs.nodup, fun g' hw => ?_⟩
        have h1 := countP_setSt hx .over fun x => x.group = g' ∧ x.st = .told
        simp at h1
        have hw' : s.waiters.any (isWaiting g') = true := waiting_setSt (by simp) hw
        have := hs.promised g' hw'
        unfold readyOf toldOf at *
        simp at *
        omega
      | told => cases h
      | over => cases h
      | got _ => cases h
      | nothing _ => cases h
  | wake w i =>
    simp only [step] at h
    rcases hx : s.waiters[w]? with _ | ⟨g, st⟩
    · rw [hx] at h; cases h
    · rw [hx] at h
      cases st with
      | told =>
        simp only at h
        cases i with
        | some i =>
          simp only at h
          split at h
          · rename_i hm
            cases h
            have hm : (i, g) ∈ s.ready := List.contains_iff_mem.mp hm
            refine ⟨nodup_filter _ hs.nodup _, fun g' hw => ?_⟩
            have h0 := readyOf_take s.ready hs.nodup i g hm g'
            have h1 := countP_setSt hx (.got i) fun x => x.group = g' ∧ x.st = .told
            simp at h1
            have hw' : s.waiters.any (isWaiting g') = true := waiting_setSt (by simp) hw
            have := hs.promised g' hw'
            unfold readyOf toldOf at *
            by_cases hg : g = g'
            · simp [hg] at h0 h1 this ⊢
              omega
            · simp [hg] at h0 h1 this ⊢
              omega
          · cases h
        | none =>
          simp only at h
          split at h
          · cases h
          · rename_i hn
            cases h
            refine ⟨hs.nodup, fun g' hw => ?_⟩
            have h1 := countP_setSt hx (.nothing false) fun x => x.group = g' ∧ x.st = .told
            simp at h1
            have hw' : s.waiters.any (isWaiting g') = true := waiting_setSt (by simp) hw
            have := hs.promised g' hw'
            have h0 : readyOf s g = 0 := by
              unfold readyOf
              rw [List.countP_eq_zero]
              intro p hp
              simp only [List.any_eq_true, not_exists, not_and] at hn
              exact hn p hp
            by_cases hg : g = g'
            · subst hg
              show readyOf s g ≤ _
              omega
            · unfold readyOf toldOf at *
              simp [hg] at h1 this ⊢
              omega
      | over =>
        simp only at h
        split at h
        · cases h
          refine ⟨hs.nodup, fun g' hw => ?_⟩
          have h1 := countP_setSt hx (.nothing true) fun x => x.group = g' ∧ x.st = .told
          simp at h1
          have hw' : s.waiters.any (isWaiting g') = true := waiting_setSt (by simp) hw
          have := hs.promised g' hw'
          unfold readyOf toldOf at *
          simp at *
          omega
        · cases h
      | waiting => cases h
      | got _ => cases h
      | nothing _ => cases h

theorem inv_run {es : List Ev} {s : S} (h : run {} es = some s) : Inv s :=
  run_inv Inv (fun _ => true) (fun _ e _ hs _ hx => inv_step hs e hx) ⟨by simp, by simp⟩ (by simp) h

/-! ## Properties -/

/-- C100: no ready item is overlooked: while a call waits for an item of a group, there are no more ready items of this group
than there are other calls that were told of one and are about to take it. -/
theorem C100_promised (es : List Ev) (s : S) (h : run {} es = some s) (g : String) (x : Waiter) (hx : x ∈ s.waiters)
    (hg : x.group = g) (hw : x.st = .waiting) : readyOf s g ≤ toldOf s g :=
  (inv_run h).promised g (List.any_eq_true.mpr ⟨x, hx, by simp [isWaiting, hg, hw]⟩)

/-- C100: so, when every call that was told of an item has gone on, no item of a group is ready that a call waits for. -/
theorem C100_none_left (es : List Ev) (s : S) (h : run {} es = some s) (hq : ∀ x ∈ s.waiters, x.st ≠ .told) (x : Waiter)
    (hx : x ∈ s.waiters) (hw : x.st = .waiting) : ∀ p ∈ s.ready, p.2 ≠ x.group := by
  have := C100_promised es s h x.group x hx rfl hw
  have h0 : toldOf s x.group = 0 := by
    unfold toldOf
    rw [List.countP_eq_zero]
    intro y hy
    simp only [decide_eq_true_eq, not_and]
    exact fun _ => hq y hy
  have h1 : readyOf s x.group = 0 := by omega
  unfold readyOf at h1
  rw [List.countP_eq_zero] at h1
  intro p hp
  simpa using h1 p hp

/-- C100: an item that gets ready makes exactly one of the calls that wait for its group, if there are any, go on, and no other. -/
theorem C100_one (s t : S) (i : Nat) (g : String) (w : Option Nat) (h : step s (.push i g w) = some t) :
    (w = none ∧ t.waiters = s.waiters ∧ ∀ x ∈ s.waiters, ¬ (x.group = g ∧ x.st = .waiting)) ∨
      ∃ n, w = some n ∧ s.waiters[n]? = some ⟨g, .waiting⟩ ∧ t.waiters[n]? = some ⟨g, .told⟩ ∧
        ∀ m, m ≠ n → t.waiters[m]? = s.waiters[m]? := by
  simp only [step] at h
  split at h
  · cases h
  · cases w with
    | none =>
      simp only [trigger] at h
      split at h
      · cases h
      · rename_i hn
        cases h
        refine .inl ⟨rfl, rfl, fun x hx hc => hn (List.any_eq_true.mpr ⟨x, hx, by simp [isWaiting, hc]⟩)⟩
    | some n =>
      simp only [trigger] at h
      split at h
      · rename_i hw
        cases h
        rcases hx : s.waiters[n]? with _ | ⟨g', st⟩
        · rw [hx] at hw; cases hw
        · rw [hx] at hw
          simp only [Option.any_some, isWaiting, decide_eq_true_eq] at hw
          obtain ⟨rfl, rfl⟩ := hw
          obtain ⟨hl, _⟩ := List.getElem?_eq_some_iff.mp hx
          have e : setSt s n .told = s.waiters.set n ⟨g', .told⟩ := by simp [setSt, hx]
          refine .inr ⟨n, rfl, hx, ?_, fun m hm => ?_⟩
          · simp only [e]; simp [hl]
          · simp only [e]
            rw [List.getElem?_set, if_neg (fun h => hm h.symm)]
      · cases h

/-- C100: a call that goes on takes an item of its group that was ready, and nobody else can take it; it returns nothing only if
no item of its group is ready or its time was over. -/
theorem C100_takes (s t : S) (w : Nat) (i : Option Nat) (hs : step s (.wake w i) = some t) :
    ∃ g st, s.waiters[w]? = some ⟨g, st⟩ ∧
      ((∃ n, i = some n ∧ st = .told ∧ (n, g) ∈ s.ready ∧ (∀ p ∈ t.ready, p.1 ≠ n) ∧ t.waiters[w]? = some ⟨g, .got n⟩) ∨
       (i = none ∧ t.ready = s.ready ∧ ((st = .told ∧ ∀ p ∈ s.ready, p.2 ≠ g) ∨ st = .over))) := by
  simp only [step] at hs
  rcases hx : s.waiters[w]? with _ | ⟨g, st⟩
  · rw [hx] at hs; cases hs
  · obtain ⟨hl, _⟩ := List.getElem?_eq_some_iff.mp hx
    refine ⟨g, st, rfl, ?_⟩
    rw [hx] at hs
    cases st with
    | told =>
      cases i with
      | some n =>
        simp only at hs
        split at hs
        · rename_i hm
          cases hs
          refine .inl ⟨n, rfl, rfl, List.contains_iff_mem.mp hm, fun p hp => ?_, ?_⟩
          · simpa using (List.mem_filter.mp hp).2
          · have e : setSt s w (.got n) = s.waiters.set w ⟨g, .got n⟩ := by simp [setSt, hx]
            simp only [e]; simp [hl]
        · cases hs
      | none =>
        simp only at hs
        split at hs
        · cases hs
        · rename_i hn
          cases hs
          refine .inr ⟨rfl, rfl, .inl ⟨rfl, fun p hp hg => hn (List.any_eq_true.mpr ⟨p, hp, by simp [hg]⟩)⟩⟩
    | over =>
      simp only at hs
      split at hs
      · rename_i hi
        cases hs
        exact .inr ⟨hi, rfl, .inr rfl⟩
      · cases hs
    | waiting => cases hs
    | got _ => cases hs
    | nothing _ => cases hs

/-- If nobody else takes items, there is one for each call that was told. -/
structure UInv (s : S) : Prop where
  nodup : (s.ready.map (·.1)).Nodup
  enough : ∀ g, toldOf s g ≤ readyOf s g
  early : ∀ x ∈ s.waiters, x.st ≠ .nothing false

theorem uinv_step {s t : S} (hs : UInv s) (e : Ev) (ho : e.undisturbed = true) (h : step s e = some t) : UInv t := by
  cases e with
  | push i g w =>
    simp only [step] at h
    split at h
    · cases h
    · rename_i hni
      cases hx : trigger s g w with
      | none => rw [hx] at h; cases h
      | some ws =>
        rw [hx] at h
        cases h
        refine ⟨nodup_append _ hs.nodup i g (fun h => hni (List.contains_iff_mem.mpr h)), fun g' => ?_, fun x hxw => ?_⟩
        · have hr : readyOf { ready := s.ready ++ [(i, g)], waiters := ws } g' = readyOf s g' + if g = g' then 1 else 0 :=
            readyOf_append s.ready i g g'
          rw [hr]
          have hen := hs.enough g'
          rcases trigger_spec hx with ⟨_, rfl⟩ | ⟨h1, h2, _⟩
          · have : toldOf { ready := s.ready ++ [(i, g)], waiters := s.waiters } g' = toldOf s g' := rfl
            rw [this]; omega
          · by_cases hg : g = g'
            · subst hg
              have : toldOf { ready := s.ready ++ [(i, g)], waiters := ws } g = toldOf s g + 1 := h1
              rw [this, if_pos rfl]; omega
            · have : toldOf { ready := s.ready ++ [(i, g)], waiters := ws } g' = toldOf s g' := h2 g' (fun h => hg h.symm)
              rw [this]; omega
        · unfold trigger at hx
          cases w with
          | none =>
            simp only at hx
            split at hx
            · cases hx
            · cases hx; exact hs.early x hxw
          | some w =>
            simp only at hx
            split at hx
            · cases hx
              rcases mem_setSt hxw with h | h
              · exact hs.early x h
              · rw [h]; simp
            · cases hx
  | regroup i g w => cases ho
  | take i => cases ho
  | wait g =>
    simp only [step] at h
    split at h
    · cases h
    · cases h
      refine ⟨hs.nodup, fun g' => ?_, fun x hx => ?_⟩
      · have htold : toldOf { s with waiters := s.waiters ++ [{ group := g }] } g' = toldOf s g' := by
          simp [toldOf, List.countP_append]
        rw [htold]; exact hs.enough g'
      · rcases List.mem_append.mp hx with h | h
        · exact hs.early x h
        · simp only [List.mem_singleton] at h; subst h; simp
  | timeout w =>
    simp only [step] at h
    rcases hx : s.waiters[w]? with _ | ⟨g, st⟩
    · rw [hx] at h; cases h
    · rw [hx] at h
      cases st with
      | waiting =>
        cases h
        refine ⟨hs.nodup, fun g' => ?_, fun x hxw => ?_⟩
        · have h1 := countP_setSt hx .over fun x => x.group = g' ∧ x.st = .told
          have h2 := hs.enough g'
          unfold readyOf toldOf at *
          simp at *
          omega
        · rcases mem_setSt hxw with h | h
          · exact hs.early x h
          · rw [h]; simp
      | told => cases h
      | over => cases h
      | got _ => cases h
      | nothing _ => cases h
  | wake w i =>
    simp only [step] at h
    rcases hx : s.waiters[w]? with _ | ⟨g, st⟩
    · rw [hx] at h; cases h
    · rw [hx] at h
      cases st with
      | told =>
        simp only at h
        have hpos : 0 < toldOf s g := by
          unfold toldOf
          exact List.countP_pos_iff.mpr ⟨_, List.mem_of_getElem? hx, by simp⟩
        have hen := hs.enough g
        cases i with
        | some i =>
          simp only at h
          split at h
          · rename_i hm
            cases h
            have hm : (i, g) ∈ s.ready := List.contains_iff_mem.mp hm
            refine ⟨nodup_filter _ hs.nodup _, fun g' => ?_, fun x hxw => ?_⟩
            · have h0 := readyOf_take s.ready hs.nodup i g hm g'
              have h1 := countP_setSt hx (.got i) fun x => x.group = g' ∧ x.st = .told
              have h2 := hs.enough g'
              simp at h1
              unfold readyOf toldOf at *
              by_cases hg : g = g'
              · simp [hg] at h0 h1 h2 ⊢
                omega
              · simp [hg] at h0 h1 h2 ⊢
                omega
            · rcases mem_setSt hxw with h | h
              · exact hs.early x h
              · rw [h]; simp
          · cases h
        | none =>
          simp only at h
          split at h
          · cases h
          · rename_i hn
            exfalso
            have h0 : readyOf s g = 0 := by
              unfold readyOf
              rw [List.countP_eq_zero]
              intro p hp
              simp only [List.any_eq_true, not_exists, not_and] at hn
              exact hn p hp
            omega
      | over =>
        simp only at h
        split at h
        · cases h
          refine ⟨hs.nodup, fun g' => ?_, fun x hxw => ?_⟩
          · have h1 := countP_setSt hx (.nothing true) fun x => x.group = g' ∧ x.st = .told
            have h2 := hs.enough g'
            unfold readyOf toldOf at *
            simp at *
            omega
          · rcases mem_setSt hxw with h | h
            · exact hs.early x h
            · rw [h]; simp
        · cases h
      | waiting => cases h
      | got _ => cases h
      | nothing _ => cases h

/-- C100: if items that are ready are only taken by calls that waited, a call that waits returns an item, unless its time is over:
it is never told of an item that it does not get. -/
theorem C100_gets_partial (es : List Ev) (s : S) (h : run {} es = some s) (hu : es.all Ev.undisturbed = true) :
    (∀ x ∈ s.waiters, x.st ≠ .nothing false) ∧
    ∀ w g, s.waiters[w]? = some ⟨g, .told⟩ → ∃ i t, step s (.wake w (some i)) = some t := by
  have I : UInv s := run_inv UInv Ev.undisturbed (fun _ e _ hs ho hx => uinv_step hs e ho hx)
    ⟨by simp, by simp [toldOf], by simp⟩ hu h
  refine ⟨I.early, fun w g hx => ?_⟩
  have hpos : 0 < toldOf s g := by
    unfold toldOf
    exact List.countP_pos_iff.mpr ⟨_, List.mem_of_getElem? hx, by simp⟩
  have := I.enough g
  have hr : 0 < readyOf s g := by omega
  unfold readyOf at hr
  obtain ⟨⟨i, g'⟩, hp, hg⟩ := List.countP_pos_iff.mp hr
  simp only [decide_eq_true_eq] at hg
  subst hg
  exact ⟨i, _, by simp [step, hx, hp]; rfl⟩

/-- C100 is violated otherwise: a call that is to wait is told of an item, another call takes it first, and the waiting one
returns that nothing is ready at once, although its time is not over. -/
theorem C100_violated_early : ∃ (s : S), run {} [.wait "g", .push 1 "g" (some 0), .take 1, .wake 0 none] = some s ∧
    s.waiters = [⟨"g", .nothing false⟩] :=
  ⟨_, rfl, rfl⟩

/-! ## The hypotheses are met -/

/-- two wait, one is told and takes the item, the other goes on waiting -/
example : run {} [.wait "g", .wait "g", .push 1 "h" none, .push 2 "g" (some 1), .wake 1 (some 2), .timeout 0, .wake 0 none] =
    some { ready := [(1, "h")], waiters := [⟨"g", .nothing true⟩, ⟨"g", .got 2⟩] } := by decide +kernel

example : ([.wait "g", .push 2 "g" (some 0)] : List Ev).all Ev.undisturbed = true := by decide

end Verif.Queue.Wait
