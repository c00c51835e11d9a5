import Verif.Queue.Timer

/-! # Invariants of the goroutines that watch the delay and run sub-queues -/

namespace Verif.Queue.Timer

/-- The item that the call which put this entry is about to ask for, if it still is. -/
def relies (s : S) (e : Entry) : Option Nat :=
  (e.call.bind fun c => s.calls[c]?).bind fun k => if k.phase = .checking then some k.id else none

/-- Another item was put by a call that is about to ask for this one (only AddMany puts more than one item). -/
def shared (s : S) (i : Nat) : Bool := s.entries.any fun e => e.id ≠ i ∧ relies s e = some i

/-- The conditions under which items are in time: AddMany is given the item with the shortest delay first (of those that the
goroutine would wake too late for), Update does not make an item due earlier, and while an AddMany is being done no delay of
the item it asks for is changed. -/
def calm (s : S) : Ev → Bool
  | .put i _ => ¬ shared s i
  | .many l => (l.all fun p => ¬ shared s p.1) &&
      match l.find? fun p => tooLate s p.2 with
      | some j => l.all fun p => j.2 ≤ p.2
      | none => true
  | .update i d => ¬ shared s i ∧
      s.entries.all fun e => e.id ≠ i ∨ (e.due ≤ s.now + d ∧ (relies s e = none ∨ relies s e = some i))
  | _ => true

/-- The goroutine will compute again when to wake. -/
def Pend (s : S) : Prop := (∃ b, s.proc = .compute b) ∨ s.buf = true ∨ ∃ c ∈ s.calls, c.phase = .sending

structure EInv (s : S) (e : Entry) : Prop where
  due : e.due = e.set + s.delays e.id
  past : e.set ≤ s.now
  call : ∀ c, e.call = some c → c < s.calls.length
  fresh : relies s e ≠ none → e.slack = 0
  safe : Pend s ∨ s.wake ≤ e.due + e.slack ∨ ∃ j, relies s e = some j ∧ s.delays j ≤ s.delays e.id

def Inv (s : S) : Prop := ∀ e ∈ s.entries, EInv s e

theorem earliest_le {l : List Entry} {m : Nat} (h : earliest l = some m) : ∀ e ∈ l, m ≤ e.due := by
  induction l generalizing m with
  | nil => simp
  | cons x xs ih =>
    rw [earliest] at h
    cases hx : earliest xs with
    | none =>
      rw [hx] at h
      cases h
      intro e he
      rcases List.mem_cons.mp he with rfl | he
      · exact Nat.le_refl _
      · cases xs with
        | nil => simp at he
        | cons y ys =>
          rw [earliest] at hx
          cases hy : earliest ys <;> rw [hy] at hx <;> cases hx
    | some m' =>
      rw [hx] at h
      simp only [Option.some.injEq] at h
      intro e he
      have := ih hx
      rcases List.mem_cons.mp he with rfl | he
      · split at h <;> omega
      · have := this e he
        split at h <;> omega

theorem earliest_none {l : List Entry} (h : earliest l = none) : l = [] := by
  cases l with
  | nil => rfl
  | cons x xs =>
    rw [earliest] at h
    cases hx : earliest xs <;> rw [hx] at h <;> cases h

theorem setDelay_same (f : Nat → Nat) (i d : Nat) : setDelay f i d i = d := by simp [setDelay]
theorem setDelay_ne (f : Nat → Nat) {i x : Nat} (d : Nat) (h : x ≠ i) : setDelay f i d x = f x := by simp [setDelay, h]

theorem foldl_other (l : List (Nat × Nat)) (f : Nat → Nat) (x : Nat) (h : x ∉ l.map (·.1)) :
    l.foldl (fun f p => setDelay f p.1 p.2) f x = f x := by
  induction l generalizing f with
  | nil => rfl
  | cons p l ih =>
    simp only [List.map_cons, List.mem_cons, not_or] at h
    rw [List.foldl_cons, ih _ h.2, setDelay_ne _ _ h.1]

theorem foldl_mem (l : List (Nat × Nat)) (f : Nat → Nat) (hn : (l.map (·.1)).Nodup) (p : Nat × Nat) (hp : p ∈ l) :
    l.foldl (fun f p => setDelay f p.1 p.2) f p.1 = p.2 := by
  induction l generalizing f with
  | nil => simp at hp
  | cons q l ih =>
    simp only [List.map_cons, List.nodup_cons] at hn
    rw [List.foldl_cons]
    rcases List.mem_cons.mp hp with rfl | hp
    · rw [foldl_other _ _ _ hn.1, setDelay_same]
    · exact ih _ hn.2 hp

theorem relies_congr {s t : S} {e f : Entry} (hc : t.calls = s.calls) (he : f.call = e.call) : relies t f = relies s e := by
  unfold relies; rw [hc, he]

theorem relies_append {s t : S} {e : Entry} (l : List Call) (hc : t.calls = s.calls ++ l)
    (h : ∀ c, e.call = some c → c < s.calls.length) : relies t e = relies s e := by
  unfold relies
  rw [hc]
  cases hx : e.call with
  | none => rfl
  | some c =>
    have := h c hx
    simp [List.getElem?_append_left this]

theorem shared_false {s : S} {i : Nat} (h : shared s i = false) {e : Entry} (he : e ∈ s.entries) (hi : e.id ≠ i) :
    relies s e ≠ some i := by
  intro hr
  have : shared s i = true := by
    unfold shared
    rw [List.any_eq_true]
    exact ⟨e, he, by simp [hi, hr]⟩
  rw [this] at h
  cases h

theorem mem_place {s : S} {call : Option Nat} {l : List (Nat × Nat)} {e : Entry} (h : e ∈ place s call l) :
    (e ∈ s.entries ∧ e.id ∉ l.map (·.1)) ∨
      ∃ p ∈ l, e = { id := p.1, set := s.now, due := s.now + p.2, call := call } := by
  unfold place at h
  rcases List.mem_append.mp h with h | h
  · left
    rw [List.mem_filter] at h
    refine ⟨h.1, ?_⟩
    have := h.2
    intro hc
    simp only [decide_not, Bool.not_eq_true', decide_eq_false_iff_not] at this
    exact this (List.contains_iff_mem.mpr hc)
  · right
    obtain ⟨p, hp, rfl⟩ := List.mem_map.mp h
    exact ⟨p, hp, rfl⟩

theorem pend_congr {s t : S} (h1 : t.proc = s.proc) (h2 : t.buf = s.buf) (l : List Call) (h3 : t.calls = s.calls ++ l)
    (h : Pend s) : Pend t := by
  rcases h with ⟨b, h⟩ | h | ⟨c, hc, h⟩
  · exact .inl ⟨b, h1.trans h⟩
  · exact .inr (.inl (h2.trans h))
  · exact .inr (.inr ⟨c, by rw [h3]; simp [hc], h⟩)

/-- putting items, by a call that is about to ask for `j`, or by none -/
theorem place_inv {s : S} (hs : Inv s) (l : List (Nat × Nat)) (hn : (l.map (·.1)).Nodup)
    (hsh : ∀ p ∈ l, shared s p.1 = false) (t : S) (hnow : t.now = s.now) (hwake : t.wake = s.wake)
    (hproc : t.proc = s.proc) (hbuf : t.buf = s.buf)
    (hd : t.delays = l.foldl (fun f p => setDelay f p.1 p.2) s.delays)
    (hc : (∃ j ∈ l, (∀ p ∈ l, j.2 ≤ p.2) ∧ t.calls = s.calls ++ [{ id := j.1 }] ∧ t.entries = place s (some s.calls.length) l) ∨
      ((∀ p ∈ l, ¬ s.wake > s.now + p.2) ∧ t.calls = s.calls ∧ t.entries = place s none l) ∨
      (∃ j ∈ l, t.calls = s.calls ++ [{ id := j.1 }] ∧ t.entries = place s (some s.calls.length) l ∧
        ∀ p ∈ l, j.2 ≤ p.2 ∨ ¬ s.wake > s.now + p.2)) : Inv t := by
  intro e he
  have hcalls : ∃ k, t.calls = s.calls ++ k := by
    rcases hc with ⟨j, _, _, h, _⟩ | ⟨_, h, _⟩ | ⟨j, _, h, _⟩
    · exact ⟨_, h⟩
    · exact ⟨[], by simp [h]⟩
    · exact ⟨_, h⟩
  obtain ⟨k, hk⟩ := hcalls
  have hent : ∃ call, t.entries = place s call l := by
    rcases hc with ⟨j, _, _, _, h⟩ | ⟨_, _, h⟩ | ⟨j, _, _, h, _⟩
    · exact ⟨_, h⟩
    · exact ⟨_, h⟩
    · exact ⟨_, h⟩
  obtain ⟨call, hcall⟩ := hent
  rw [hcall] at he
  rcases mem_place he with ⟨he, hid⟩ | ⟨p, hp, rfl⟩
  · -- an old entry
    have I := hs e he
    have hr : relies t e = relies s e := relies_append k hk I.call
    have hde : t.delays e.id = s.delays e.id := by rw [hd, foldl_other _ _ _ hid]
    refine ⟨by rw [hde]; exact I.due, by rw [hnow]; exact I.past, fun c hc => ?_, fun h => I.fresh (by rw [← hr]; exact h), ?_⟩
    · have := I.call c hc
      rw [hk, List.length_append]; omega
    · rcases I.safe with h | h | ⟨j, h1, h2⟩
      · exact .inl (pend_congr hproc hbuf k hk h)
      · exact .inr (.inl (by rw [hwake]; exact h))
      · refine .inr (.inr ⟨j, by rw [hr]; exact h1, ?_⟩)
        have hj : j ∉ l.map (·.1) := by
          intro hj
          obtain ⟨p, hp, rfl⟩ := List.mem_map.mp hj
          have hne : e.id ≠ p.1 := fun h => hid (h ▸ List.mem_map.mpr ⟨p, hp, rfl⟩)
          exact shared_false (hsh p hp) he hne h1
        rw [hde, hd, foldl_other _ _ _ hj]
        exact h2
  · -- a new one
    have hdp : t.delays p.1 = p.2 := by rw [hd]; exact foldl_mem l _ hn p hp
    have hrel : ∀ (j : Nat × Nat), t.calls = s.calls ++ [{ id := j.1 }] → t.entries = place s (some s.calls.length) l →
        call = some s.calls.length := by
      intro j _ h
      rw [hcall] at h
      unfold place at h
      have := List.append_cancel_left h
      have hmem : ({ id := p.1, set := s.now, due := s.now + p.2, call := call } : Entry) ∈
          l.map fun p => ({ id := p.1, set := s.now, due := s.now + p.2, call := some s.calls.length } : Entry) := by
        rw [← this]
        exact List.mem_map.mpr ⟨p, hp, rfl⟩
      obtain ⟨q, _, hq⟩ := List.mem_map.mp hmem
      exact (congrArg Entry.call hq).symm
    have hnone : t.entries = place s none l → call = none := by
      intro h
      rw [hcall] at h
      unfold place at h
      have := List.append_cancel_left h
      have hmem : ({ id := p.1, set := s.now, due := s.now + p.2, call := call } : Entry) ∈
          l.map fun p => ({ id := p.1, set := s.now, due := s.now + p.2, call := none } : Entry) := by
        rw [← this]
        exact List.mem_map.mpr ⟨p, hp, rfl⟩
      obtain ⟨q, _, hq⟩ := List.mem_map.mp hmem
      exact (congrArg Entry.call hq).symm
    have ask : ∀ (j : Nat × Nat), t.calls = s.calls ++ [{ id := j.1 }] → t.entries = place s (some s.calls.length) l →
        relies t ({ id := p.1, set := s.now, due := s.now + p.2, call := call } : Entry) = some j.1 := by
      intro j h1 h2
      rw [hrel j h1 h2]
      unfold relies
      simp [h1]
    refine ⟨by simp [hdp], by simp [hnow], fun c hc' => ?_, fun _ => rfl, ?_⟩
    · simp only at hc'
      rcases hc with ⟨j, _, _, h1, h2⟩ | ⟨_, h1, h2⟩ | ⟨j, _, h1, h2, _⟩
      · rw [hrel j h1 h2] at hc'; cases hc'; rw [h1]; simp
      · rw [hnone h2] at hc'; cases hc'
      · rw [hrel j h1 h2] at hc'; cases hc'; rw [h1]; simp
    · rcases hc with ⟨j, hj, hle, h1, h2⟩ | ⟨hw, h1, h2⟩ | ⟨j, hj, h1, h2, hle⟩
      · refine .inr (.inr ⟨j.1, ask j h1 h2, ?_⟩)
        simp only [hdp]
        rw [hd, foldl_mem l _ hn j hj]
        exact hle p hp
      · refine .inr (.inl ?_)
        have := hw p hp
        simp only
        rw [hwake]; omega
      · rcases hle p hp with h | h
        · refine .inr (.inr ⟨j.1, ask j h1 h2, ?_⟩)
          simp only [hdp]
          rw [hd, foldl_mem l _ hn j hj]
          exact h
        · refine .inr (.inl ?_)
          simp only
          rw [hwake]; omega

theorem inv_step {s t : S} (hs : Inv s) (e : Ev) (hcalm : calm s e = true) (h : step s e = some t) : Inv t := by
  cases e with
  | tick n =>
    cases h
    intro x hx
    have I := hs x hx
    exact ⟨I.due, Nat.le_trans I.past (Nat.le_add_right _ _), I.call, I.fresh, I.safe⟩
  | put i d =>
    simp only [step] at h
    split at h
    · cases h
    · cases h
      refine place_inv hs [(i, d)] (by simp) ?_ _ rfl rfl rfl rfl rfl (.inl ⟨(i, d), by simp, by simp, rfl, rfl⟩)
      intro p hp
      simp only [List.mem_singleton] at hp
      subst hp
      simpa [calm] using hcalm
  | many l =>
    simp only [step] at h
    split at h
    · cases h
    · rename_i hc
      have hn : (l.map (·.1)).Nodup := Classical.byContradiction fun h => hc (.inr (.inl h))
      simp only [calm, Bool.and_eq_true] at hcalm
      have hsh : ∀ p ∈ l, shared s p.1 = false := fun p hp => by simpa using List.all_eq_true.mp hcalm.1 p hp
      rcases hf : l.find? fun p => tooLate s p.2 with _ | j
      · rw [hf] at h
        cases h
        refine place_inv hs l hn hsh _ rfl rfl rfl rfl rfl (.inr (.inl ⟨?_, rfl, rfl⟩))
        intro p hp
        have := List.find?_eq_none.mp hf p hp
        simpa [tooLate] using this
      · rw [hf] at h hcalm
        cases h
        refine place_inv hs l hn hsh _ rfl rfl rfl rfl rfl (.inr (.inr ⟨j, List.mem_of_find?_eq_some hf, rfl, rfl, ?_⟩))
        intro p hp
        have := hcalm.2
        simp only [List.all_eq_true, decide_eq_true_eq] at this
        exact .inl (this p hp)
  | update i d =>
    simp only [step] at h
    split at h
    · cases h
    · cases h
      simp only [calm, Bool.decide_and, Bool.and_eq_true, decide_eq_true_eq, List.all_eq_true] at hcalm
      obtain ⟨hsh, hall⟩ := hcalm
      have hsh : shared s i = false := by simpa using hsh
      intro x hx
      obtain ⟨e, he, rfl⟩ := List.mem_map.mp hx
      have I := hs e he
      have hc := hall e he
      by_cases hi : e.id = i
      · rw [if_pos hi]
        have hc : e.due ≤ s.now + d ∧ (relies s e = none ∨ relies s e = some i) := by
          rcases hc with h | h
          · exact absurd hi h
          · exact h
        refine ⟨by simp [hi, setDelay_same], Nat.le_refl _, I.call, I.fresh, ?_⟩
        rcases I.safe with h | h | ⟨j, h1, h2⟩
        · exact .inl (pend_congr rfl rfl [] (by simp) h)
        · refine .inr (.inl ?_)
          have := hc.1
          simp only; omega
        · refine .inr (.inr ⟨i, ?_, by simp [hi]⟩)
          rcases hc.2 with h | h
          · rw [h] at h1; cases h1
          · exact h
      · rw [if_neg hi]
        refine ⟨by simp [setDelay_ne _ _ hi]; exact I.due, I.past, I.call, I.fresh, ?_⟩
        rcases I.safe with h | h | ⟨j, h1, h2⟩
        · exact .inl (pend_congr rfl rfl [] (by simp) h)
        · exact .inr (.inl h)
        · refine .inr (.inr ⟨j, h1, ?_⟩)
          have hj : j ≠ i := fun hj => shared_false hsh he hi (hj ▸ h1)
          simp only [setDelay_ne _ _ hi, setDelay_ne _ _ hj]
          exact h2
  | remove i =>
    simp only [step] at h
    split at h
    · cases h
    · cases h
      intro x hx
      have I := hs x (List.mem_filter.mp hx).1
      exact ⟨I.due, I.past, I.call, I.fresh, I.safe⟩
  | check c =>
    simp only [step] at h
    rcases hk : s.calls[c]? with _ | ⟨i, ph⟩
    · rw [hk] at h; cases h
    · cases ph with
      | checking =>
        rw [hk] at h
        simp only at h
        have hlt : c < s.calls.length := by
          rcases Nat.lt_or_ge c s.calls.length with h | h
          · exact h
          · rw [List.getElem?_eq_none h] at hk; cases hk
        have hset : ∀ ph, setCall s c ph = s.calls.set c ⟨i, ph⟩ := by intro ph; simp [setCall, hk]
        split at h
        · cases h
          intro x hx
          have I := hs x hx
          refine ⟨I.due, I.past, fun c' hc' => ?_, fun hr => I.fresh ?_, .inl (.inr (.inr ⟨⟨i, .sending⟩, ?_, rfl⟩))⟩
          · simp only [hset, List.length_set]; exact I.call c' hc'
          · intro hn
            apply hr
            unfold relies at hn ⊢
            simp only [hset]
            cases hx : x.call with
            | none => simp
            | some c' =>
              rw [hx] at hn
              by_cases hcc : c = c'
              · subst hcc
                simp [hlt]
              · simpa [List.getElem?_set, hcc] using hn
          · rw [hset]; exact List.mem_set hlt _
        · rename_i hl
          have hw : s.wake ≤ s.now + s.delays i := by
            simp only [tooLate, decide_eq_true_eq] at hl; omega
          cases h
          have hpend : Pend s → Pend { s with
              calls := setCall s c .done
              entries := s.entries.map fun e => if e.call = some c then { e with slack := s.now - e.set } else e } := by
            rintro (⟨b, h⟩ | h | ⟨k, hk', h⟩)
            · exact .inl ⟨b, h⟩
            · exact .inr (.inl h)
            · refine .inr (.inr ⟨k, ?_, h⟩)
              obtain ⟨n, hn⟩ := List.getElem?_of_mem hk'
              refine List.mem_of_getElem? (i := n) ?_
              simp only [hset]
              rw [List.getElem?_set]
              by_cases hcn : c = n
              · subst hcn
                rw [hk] at hn
                cases hn
                cases h
              · rw [if_neg hcn]; exact hn
          intro x hx
          obtain ⟨e, he, rfl⟩ := List.mem_map.mp hx
          have I := hs e he
          by_cases hc : e.call = some c
          · rw [if_pos hc]
            have hr : relies s e = some i := by
              unfold relies
              rw [hc]
              simp [hk]
            have hfresh := I.fresh (by rw [hr]; simp)
            refine ⟨I.due, I.past, fun c' hc' => ?_, fun hr' => ?_, ?_⟩
            · simp only [hset, List.length_set]; exact I.call c' hc'
            · exfalso
              apply hr'
              unfold relies
              simp [hset, hc, hlt]
            · rcases I.safe with h | h | ⟨j, h1, h2⟩
              · exact .inl (hpend h)
              · refine .inr (.inl ?_)
                simp only
                omega
              · refine .inr (.inl ?_)
                rw [hr] at h1
                cases h1
                have := I.due
                have := I.past
                simp only
                omega
          · rw [if_neg hc]
            have hr : ∀ t : S, t.calls = s.calls.set c ⟨i, .done⟩ → relies t e = relies s e := by
              intro t ht
              unfold relies
              rw [ht]
              cases hx : e.call with
              | none => rfl
              | some c' =>
                have : c ≠ c' := fun h => hc (by rw [hx, h])
                simp [List.getElem?_set, this]
            refine ⟨I.due, I.past, fun c' hc' => ?_, fun h => I.fresh (fun h' => h ((hr _ (hset _)).trans h')), ?_⟩
            · simp only [hset, List.length_set]; exact I.call c' hc'
            · rcases I.safe with h | h | ⟨j, h1, h2⟩
              · exact .inl (hpend h)
              · exact .inr (.inl h)
              · exact .inr (.inr ⟨j, (hr _ (hset _)).trans h1, h2⟩)
      | sending => rw [hk] at h; cases h
      | waiting => rw [hk] at h; cases h
      | done => rw [hk] at h; cases h
  | send c =>
    simp only [step] at h
    rcases hk : s.calls[c]? with _ | ⟨i, ph⟩
    · rw [hk] at h; cases h
    · cases ph with
      | sending =>
        rw [hk] at h
        simp only at h
        split at h
        · cases h
        · cases h
          have hset : setCall s c .waiting = s.calls.set c ⟨i, .waiting⟩ := by simp [setCall, hk]
          intro x hx
          have I := hs x hx
          refine ⟨I.due, I.past, fun c' hc' => ?_, fun hr => I.fresh ?_, .inl (.inr (.inl rfl))⟩
          · simp only [hset, List.length_set]; exact I.call c' hc'
          · intro hn
            apply hr
            unfold relies at hn ⊢
            simp only [hset]
            cases hx : x.call with
            | none => simp
            | some c' =>
              rw [hx] at hn
              by_cases hcc : c = c'
              · subst hcc
                by_cases hl : c < s.calls.length <;> simp [hl]
              · simpa [List.getElem?_set, hcc] using hn
      | checking => rw [hk] at h; cases h
      | waiting => rw [hk] at h; cases h
      | done => rw [hk] at h; cases h
  | compute =>
    simp only [step] at h
    cases hp : s.proc with
    | compute b =>
      rw [hp] at h
      cases h
      intro x hx
      have I := hs x hx
      refine ⟨I.due, I.past, I.call, I.fresh, .inr (.inl ?_)⟩
      show wakeTime s ≤ _
      unfold wakeTime
      cases he : earliest s.entries with
      | none =>
        have hx : x ∈ s.entries := hx
        rw [earliest_none he] at hx
        cases hx
      | some m =>
        have := earliest_le he x hx
        simp only; omega
    | announce => rw [hp] at h; cases h
    | sleep => rw [hp] at h; cases h
    | ended => rw [hp] at h; cases h
  | announce c =>
    simp only [step] at h
    cases hp : s.proc with
    | announce =>
      rw [hp] at h
      rcases hk : s.calls[c]? with _ | ⟨i, ph⟩
      · rw [hk] at h; cases h
      · cases ph with
        | waiting =>
          rw [hk] at h
          cases h
          have hset : setCall s c .done = s.calls.set c ⟨i, .done⟩ := by simp [setCall, hk]
          intro x hx
          have I := hs x hx
          have hr : relies { s with proc := .sleep, calls := setCall s c .done } x = relies s x := by
            unfold relies
            simp only [hset]
            cases hx : x.call with
            | none => rfl
            | some c' =>
              by_cases hcc : c = c'
              · subst hcc
                simp only [Option.bind_some, hk]
                rw [List.getElem?_set]
                by_cases hl : c < s.calls.length <;> simp [hl]
              · simp [List.getElem?_set, hcc]
          refine ⟨I.due, I.past, fun c' hc' => ?_, fun h => I.fresh (by rw [← hr]; exact h), ?_⟩
          · simp only [hset, List.length_set]; exact I.call c' hc'
          · rcases I.safe with h | h | ⟨j, h1, h2⟩
            · refine .inl ?_
              rcases h with ⟨b, h⟩ | h | ⟨k, hk', h⟩
              · rw [hp] at h; cases h
              · exact .inr (.inl h)
              · refine .inr (.inr ⟨k, ?_, h⟩)
                obtain ⟨n, hn⟩ := List.getElem?_of_mem hk'
                refine List.mem_of_getElem? (i := n) ?_
                simp only [hset]
                rw [List.getElem?_set]
                by_cases hcn : c = n
                · subst hcn
                  rw [hk] at hn
                  cases hn
                  cases h
                · rw [if_neg hcn]; exact hn
            · exact .inr (.inl h)
            · exact .inr (.inr ⟨j, by rw [hr]; exact h1, h2⟩)
        | checking => rw [hk] at h; cases h
        | sending => rw [hk] at h; cases h
        | done => rw [hk] at h; cases h
    | compute b => rw [hp] at h; cases h
    | sleep => rw [hp] at h; cases h
    | ended => rw [hp] at h; cases h
  | fire =>
    simp only [step] at h
    split at h
    · cases h
      intro x hx
      have I := hs x (List.mem_filter.mp hx).1
      exact ⟨I.due, I.past, I.call, I.fresh, .inl (.inl ⟨_, rfl⟩)⟩
    · cases h
  | receive =>
    simp only [step] at h
    split at h
    · cases h
      intro x hx
      have I := hs x hx
      exact ⟨I.due, I.past, I.call, I.fresh, .inl (.inl ⟨_, rfl⟩)⟩
    · cases h
  | destroy =>
    simp only [step] at h
    split at h
    · cases h
    · cases h
      intro x hx
      cases hx
  | stop =>
    simp only [step] at h
    split at h
    · rename_i hp
      cases h
      intro x hx
      have I := hs x hx
      refine ⟨I.due, I.past, I.call, I.fresh, ?_⟩
      rcases I.safe with h | h | h
      · refine .inl ?_
        rcases h with ⟨b, h⟩ | h | h
        · rw [hp.1] at h; cases h
        · exact .inr (.inl h)
        · exact .inr (.inr h)
      · exact .inr (.inl h)
      · exact .inr (.inr h)
    · cases h

end Verif.Queue.Timer
