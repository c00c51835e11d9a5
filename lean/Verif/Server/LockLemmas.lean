import Verif.Server.Locks
/-! Locks taken in order: lemmas for `Verif/Server/LockProps.lean`. -/
namespace Verif.Server.Locks
variable {L : Type} [DecidableEq L]

/-- Every lock in the program ranks higher than the ones it is taken inside of; with `up` it may be of the same kind. -/
def ordered (rank : L → Nat) : List L → Prog L → Bool
  | _, .skip => true
  | h, .lock l _ up b => h.all (fun d => decide (rank d < rank l) || (up && decide (d = l))) && ordered rank (l :: h) b
  | h, .seq p q => ordered rank h p && ordered rank h q
  | h, .alt p q => ordered rank h p && ordered rank h q
  | h, .many p => ordered rank h p
  | _, .stop => false

def lt (rank : L → Nat) (a b : Key L) : Prop := rank a.cls < rank b.cls ∨ (a.cls = b.cls ∧ a.inst < b.inst)

theorem lt_trans {rank : L → Nat} {a b c : Key L} (h : lt rank a b) (h' : lt rank b c) : lt rank a c := by
  unfold lt at *
  rcases h with h | ⟨h, h1⟩ <;> rcases h' with h' | ⟨h', h2⟩
  · left; omega
  · left; rw [← h']; exact h
  · left; rw [h]; exact h'
  · right; exact ⟨h.trans h', by omega⟩

theorem lt_irrefl {rank : L → Nat} {a : Key L} : ¬ lt rank a a := by
  unfold lt; rintro (h | ⟨_, h⟩) <;> omega

def classes (f : Thread L) : List L := (held f).map fun h => h.1.cls

def Good (rank : L → Nat) : Thread L → Prop
  | [] => True
  | .run p :: f => ordered rank (classes f) p = true ∧ Good rank f
  | .want k _ b :: f => (∀ h ∈ held f, lt rank h.1 k) ∧ ordered rank (k.cls :: classes f) b = true ∧ Good rank f
  | .rel _ _ :: f => Good rank f

theorem good_advance {rank : L → Nat} {g : Key L → Bool → Bool} {f f' : Thread L} {c : Ch} (hg : Good rank f)
    (h : advance g f c = some f') : Good rank f' := by
  unfold advance at h
  split at h <;> try (first | cases h; done | skip)
  · cases h; exact hg.2
  · cases h
    have := hg.1
    simp only [ordered, Bool.and_eq_true] at this
    exact ⟨this.1, this.2, hg.2⟩
  · cases h
    have := hg.1
    simp only [ordered, Bool.and_eq_true] at this
    exact ⟨this.1, hg.2⟩
  · cases h
    have := hg.1
    simp only [ordered, Bool.and_eq_true] at this
    exact ⟨this.2, hg.2⟩
  · cases h
    have := hg.1
    simp only [ordered] at this
    exact ⟨this, by simpa [Good, ordered] using hg⟩
  · cases h; exact hg.2
  · rename_i l w up b f i
    split at h
    · cases h
    · rename_i hn
      cases h
      have ho := hg.1
      simp only [ordered, Bool.and_eq_true, List.all_eq_true] at ho
      refine ⟨?_, ho.2, hg.2⟩
      intro x hx
      have h1 := ho.1 x.1.cls (List.mem_map.mpr ⟨x, hx, rfl⟩)
      simp only [Bool.or_eq_true, decide_eq_true_eq, Bool.and_eq_true] at h1
      rcases h1 with h1 | ⟨hu, hc⟩
      · exact Or.inl h1
      · right
        refine ⟨hc, ?_⟩
        simp only [hu, Bool.true_and, List.any_eq_true, Bool.and_eq_true, decide_eq_true_eq, not_exists, not_and] at hn
        have := hn x hx hc
        show x.1.inst < i
        omega
  · split at h
    · cases h
      exact ⟨by simpa [classes, held] using hg.2.1, hg.2.2⟩
    · cases h
  · cases h; exact hg

def GoodAll (rank : L → Nat) (s : State L) : Prop := ∀ f ∈ s, Good rank f

theorem good_step {rank : L → Nat} {code : List (Prog L)} (hc : ∀ p ∈ code, ordered rank [] p = true) {s s' : State L} {e : Ev}
    (hg : GoodAll rank s) (h : step code s e = some s') : GoodAll rank s' := by
  cases e with
  | start n =>
    simp only [step, Option.map_eq_some_iff] at h
    obtain ⟨p, hp, rfl⟩ := h
    intro f hf
    rcases List.mem_append.mp hf with hf | hf
    · exact hg f hf
    · rw [List.mem_singleton] at hf
      subst hf
      exact ⟨hc p (List.mem_of_getElem? hp), trivial⟩
  | step t c =>
    simp only [step] at h
    split at h
    · cases h
    · rename_i f hf
      simp only [Option.map_eq_some_iff] at h
      obtain ⟨f', hf', rfl⟩ := h
      intro g hgm
      rcases List.mem_or_eq_of_mem_set hgm with hm | rfl
      · exact hg g hm
      · exact good_advance (hg f (List.mem_of_getElem? hf)) hf'

theorem good_run {rank : L → Nat} {code : List (Prog L)} (hc : ∀ p ∈ code, ordered rank [] p = true) :
    ∀ (es : List Ev) {s s' : State L}, GoodAll rank s → run code s es = some s' → GoodAll rank s' := by
  intro es
  induction es with
  | nil => intro s s' hg h; cases h; exact hg
  | cons e es ih =>
    intro s s' hg h
    simp only [run, Option.bind_eq_some_iff] at h
    obtain ⟨s1, h1, h2⟩ := h
    exact ih (good_step hc hg h1) h2

/-- A call with something to do can go on or waits for a lock it will not get at once. -/
theorem go_or_wait {rank : L → Nat} {s : State L} {t : Nat} {f : Thread L} (hf : s[t]? = some f) (hn : f ≠ []) (hg : Good rank f) :
    CanGo s t ∨ ∃ k w, wants f = some (k, w) ∧ sure s k w = false := by
  match f, hn with
  | .run .skip :: r, _ => exact Or.inl ⟨_, .go, _, hf, rfl⟩
  | .run (.seq p q) :: r, _ => exact Or.inl ⟨_, .go, _, hf, rfl⟩
  | .run (.alt p q) :: r, _ => exact Or.inl ⟨_, .left, _, hf, rfl⟩
  | .run (.many p) :: r, _ => exact Or.inl ⟨_, .right, _, hf, rfl⟩
  | .run .stop :: r, _ => simp [Good, ordered] at hg
  | .run (.lock l w up b) :: r, _ =>
    left
    have : ∃ i, ∀ h ∈ held r, h.1.inst < i := by
      generalize held r = hs
      induction hs with
      | nil => exact ⟨0, fun _ h => by cases h⟩
      | cons a hs ih =>
        obtain ⟨i, hi⟩ := ih
        refine ⟨i + a.1.inst + 1, fun h hh => ?_⟩
        rcases List.mem_cons.mp hh with rfl | hh
        · omega
        · have := hi h hh; omega
    obtain ⟨i, hi⟩ := this
    refine ⟨_, .inst i, .want ⟨l, i⟩ w b :: r, hf, ?_⟩
    simp only [advance]
    rw [if_neg]
    intro hh
    simp only [Bool.and_eq_true, List.any_eq_true, decide_eq_true_eq] at hh
    obtain ⟨_, x, hx, _, hle⟩ := hh
    have := hi x hx
    omega
  | .rel k w :: r, _ => exact Or.inl ⟨_, .go, _, hf, rfl⟩
  | .want k w b :: r, _ =>
    by_cases h : sure s k w = true
    · exact Or.inl ⟨_, .go, _, hf, by simp only [advance, h]; rfl⟩
    · exact Or.inr ⟨k, w, rfl, by simpa using h⟩

theorem not_free {s : State L} {k : Key L} {w : Bool} (h : free s k w = false) :
    ∃ (u : Nat) (g : Thread L) (w' : Bool), s[u]? = some g ∧ (k, w') ∈ held g ∧ (w || w') = true := by
  simp only [free, List.all_eq_false, Bool.not_eq_true] at h
  obtain ⟨g, hg, h⟩ := h
  simp only [List.all_eq_false, Bool.not_eq_true, Bool.not_eq_false', Bool.and_eq_true, decide_eq_true_eq] at h
  obtain ⟨x, hx, he, hw⟩ := h
  obtain ⟨u, hu⟩ := List.getElem?_of_mem hg
  refine ⟨u, g, x.2, hu, ?_, hw⟩
  rw [← he]
  exact hx

theorem not_sure {s : State L} {k : Key L} {w : Bool} (h : sure s k w = false) :
    (∃ (u : Nat) (g : Thread L) (w' : Bool), s[u]? = some g ∧ (k, w') ∈ held g ∧ (w || w') = true) ∨
    (w = false ∧ ∃ (u : Nat) (g : Thread L), s[u]? = some g ∧ wants g = some (k, true)) := by
  by_cases hf : free s k w = false
  · exact Or.inl (not_free hf)
  · right
    have hf : free s k w = true := by simpa using hf
    simp only [sure, hf, Bool.true_and, Bool.or_eq_false_iff, List.all_eq_false, Bool.not_eq_true, Bool.not_eq_false',
      decide_eq_true_eq] at h
    obtain ⟨hw, g, hg, he⟩ := h
    obtain ⟨u, hu⟩ := List.getElem?_of_mem hg
    exact ⟨hw, u, g, hu, he⟩

theorem held_ne_nil {f : Thread L} {x : Key L × Bool} (h : x ∈ held f) : f ≠ [] := by
  rintro rfl; cases h

/-- A call wants only what ranks higher than all it has. -/
theorem good_wants {rank : L → Nat} {f : Thread L} {k : Key L} {w : Bool} (hg : Good rank f) (hw : wants f = some (k, w)) :
    ∀ x ∈ held f, lt rank x.1 k := by
  unfold wants at hw
  split at hw
  · cases hw
    exact hg.1
  · cases hw

def above (rank : L → Nat) (k : Key L) (f : Thread L) : Bool :=
  match wants f with
  | some (k', _) => decide (rank k.cls < rank k'.cls) || (decide (k.cls = k'.cls) && decide (k.inst < k'.inst))
  | none => false

theorem above_iff {rank : L → Nat} {k k' : Key L} {w : Bool} {f : Thread L} (h : wants f = some (k', w)) :
    above rank k f = true ↔ lt rank k k' := by
  simp only [above, h, lt, Bool.or_eq_true, Bool.and_eq_true, decide_eq_true_eq]

theorem above_mono {rank : L → Nat} {k k' : Key L} (hl : lt rank k k') {f : Thread L} (h : above rank k' f = true) :
    above rank k f = true := by
  cases hw : wants f with
  | none => simp [above, hw] at h
  | some x =>
    obtain ⟨y, w⟩ := x
    rw [above_iff hw] at h ⊢
    exact lt_trans hl h

theorem count_lt {p q : Thread L → Bool} (hpq : ∀ f, q f = true → p f = true) :
    ∀ (s : State L) {g : Thread L}, g ∈ s → p g = true → q g = false → s.countP q < s.countP p := by
  intro s
  induction s with
  | nil => intro g h; cases h
  | cons a s ih =>
    intro g hg hp hq
    have hle : s.countP q ≤ s.countP p := List.countP_mono_left fun x _ => hpq x
    rw [List.countP_cons, List.countP_cons]
    rcases List.mem_cons.mp hg with rfl | hg
    · simp only [hp, hq, if_true, Bool.false_eq_true, if_false]; omega
    · have := ih hg hp hq
      have : (if q a = true then 1 else 0) ≤ (if p a = true then 1 else 0) := by
        by_cases h : q a = true
        · simp [h, hpq a h]
        · simp [h]
      omega

theorem progress {rank : L → Nat} {s : State L} (hg : GoodAll rank s) :
    ∀ (n t : Nat) (f : Thread L) (k : Key L) (w : Bool), s[t]? = some f → wants f = some (k, w) →
      s.countP (above rank k) ≤ n → ∃ u, Chain s t u ∧ CanGo s u := by
  intro n
  induction n with
  | zero => ?_
  | succ n ih => ?_
  all_goals
    intro t f k w hf hw hc
    -- what is true of a holder of the lock
    have holder : ∀ (t : Nat) (f : Thread L) (w : Bool) (v : Nat) (g : Thread L) (w' : Bool), s[t]? = some f →
        wants f = some (k, w) → s[v]? = some g → (k, w') ∈ held g → (w || w') = true → ∃ u, Chain s t u ∧ CanGo s u := by
      intro t f w v g w' hf hw hv hk hww
      have W : Waits s t v := ⟨f, g, k, w, hf, hv, hw, Or.inl ⟨w', hk, hww⟩⟩
      rcases go_or_wait hv (held_ne_nil hk) (hg g (List.mem_of_getElem? hv)) with hgo | ⟨k2, w2, hw2, _⟩
      · exact ⟨v, .next W (.here v), hgo⟩
      · have hl := good_wants (hg g (List.mem_of_getElem? hv)) hw2 _ hk
        have hlt := count_lt (p := above rank k) (q := above rank k2) (fun f => above_mono hl) s (List.mem_of_getElem? hv)
          ((above_iff hw2).mpr hl) (by
            cases h : above rank k2 g with
            | false => rfl
            | true => exact absurd ((above_iff hw2).mp h) lt_irrefl)
        first
          | (have h0 : s.countP (above rank k2) < 0 := by omega
             omega)
          | (obtain ⟨u, hu, hgo⟩ := ih v g k2 w2 hv hw2 (by omega)
             exact ⟨u, .next W hu, hgo⟩)
    have hne : f ≠ [] := by rintro rfl; cases hw
    rcases go_or_wait hf hne (hg f (List.mem_of_getElem? hf)) with hgo | ⟨k1, w1, hw1, hs⟩
    · exact ⟨t, .here t, hgo⟩
    · rw [hw] at hw1
      cases hw1
      rcases not_sure hs with ⟨v, g, w', hv, hk, hww⟩ | ⟨hwf, v, g, hv, hwv⟩
      · exact holder t f w v g w' hf hw hv hk hww
      · have W : Waits s t v := ⟨f, g, k, w, hf, hv, hw, Or.inr ⟨hwf, hwv⟩⟩
        have hne : g ≠ [] := by rintro rfl; cases hwv
        rcases go_or_wait hv hne (hg g (List.mem_of_getElem? hv)) with hgo | ⟨k1, w1, hw1, hs⟩
        · exact ⟨v, .next W (.here v), hgo⟩
        · rw [hwv] at hw1
          cases hw1
          rcases not_sure hs with ⟨x, g2, w', hx, hk, hww⟩ | ⟨hwf, _⟩
          · obtain ⟨u, hu, hgo⟩ := holder v g true x g2 w' hv hwv hx hk hww
            exact ⟨u, .next W hu, hgo⟩
          · cases hwf

theorem noDeadlock {rank : L → Nat} {s : State L} (hg : GoodAll rank s) : NoDeadlock s := by
  intro t f hf hne
  rcases go_or_wait hf hne (hg f (List.mem_of_getElem? hf)) with hgo | ⟨k, w, hw, _⟩
  · exact ⟨t, .here t, hgo⟩
  · exact progress hg _ t f k w hf hw (Nat.le_refl _)

/-- How far up a waiting call is: its lock, and readers before writers. -/
def Below (rank : L → Nat) (a b : Key L × Bool) : Prop := lt rank a.1 b.1 ∨ (a.1 = b.1 ∧ a.2 = false ∧ b.2 = true)

theorem below_trans {rank : L → Nat} {a b c : Key L × Bool} (h : Below rank a b) (h' : Below rank b c) : Below rank a c := by
  unfold Below at *
  rcases h with h | ⟨h, h1, h2⟩ <;> rcases h' with h' | ⟨h', h3, h4⟩
  · exact Or.inl (lt_trans h h')
  · left; rw [← h']; exact h
  · left; rw [h]; exact h'
  · rw [h3] at h2; cases h2

theorem below_irrefl {rank : L → Nat} {a : Key L × Bool} : ¬ Below rank a a := by
  rintro (h | ⟨_, h1, h2⟩)
  · exact lt_irrefl h
  · rw [h1] at h2; cases h2

theorem waits_below {rank : L → Nat} {s : State L} (hg : GoodAll rank s) {t u : Nat} (h : Waits s t u) {g : Thread L}
    {b : Key L × Bool} (hu : s[u]? = some g) (hb : wants g = some b) :
    ∃ f a, s[t]? = some f ∧ wants f = some a ∧ Below rank a b := by
  obtain ⟨f, g', k, w, hf, hg', hw, h⟩ := h
  rw [hu] at hg'
  cases hg'
  refine ⟨f, (k, w), hf, hw, ?_⟩
  rcases h with ⟨w', hk, _⟩ | ⟨hwf, hwg⟩
  · exact Or.inl (good_wants (w := b.2) (hg g (List.mem_of_getElem? hu)) hb (k, w') hk)
  · rw [hb] at hwg
    cases hwg
    exact Or.inr ⟨rfl, hwf, rfl⟩

theorem chain_below {rank : L → Nat} {s : State L} (hg : GoodAll rank s) {t u : Nat} (h : Chain s t u) :
    ∀ {f g : Thread L} {a b : Key L × Bool}, s[t]? = some f → wants f = some a → s[u]? = some g → wants g = some b →
      t = u ∨ Below rank a b := by
  induction h with
  | here t => intros; left; rfl
  | @next t v u hw hc ih =>
    intro f g a b hf ha hu hb
    right
    cases hc with
    | here =>
      obtain ⟨f', a', hf', ha', hlt⟩ := waits_below hg hw hu hb
      rw [hf] at hf'; cases hf'
      rw [ha] at ha'; cases ha'
      exact hlt
    | next hw2 hc2 =>
      -- the one in between waits too
      obtain ⟨fv, gv, k, w, hfv, _, hwv, _⟩ := hw2
      obtain ⟨f', a', hf', ha', hlt⟩ := waits_below hg hw hfv hwv
      rw [hf] at hf'; cases hf'
      rw [ha] at ha'; cases ha'
      rcases ih hfv hwv hu hb with rfl | h2
      · rw [hu] at hfv; cases hfv
        rw [hb] at hwv; cases hwv
        exact hlt
      · exact below_trans hlt h2

theorem noCircle {rank : L → Nat} {s : State L} (hg : GoodAll rank s) (t : Nat) : ¬ Circle s t := by
  rintro ⟨u, hw, hc⟩
  obtain ⟨f, g, k, w, hf, hu, hk, _⟩ := id hw
  cases hwg : wants g with
  | none =>
    cases hc with
    | here =>
      rw [hf] at hu; cases hu
      rw [hk] at hwg; cases hwg
    | next hw2 _ =>
      obtain ⟨g', _, _, _, hg', _, hk', _⟩ := hw2
      rw [hu] at hg'; cases hg'
      rw [hk'] at hwg; cases hwg
  | some b =>
    obtain ⟨f', a, hf', ha, hlt⟩ := waits_below hg hw hu hwg
    rcases chain_below hg hc hu hwg hf' ha with rfl | h2
    · rw [hu] at hf'; cases hf'
      rw [hwg] at ha; cases ha
      exact below_irrefl hlt
    · exact below_irrefl (below_trans hlt h2)

/-! ## Stuck for ever -/

/-- `f` wants a lock that `g` has. -/
def Blocks (f g : Thread L) : Prop := ∃ k w w', wants f = some (k, w) ∧ (k, w') ∈ held g ∧ (w || w') = true

theorem blocked_stays {s : State L} {t u : Nat} {f g : Thread L} (hf : s[t]? = some f) (hu : s[u]? = some g) (h : Blocks f g)
    (c : Ch) : advance (free s) f c = none := by
  obtain ⟨k, w, w', hw, hk, hww⟩ := h
  unfold wants at hw
  split at hw
  · rename_i k1 w1 b r
    cases hw
    cases c with
    | go =>
      simp only [advance]
      rw [if_neg]
      intro hfree
      simp only [free, List.all_eq_true] at hfree
      have := hfree g (List.mem_of_getElem? hu) _ hk
      simp [hww] at this
    | left => rfl
    | right => rfl
    | inst i => rfl
  · cases hw

theorem keep {code : List (Prog L)} {s s' : State L} {t : Nat} {f : Thread L} (hf : s[t]? = some f)
    (hn : ∀ c, advance (free s) f c = none) {e : Ev} (h : step code s e = some s') : s'[t]? = some f := by
  have hlt : t < s.length := (List.getElem?_eq_some_iff.mp hf).1
  cases e with
  | start n =>
    simp only [step, Option.map_eq_some_iff] at h
    obtain ⟨p, _, rfl⟩ := h
    rw [List.getElem?_append_left hlt]
    exact hf
  | step u c =>
    simp only [step] at h
    split at h
    · cases h
    · rename_i g hg
      simp only [Option.map_eq_some_iff] at h
      obtain ⟨f', hf', rfl⟩ := h
      by_cases htu : u = t
      · subst htu
        rw [hf] at hg; cases hg
        rw [hn c] at hf'; cases hf'
      · rw [List.getElem?_set_ne htu]
        exact hf

theorem two_stuck {code : List (Prog L)} :
    ∀ (es : List Ev) {s s' : State L} {t u : Nat} {f g : Thread L}, s[t]? = some f → s[u]? = some g → Blocks f g → Blocks g f →
      run code s es = some s' → s'[t]? = some f ∧ s'[u]? = some g := by
  intro es
  induction es with
  | nil => intro s s' t u f g hf hg _ _ h; cases h; exact ⟨hf, hg⟩
  | cons e es ih =>
    intro s s' t u f g hf hg h1 h2 h
    simp only [run, Option.bind_eq_some_iff] at h
    obtain ⟨s1, hs, hr⟩ := h
    exact ih (keep hf (blocked_stays hf hg h1) hs) (keep hg (blocked_stays hg hf h2) hs) h1 h2 hr

theorem stop_stuck {code : List (Prog L)} :
    ∀ (es : List Ev) {s s' : State L} {t u : Nat} {f r : Thread L}, s[t]? = some f → s[u]? = some (.run .stop :: r) →
      Blocks f (.run .stop :: r) → run code s es = some s' → s'[t]? = some f ∧ s'[u]? = some (.run .stop :: r) := by
  intro es
  induction es with
  | nil => intro s s' t u f g hf hg _ h; cases h; exact ⟨hf, hg⟩
  | cons e es ih =>
    intro s s' t u f r hf hg h1 h
    simp only [run, Option.bind_eq_some_iff] at h
    obtain ⟨s1, hs, hr⟩ := h
    exact ih (keep hf (blocked_stays hf hg h1) hs) (keep hg (fun c => by cases c <;> rfl) hs) h1 hr

end Verif.Server.Locks
