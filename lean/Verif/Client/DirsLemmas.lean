import Verif.Client.Dirs
/-! # Invariant of `Dirs` -/
namespace Verif.Client.Dirs

/-- from `x` down to `d` -/
def Chain (x : Path) : List Path → Path → Prop
  | [], d => x = d
  | q :: r, d => q.tail = x ∧ q ≠ [] ∧ Chain q r d

theorem Chain.length {x d : Path} {l : List Path} (h : Chain x l d) : x.length ≤ d.length := by
  induction l generalizing x with
  | nil => cases h; exact Nat.le_refl _
  | cons q r ih =>
    have := ih h.2.2
    have h1 := h.1
    subst h1
    simp only [List.length_tail]; omega

/-- the innermost directory a client counts on -/
def base (c : Client) : Option Path :=
  match c.at_ with
  | .up .. => none
  | .down _ [] => some c.dir
  | .down _ (q :: _) => some q.tail
  | .hold => some c.dir
  | .temp => some c.dir
  | .unhold l => l
  | .running l => some l
  | .rm q => some q
  | .done => none
  | .failed => none

/-- the client will remove `q`, or someone else does -/
def Own (dirs : List Path) (c : Client) (q : Path) : Prop := ∃ x, base c = some x ∧ x ∈ dirs ∧ q <:+ x

/-- the client's own directory -/
def leafOf (c : Client) : Option Path :=
  match c.at_ with
  | .unhold l => l
  | .running l => some l
  | _ => none

/-- what holds of each client -/
def Fine (dirs : List Path) (c : Client) : Prop :=
  c.dir.length = 4 ∧
  (∀ l, leafOf c = some l → l ∈ dirs ∧ l.tail = c.dir ∧ l.length = 5) ∧
  match c.at_ with
  | .up _ q below => Chain q below c.dir
  | .down _ todo => ∃ x, Chain x todo c.dir
  | .rm q => q.length ≤ 4
  | _ => True

/-- the client made a hold file and has not removed it -/
def Holding (c : Client) : Prop := c.at_ = .temp ∨ ∃ l, c.at_ = .unhold (some l)

structure Inv (s : St) : Prop where
  nonnil : [] ∉ s.dirs
  closed : ∀ q ∈ s.dirs, q.tail = [] ∨ q.tail ∈ s.dirs
  fine : ∀ (t : Nat) (c : Client), s.clients[t]? = some c → Fine s.dirs c
  distinct : ∀ (t u : Nat) (c e : Client) l, s.clients[t]? = some c → s.clients[u]? = some e → leafOf c = some l → leafOf e = some l → t = u
  holdsIn : ∀ d ∈ s.holds, d ∈ s.dirs
  holder : ∀ d ∈ s.holds, ∃ (t : Nat) (c : Client), s.clients[t]? = some c ∧ c.dir = d ∧ Holding c
  owner : ∀ q ∈ s.dirs, ∃ (t : Nat) (c : Client), s.clients[t]? = some c ∧ Own s.dirs c q

theorem inv_init : Inv {} := by constructor <;> simp

theorem there_iff {dirs : List Path} {q : Path} : there dirs q = true ↔ q = [] ∨ q ∈ dirs := by simp [there]

theorem there_false {dirs : List Path} {q : Path} : ¬ there dirs q = true ↔ q ≠ [] ∧ q ∉ dirs := by
  rw [there_iff, not_or]

theorem mem_ins {l : List Path} {q r : Path} : r ∈ ins l q ↔ r ∈ l ∨ r = q := by
  unfold ins
  split
  · rename_i h
    simp at h
    constructor
    · exact .inl
    · rintro (h1 | rfl)
      · exact h1
      · exact h
  · simp

theorem get_set {l : List Client} {t u : Nat} {c e x : Client} (ht : l[t]? = some c) :
    (l.set t x)[u]? = some e ↔ (u = t ∧ e = x) ∨ (u ≠ t ∧ l[u]? = some e) := by
  rw [List.getElem?_set]
  have := (List.getElem?_eq_some_iff.1 ht).1
  grind

theorem suffix_tail {p q : Path} (h : p <:+ q) (hne : p ≠ q) : p <:+ q.tail := by
  cases q with
  | nil => exact absurd (List.suffix_nil.1 h) hne
  | cons x q =>
    rcases List.suffix_cons_iff.1 h with h | h
    · exact absurd h hne
    · exact h

theorem tail_suffix (q : Path) : q.tail <:+ q := List.tail_suffix q

theorem len_suffix {p q : Path} (h : p <:+ q) : p.length ≤ q.length := h.length_le

/-- the length of what a client counts on, if it is not its own directory -/
theorem base_short {dirs : List Path} {c : Client} (h : Fine dirs c) {x : Path} (hb : base c = some x) :
    x.length ≤ 4 ∨ leafOf c = some x := by
  obtain ⟨h1, _, h3⟩ := h
  unfold base leafOf at *
  cases ha : c.at_ with
  | up => rw [ha] at hb; cases hb
  | down k todo =>
    rw [ha] at hb h3
    obtain ⟨y, h3⟩ := h3
    left
    cases todo with
    | nil => cases hb; omega
    | cons q r =>
      cases hb
      have := Chain.length h3
      have h4 := h3.1
      subst h4; omega
  | hold => rw [ha] at hb; cases hb; left; omega
  | temp => rw [ha] at hb; cases hb; left; omega
  | unhold l => rw [ha] at hb; right; exact hb
  | running l => rw [ha] at hb; right; exact hb
  | rm q => rw [ha] at hb h3; cases hb; left; exact h3
  | done => rw [ha] at hb; cases hb
  | failed => rw [ha] at hb; cases hb

/-- No directory is removed and nothing else made than what the client counts on then. -/
theorem inv_grow {s : St} (h : Inv s) {t : Nat} {c : Client} (ht : s.clients[t]? = some c) {ds hs : List Path} {a : At}
    (hsub : ∀ q ∈ s.dirs, q ∈ ds)
    (hnew : ∀ q ∈ ds, q ∈ s.dirs ∨ (q ≠ [] ∧ (q.tail = [] ∨ q.tail ∈ s.dirs) ∧ base { c with at_ := a } = some q))
    (hfine : Fine ds { c with at_ := a })
    (hleaf : ∀ l, leafOf { c with at_ := a } = some l → leafOf c = some l ∨ l ∉ s.dirs)
    (hholds : ∀ d ∈ hs, (d ∈ s.holds ∧ (c.dir = d → Holding c → Holding { c with at_ := a })) ∨
      (d = c.dir ∧ d ∈ ds ∧ Holding { c with at_ := a }))
    (hown : ∀ q, q ∈ s.dirs → Own s.dirs c q → (Own ds { c with at_ := a } q ∨
      ∃ (u : Nat) (e : Client), u ≠ t ∧ s.clients[u]? = some e ∧ Own s.dirs e q)) :
    Inv { dirs := ds, holds := hs, clients := s.clients.set t { c with at_ := a } } := by
  have fine_mono : ∀ {e : Client}, Fine s.dirs e → Fine ds e := fun ⟨h1, h2, h3⟩ =>
    ⟨h1, fun l hl => ⟨hsub l (h2 l hl).1, (h2 l hl).2⟩, h3⟩
  have own_mono : ∀ {e : Client} {q}, Own s.dirs e q → Own ds e q := fun ⟨x, h1, h2, h3⟩ => ⟨x, h1, hsub x h2, h3⟩
  constructor
  · intro hn
    rcases hnew [] hn with h1 | ⟨h1, _⟩
    · exact h.nonnil h1
    · exact h1 rfl
  · intro q hq
    rcases hnew q hq with h1 | ⟨_, h1, _⟩
    · exact (h.closed q h1).imp id (hsub _)
    · exact h1.imp id (hsub _)
  · intro u e hu
    rcases (get_set ht).1 hu with ⟨_, rfl⟩ | ⟨_, hu⟩
    · exact hfine
    · exact fine_mono (h.fine u e hu)
  · intro u v e f l hu hv he hf
    rcases (get_set ht).1 hu with ⟨hu1, rfl⟩ | ⟨hu1, hu2⟩ <;> rcases (get_set ht).1 hv with ⟨hv1, rfl⟩ | ⟨hv1, hv2⟩
    · omega
    · rcases hleaf l he with h1 | h1
      · exact absurd (h.distinct t v c f l ht hv2 h1 hf) (fun hh => hv1 hh.symm)
      · exact absurd ((h.fine v f hv2).2.1 l hf).1 h1
    · rcases hleaf l hf with h1 | h1
      · exact absurd (h.distinct u t e c l hu2 ht he h1) hu1
      · exact absurd ((h.fine u e hu2).2.1 l he).1 h1
    · exact h.distinct u v e f l hu2 hv2 he hf
  · intro d hd
    rcases hholds d hd with ⟨h1, _⟩ | ⟨_, h1, _⟩
    · exact hsub d (h.holdsIn d h1)
    · exact h1
  · intro d hd
    rcases hholds d hd with ⟨h1, h2⟩ | ⟨h1, _, h2⟩
    · obtain ⟨u, e, g1, g2, g3⟩ := h.holder d h1
      by_cases hut : u = t
      · subst hut
        rw [ht] at g1; cases g1
        exact ⟨u, _, (get_set ht).2 (.inl ⟨rfl, rfl⟩), g2, h2 g2 g3⟩
      · exact ⟨u, e, (get_set ht).2 (.inr ⟨hut, g1⟩), g2, g3⟩
    · exact ⟨t, _, (get_set ht).2 (.inl ⟨rfl, rfl⟩), h1.symm, h2⟩
  · intro q hq
    rcases hnew q hq with h1 | ⟨_, _, h1⟩
    · obtain ⟨u, e, g1, g2⟩ := h.owner q h1
      by_cases hut : u = t
      · subst hut
        rw [ht] at g1; cases g1
        rcases hown q h1 g2 with g3 | ⟨v, f, g3, g4, g5⟩
        · exact ⟨u, _, (get_set ht).2 (.inl ⟨rfl, rfl⟩), g3⟩
        · exact ⟨v, f, (get_set ht).2 (.inr ⟨g3, g4⟩), own_mono g5⟩
      · exact ⟨u, e, (get_set ht).2 (.inr ⟨hut, g1⟩), own_mono g2⟩
    · exact ⟨t, _, (get_set ht).2 (.inl ⟨rfl, rfl⟩), q, h1, hq, List.suffix_refl _⟩

/-- A directory is removed that the client counted on, and on which no other client's own directory is. -/
theorem inv_shrink {s : St} (h : Inv s) {t : Nat} {c : Client} (ht : s.clients[t]? = some c) {x : Path}
    (hb : base c = some x) (hx : x ∈ s.dirs) (hempty : ∀ r ∈ s.dirs, r.tail ≠ x) (hhold : x ∉ s.holds)
    (hleaf : ∀ (u : Nat) (e : Client), u ≠ t → s.clients[u]? = some e → leafOf e ≠ some x)
    (hlen : x.length ≤ 5) (hnh : ¬ Holding c) :
    Inv { dirs := s.dirs.filter (· ≠ x), holds := s.holds, clients := s.clients.set t { c with at_ := .rm x.tail } } := by
  have mem : ∀ {q}, q ∈ s.dirs.filter (· ≠ x) ↔ q ∈ s.dirs ∧ q ≠ x := by intro q; simp
  have up_of : ∀ q, q ∈ s.dirs → q ≠ x → q <:+ x → Own (s.dirs.filter (· ≠ x)) { c with at_ := .rm x.tail } q := by
    intro q hq hne hs
    have h1 := suffix_tail hs hne
    refine ⟨x.tail, rfl, mem.2 ⟨?_, ?_⟩, h1⟩
    · rcases h.closed x hx with h2 | h2
      · rw [h2] at h1
        rw [List.suffix_nil.1 h1] at hq
        exact absurd hq h.nonnil
      · exact h2
    · intro hh
      have : x ≠ [] := fun h2 => h.nonnil (h2 ▸ hx)
      have : x.tail.length < x.length := by
        cases x with
        | nil => exact absurd rfl this
        | cons => simp
      rw [hh] at this; omega
  constructor
  · intro hn; exact h.nonnil (mem.1 hn).1
  · intro q hq
    obtain ⟨h1, h2⟩ := mem.1 hq
    exact (h.closed q h1).imp id fun h3 => mem.2 ⟨h3, hempty q h1⟩
  · intro u e hu
    rcases (get_set ht).1 hu with ⟨_, rfl⟩ | ⟨hut, hu'⟩
    · refine ⟨(h.fine t c ht).1, (fun l hl => by cases hl), ?_⟩
      show x.tail.length ≤ 4
      simp only [List.length_tail]; omega
    · obtain ⟨h1, h2, h3⟩ := h.fine u e hu'
      refine ⟨h1, fun l hl => ⟨mem.2 ⟨(h2 l hl).1, fun hh => ?_⟩, (h2 l hl).2⟩, h3⟩
      subst hh; exact hleaf u e hut hu' hl
  · intro u v e f l hu hv he hf
    rcases (get_set ht).1 hu with ⟨hu1, rfl⟩ | ⟨hu1, hu2⟩
    · cases he
    · rcases (get_set ht).1 hv with ⟨hv1, rfl⟩ | ⟨hv1, hv2⟩
      · cases hf
      · exact h.distinct u v e f l hu2 hv2 he hf
  · intro d hd
    exact mem.2 ⟨h.holdsIn d hd, fun hh => hhold (hh ▸ hd)⟩
  · intro d hd
    obtain ⟨u, e, g1, g2, g3⟩ := h.holder d hd
    have hut : u ≠ t := by
      rintro rfl
      rw [ht] at g1; cases g1; exact hnh g3
    exact ⟨u, e, (get_set ht).2 (.inr ⟨hut, g1⟩), g2, g3⟩
  · intro q hq
    obtain ⟨h1, h2⟩ := mem.1 hq
    obtain ⟨u, e, g1, y, g2, g3, g4⟩ := h.owner q h1
    by_cases hy : y = x
    · subst hy
      exact ⟨t, _, (get_set ht).2 (.inl ⟨rfl, rfl⟩), up_of q h1 h2 g4⟩
    · by_cases hut : u = t
      · subst hut
        rw [ht] at g1; cases g1
        rw [hb] at g2; cases g2; exact absurd rfl hy
      · exact ⟨u, e, (get_set ht).2 (.inr ⟨hut, g1⟩), y, g2, mem.2 ⟨g3, hy⟩, g4⟩

theorem len_dir {dirs : List Path} {c : Client} (h : Fine dirs c) : c.dir ≠ [] := by
  intro hh
  have := h.1
  rw [hh] at this; cases this

set_option maxHeartbeats 1000000 in
theorem inv_call {s : St} (h : Inv s) {t n : Nat} {c : Client} (ht : s.clients[t]? = some c) {ds hs : List Path} {a : At}
    (hc : call s.dirs s.holds c.dir n c.at_ = some (ds, hs, a)) :
    Inv { dirs := ds, holds := hs, clients := s.clients.set t { c with at_ := a } } := by
  have hf := h.fine t c ht
  have hne := len_dir hf
  obtain ⟨d, st⟩ := c
  cases st with
  | up k q below =>
    have hch : Chain q below d := hf.2.2
    simp only [call, Option.some.injEq, Prod.mk.injEq] at hc
    obtain ⟨rfl, rfl, rfl⟩ := hc
    refine inv_grow h ht (fun _ h => h) (fun _ h => .inl h) ⟨hf.1, ?_, ?_⟩ ?_ (fun x hx => .inl ⟨hx, ?_⟩) ?_
    · intro l hl; split at hl <;> cases hl
    · by_cases hq : there s.dirs q = true
      · simp only [if_pos hq]; exact ⟨q, hch⟩
      · simp only [if_neg hq]; exact ⟨rfl, (there_false.1 hq).1, hch⟩
    · intro l hl; split at hl <;> cases hl
    · rintro _ (h1 | ⟨_, h1⟩) <;> cases h1
    · rintro x _ ⟨y, h1, _⟩; cases h1
  | down k todo =>
    cases todo with
    | nil =>
      simp only [call, Option.some.injEq, Prod.mk.injEq] at hc
      obtain ⟨rfl, rfl, rfl⟩ := hc
      refine inv_grow h ht (fun _ h => h) (fun _ h => .inl h) ⟨hf.1, (fun l hl => by cases hl), trivial⟩ (fun l hl => by cases hl)
        (fun x hx => .inl ⟨hx, ?_⟩) ?_
      · rintro _ (h1 | ⟨_, h1⟩) <;> cases h1
      · intro x _ ho; exact .inl ho
    | cons q r =>
      obtain ⟨x0, hx0, hq0, hch⟩ : ∃ x, Chain x (q :: r) d := hf.2.2
      simp only [call] at hc
      split at hc
      · rename_i hth
        simp only [Option.some.injEq, Prod.mk.injEq] at hc
        obtain ⟨rfl, rfl, rfl⟩ := hc
        have hbase : base { dir := d, at_ := .down k r } = some q := by
          cases r with
          | nil => cases hch; rfl
          | cons q' r => exact congrArg some hch.1
        refine inv_grow h ht (fun x hx => mem_ins.2 (.inl hx)) ?_ ⟨hf.1, (fun l hl => by cases hl), ⟨q, hch⟩⟩ (fun l hl => by cases hl)
          (fun x hx => .inl ⟨hx, ?_⟩) ?_
        · intro x hx
          rcases mem_ins.1 hx with hx | rfl
          · exact .inl hx
          · exact .inr ⟨hq0, there_iff.1 hth, hbase⟩
        · rintro _ (h1 | ⟨_, h1⟩) <;> cases h1
        · rintro x _ ⟨y, h1, _, h3⟩
          cases h1
          exact .inl ⟨q, hbase, mem_ins.2 (.inr rfl), h3.trans (tail_suffix q)⟩
      · rename_i hth
        simp only [Option.some.injEq, Prod.mk.injEq] at hc
        obtain ⟨rfl, rfl, rfl⟩ := hc
        refine inv_grow h ht (fun _ h => h) (fun _ h => .inl h) ⟨hf.1, ?_, ?_⟩ ?_ (fun x hx => .inl ⟨hx, ?_⟩) ?_
        · unfold mkFailed; intro l hl; split at hl <;> cases hl
        · unfold mkFailed
          by_cases hk : k + 1 ≤ 3
          · simp only [if_pos hk]; exact rfl
          · simp only [if_neg hk]
        · unfold mkFailed; intro l hl; split at hl <;> cases hl
        · rintro _ (h1 | ⟨_, h1⟩) <;> cases h1
        · rintro x _ ⟨y, h1, h2, _⟩
          cases h1
          exact absurd h2 (there_false.1 hth).2
  | hold =>
    simp only [call] at hc
    split at hc
    · rename_i hth
      simp only [Option.some.injEq, Prod.mk.injEq] at hc
      obtain ⟨rfl, rfl, rfl⟩ := hc
      refine inv_grow h ht (fun _ h => h) (fun _ h => .inl h) ⟨hf.1, (fun l hl => by cases hl), trivial⟩ (fun l hl => by cases hl) ?_ ?_
      · intro x hx
        rcases mem_ins.1 hx with hx | rfl
        · exact .inl ⟨hx, fun _ _ => .inl rfl⟩
        · right
          refine ⟨rfl, ?_, .inl rfl⟩
          rcases there_iff.1 hth with h1 | h1
          · exact absurd h1 hne
          · exact h1
      · intro x _ ho; exact .inl ho
    · rename_i hth
      simp only [Option.some.injEq, Prod.mk.injEq] at hc
      obtain ⟨rfl, rfl, rfl⟩ := hc
      refine inv_grow h ht (fun _ h => h) (fun _ h => .inl h) ⟨hf.1, (fun l hl => by cases hl), rfl⟩ (fun l hl => by cases hl)
        (fun x hx => .inl ⟨hx, ?_⟩) ?_
      · rintro _ (h1 | ⟨_, h1⟩) <;> cases h1
      · rintro x _ ⟨y, h1, h2, _⟩
        cases h1
        exact absurd h2 (there_false.1 hth).2
  | temp =>
    simp only [call] at hc
    split at hc
    · rename_i hth
      split at hc
      · cases hc
      · rename_i hnew
        simp only [Option.some.injEq, Prod.mk.injEq] at hc
        obtain ⟨rfl, rfl, rfl⟩ := hc
        have hnew : n :: d ∉ s.dirs := by simpa using hnew
        have hd : d ∈ s.dirs := by
          rcases there_iff.1 hth with h1 | h1
          · exact absurd h1 hne
          · exact h1
        refine inv_grow h ht (fun x hx => List.mem_append_left _ hx) ?_ ⟨hf.1, ?_, trivial⟩ ?_ (fun x hx => .inl ⟨hx, ?_⟩) ?_
        · intro x hx
          rcases List.mem_append.1 hx with hx | hx
          · exact .inl hx
          · rw [List.mem_singleton.1 hx]
            exact .inr ⟨by simp, .inr hd, rfl⟩
        · intro l hl; cases hl
          exact ⟨by simp, rfl, by simp [show d.length = 4 from hf.1]⟩
        · intro l hl; cases hl; exact .inr hnew
        · intro _ _; exact .inr ⟨_, rfl⟩
        · rintro x _ ⟨y, h1, _, h3⟩
          cases h1
          exact .inl ⟨n :: d, rfl, by simp, h3.trans (tail_suffix (n :: d))⟩
    · rename_i hth
      simp only [Option.some.injEq, Prod.mk.injEq] at hc
      obtain ⟨rfl, rfl, rfl⟩ := hc
      refine inv_grow h ht (fun _ h => h) (fun _ h => .inl h) ⟨hf.1, (fun l hl => by cases hl), trivial⟩ (fun l hl => by cases hl)
        (fun x hx => .inl ⟨hx, ?_⟩) ?_
      · rintro rfl _
        exact absurd (h.holdsIn _ hx) (there_false.1 hth).2
      · rintro x _ ⟨y, h1, h2, _⟩
        cases h1
        exact absurd h2 (there_false.1 hth).2
  | unhold leaf =>
    cases leaf with
    | none =>
      simp only [call, Option.some.injEq, Prod.mk.injEq] at hc
      obtain ⟨rfl, rfl, rfl⟩ := hc
      refine inv_grow h ht (fun _ h => h) (fun _ h => .inl h) ⟨hf.1, (fun l hl => by cases hl), trivial⟩ (fun l hl => by cases hl)
        (fun x hx => .inl ?_) ?_
      · simp at hx
        exact ⟨hx.1, fun hh => absurd hh.symm hx.2⟩
      · rintro x _ ⟨y, h1, _⟩; cases h1
    | some l =>
      simp only [call, Option.some.injEq, Prod.mk.injEq] at hc
      obtain ⟨rfl, rfl, rfl⟩ := hc
      refine inv_grow h ht (fun _ h => h) (fun _ h => .inl h) ⟨hf.1, (fun l hl => hf.2.1 l hl), trivial⟩ (fun l hl => .inl hl)
        (fun x hx => .inl ?_) ?_
      · simp at hx
        exact ⟨hx.1, fun hh => absurd hh.symm hx.2⟩
      · intro x _ ho; exact .inl ho
  | running l =>
    simp only [call, Option.some.injEq, Prod.mk.injEq] at hc
    obtain ⟨rfl, rfl, rfl⟩ := hc
    obtain ⟨h1, h2, h3⟩ := hf.2.1 l rfl
    have long : ∀ q ∈ s.dirs, q.length ≤ 5 := by
      intro q hq
      obtain ⟨u, e, g1, y, g2, g3, g4⟩ := h.owner q hq
      have g5 := len_suffix g4
      rcases base_short (h.fine u e g1) g2 with g6 | g6
      · omega
      · have := ((h.fine u e g1).2.1 y g6).2.2; omega
    refine inv_shrink h ht rfl h1 ?_ ?_ ?_ (by omega) ?_
    · rintro r hr rfl
      have := long r hr
      simp only [List.length_tail] at h3
      omega
    · intro hh
      obtain ⟨u, e, g1, g2, _⟩ := h.holder l hh
      have := (h.fine u e g1).1
      rw [g2] at this; omega
    · intro u e hut hu hl
      exact hut (h.distinct u t e _ l hu ht hl rfl)
    · rintro (h1 | ⟨_, h1⟩) <;> cases h1
  | rm q =>
    have hq4 : q.length ≤ 4 := hf.2.2
    simp only [call] at hc
    have stop : (q ∈ s.dirs → ∀ p, p <:+ q → ∃ (u : Nat) (e : Client), u ≠ t ∧ s.clients[u]? = some e ∧ Own s.dirs e p) →
        Inv { s with clients := s.clients.set t { dir := d, at_ := .done } } := by
      intro hst
      refine inv_grow h ht (fun _ h => h) (fun _ h => .inl h) ⟨hf.1, (fun l hl => by cases hl), trivial⟩ (fun l hl => by cases hl)
        (fun x hx => .inl ⟨hx, ?_⟩) ?_
      · rintro _ (h1 | ⟨_, h1⟩) <;> cases h1
      · rintro x _ ⟨y, h1, h2, h3⟩
        cases h1
        exact .inr (hst h2 x h3)
    split at hc
    · rename_i hq
      simp only [Option.some.injEq, Prod.mk.injEq] at hc
      obtain ⟨rfl, rfl, rfl⟩ := hc
      exact stop fun hh => absurd (hq ▸ hh) h.nonnil
    · rename_i hq
      split at hc
      · rename_i hok
        simp only [Option.some.injEq, Prod.mk.injEq] at hc
        obtain ⟨rfl, rfl, rfl⟩ := hc
        simp only [empty, Bool.and_eq_true, List.all_eq_true, decide_eq_true_eq, Bool.not_eq_true',
          List.contains_eq_mem, decide_eq_false_iff_not] at hok
        refine inv_shrink h ht rfl hok.1 hok.2.1 hok.2.2 ?_ (by omega) ?_
        · intro u e _ hu hl
          have := ((h.fine u e hu).2.1 q hl).2.2
          omega
        · rintro (h1 | ⟨_, h1⟩) <;> cases h1
      · rename_i hok
        simp only [Option.some.injEq, Prod.mk.injEq] at hc
        obtain ⟨rfl, rfl, rfl⟩ := hc
        refine stop fun hmem p hp => ?_
        have hne' : (∃ r ∈ s.dirs, r.tail = q) ∨ q ∈ s.holds := by
          apply Classical.byContradiction
          intro hh
          rw [not_or] at hh
          apply hok
          simp only [empty, Bool.and_eq_true, List.all_eq_true, decide_eq_true_eq, Bool.not_eq_true',
            List.contains_eq_mem, decide_eq_false_iff_not]
          exact ⟨hmem, fun r hr h2 => hh.1 ⟨r, hr, h2⟩, hh.2⟩
        rcases hne' with ⟨r, hr, rfl⟩ | hh
        · obtain ⟨u, e, g1, y, g2, g3, g4⟩ := h.owner r hr
          have hrne : r ≠ [] := fun hh => h.nonnil (hh ▸ hr)
          refine ⟨u, e, ?_, g1, y, g2, g3, hp.trans ((tail_suffix r).trans g4)⟩
          rintro rfl
          rw [ht] at g1; cases g1
          cases g2
          have := len_suffix g4
          have : r.tail.length < r.length := by
            cases r with
            | nil => exact absurd rfl hrne
            | cons => simp
          omega
        · obtain ⟨u, e, g1, g2, g3⟩ := h.holder q hh
          refine ⟨u, e, ?_, g1, ?_⟩
          · rintro rfl
            rw [ht] at g1; cases g1
            rcases g3 with g3 | ⟨_, g3⟩ <;> cases g3
          · rcases g3 with g3 | ⟨l, g3⟩
            · refine ⟨e.dir, ?_, g2 ▸ hmem, g2 ▸ hp⟩
              unfold base; rw [g3]
            · have hl : leafOf e = some l := by unfold leafOf; rw [g3]
              obtain ⟨k1, k2, _⟩ := (h.fine u e g1).2.1 l hl
              refine ⟨l, ?_, k1, ?_⟩
              · unfold base; rw [g3]
              · have : q <:+ l := by rw [← g2, ← k2]; exact tail_suffix l
                exact hp.trans this
  | done => cases hc
  | failed => cases hc

theorem get_append (l : List Client) (x : Client) (i : Nat) (a : Client) :
    (l ++ [x])[i]? = some a ↔ l[i]? = some a ∨ (i = l.length ∧ x = a) := by
  rw [List.getElem?_append]
  split
  · grind
  · constructor
    · intro h
      right
      have : i - l.length = 0 := by
        cases hn : i - l.length with
        | zero => rfl
        | succ n => rw [hn] at h; simp at h
      rw [this] at h
      simp at h
      exact ⟨by omega, h⟩
    · rintro (h | ⟨h, rfl⟩)
      · grind
      · subst h; simp

theorem inv_step {s s' : St} {e : Ev} (h : Inv s) (hs : step s e = some s') : Inv s' := by
  cases e with
  | arrive d =>
    simp only [step] at hs
    split at hs
    · rename_i hd
      cases hs
      constructor
      · exact h.nonnil
      · exact h.closed
      · intro t c ht
        rcases (get_append _ _ _ _).1 ht with ht | ⟨_, rfl⟩
        · exact h.fine t c ht
        · exact ⟨hd, (fun l hl => by cases hl), rfl⟩
      · intro t u c e l ht hu hc he
        rcases (get_append _ _ _ _).1 ht with ht | ⟨_, rfl⟩
        · rcases (get_append _ _ _ _).1 hu with hu | ⟨_, rfl⟩
          · exact h.distinct t u c e l ht hu hc he
          · cases he
        · cases hc
      · exact h.holdsIn
      · intro x hx
        obtain ⟨t, c, h1, h2⟩ := h.holder x hx
        exact ⟨t, c, (get_append _ _ _ _).2 (.inl h1), h2⟩
      · intro x hx
        obtain ⟨t, c, h1, h2⟩ := h.owner x hx
        exact ⟨t, c, (get_append _ _ _ _).2 (.inl h1), h2⟩
    · cases hs
  | go t n =>
    simp only [step] at hs
    split at hs
    · cases hs
    · rename_i c ht
      split at hs
      · cases hs
      · rename_i ds hs' a hc
        cases hs
        exact inv_call h ht hc

theorem inv_run {s s' : St} {es : List Ev} (h : Inv s) (hs : run s es = some s') : Inv s' := by
  induction es generalizing s with
  | nil => cases hs; exact h
  | cons e es ih =>
    simp only [run] at hs
    cases he : step s e with
    | none => rw [he] at hs; cases hs
    | some s1 => rw [he] at hs; exact ih (inv_step h he) hs

end Verif.Client.Dirs
