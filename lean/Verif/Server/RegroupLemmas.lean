import Verif.Server.Regroup
/-! # Invariant of `Regroup` -/
namespace Verif.Server.Regroup

theorem get_setAt (l : List Job) (i j : Nat) (f : Job → Job) :
    (setAt l i f)[j]? = if i = j then l[j]?.map f else l[j]? := by
  unfold setAt
  rw [List.getElem?_modify]
  split <;> cases l[j]? <;> rfl

theorem get_setKey (l : List Job) (k j : Nat) (f : Job → Job) :
    (setKey l k f)[j]? = l[j]?.map fun a => if a.qkey = some k then f a else a := by
  unfold setKey
  rw [List.getElem?_map]

theorem has_false {l : List Job} {k : Nat} : has l k = false ↔ ∀ (i : Nat) (a : Job), l[i]? = some a → a.qkey ≠ some k := by
  unfold has
  rw [List.any_eq_false]
  constructor
  · intro h i a hi
    simpa using h a (List.mem_of_getElem? hi)
  · intro h a ha
    obtain ⟨i, hi⟩ := List.getElem?_of_mem ha
    simpa using h i a hi

/-- the jobs the callback has still to deal with -/
def todoOf : Rac → List Nat
  | .idle => []
  | .run t => t
  | .put i _ t => i :: t

structure Inv (s : St) : Prop where
  uniq : ∀ (i j : Nat) (a b : Job) k, s.jobs[i]? = some a → s.jobs[j]? = some b → a.qkey = some k → b.qkey = some k → i = j
  named : ∀ (i : Nat) (a : Job) q, s.jobs[i]? = some a → a.qkey = some q → q = a.key ∨ (q, a.key) ∈ s.pend
  pendKey : ∀ o k, (o, k) ∈ s.pend → ∃ (i : Nat) (a : Job), s.jobs[i]? = some a ∧ a.qkey = some o ∧ a.key = k
  pendNew : ∀ o k, (o, k) ∈ s.pend → o ≠ k → ∀ (i : Nat) (a : Job), s.jobs[i]? = some a → a.qkey ≠ some k
  pendDist : s.pend.Pairwise fun e f => e.1 ≠ f.1 ∧ e.2 ≠ f.2
  calm : s.rac ≠ .idle → s.pend = []
  sync : ∀ (i : Nat) (a : Job), s.jobs[i]? = some a → a.qkey ≠ none → a.rgroup = a.sched ∨ ∃ t, s.rac = .put i a.sched t
  putVal : ∀ (i g : Nat) t (a : Job), s.rac = .put i g t → s.jobs[i]? = some a → a.sched = g
  gone : ∀ (i : Nat) (a : Job), i ∈ todoOf s.rac → s.jobs[i]? = some a → a.qkey = none → ∀ (j : Nat) (b : Job), s.jobs[j]? = some b → b.qkey ≠ some a.key
  range : ∀ i ∈ todoOf s.rac, i < s.jobs.length

theorem inv_init : Inv {} := by
  constructor <;> simp [todoOf]

theorem get_append (l : List Job) (x : Job) (i : Nat) (a : Job) :
    (l ++ [x])[i]? = some a ↔ l[i]? = some a ∨ (i = l.length ∧ x = a) := by
  rw [List.getElem?_append]
  split
  · grind
  · constructor
    · intro h
      right
      have : i - l.length = 0 := by
        cases hn : i - l.length with
        | zero => rfl
        | succ n => rw [hn] at h; simp at h
      rw [this] at h
      simp at h
      exact ⟨by omega, h⟩
    · rintro (h | ⟨h, rfl⟩)
      · grind
      · subst h; simp

set_option maxHeartbeats 1000000 in
theorem inv_add {s s' : St} {k w g p pl} (h : Inv s) (q : Quiet s (.add k w g p pl)) (e : step s (.add k w g p pl) = some s') : Inv s' := by
  obtain ⟨qp, qr⟩ := q
  simp only [step] at e
  split at e
  · cases e
  · rename_i hk
    have hk := has_false.1 (by simpa using hk)
    cases e
    have hpend : s.pend = [] := qp
    have hnone : ∀ e, e ∉ s.pend := by rw [hpend]; simp
    have hlt : ∀ (i : Nat) (a : Job), s.jobs[i]? = some a → i < s.jobs.length := by
      intro i a hi
      exact (List.getElem?_eq_some_iff.1 hi).1
    constructor
    · intro i j a b k' hi hj ha hb
      rw [get_append] at hi hj
      rcases hi with hi | ⟨hi, rfl⟩ <;> rcases hj with hj | ⟨hj, rfl⟩
      · exact h.uniq i j a b k' hi hj ha hb
      · simp only [newJob] at hb; cases hb; exact absurd ha (hk i a hi)
      · simp only [newJob] at ha; cases ha; exact absurd hb (hk j b hj)
      · omega
    · intro i a q hi ha
      rw [get_append] at hi
      rcases hi with hi | ⟨hi, rfl⟩
      · exact h.named i a q hi ha
      · simp only [newJob] at ha ⊢; cases ha; exact .inl rfl
    · intro o k' hm; exact absurd hm (hnone _)
    · intro o k' hm; exact absurd hm (hnone _)
    · exact h.pendDist
    · exact h.calm
    · intro i a hi ha
      rw [get_append] at hi
      rcases hi with hi | ⟨hi, rfl⟩
      · exact h.sync i a hi ha
      · exact .inl rfl
    · intro i g' t a hr hi
      rw [get_append] at hi
      rcases hi with hi | ⟨hi, rfl⟩
      · exact h.putVal i g' t a hr hi
      · exfalso
        have hr : s.rac = .put i g' t := hr
        have := h.range i (by rw [hr]; simp [todoOf])
        omega
    · intro i a hm hi ha j b hj
      rw [get_append] at hi hj
      rcases hi with hi | ⟨hi, rfl⟩
      · rcases hj with hj | ⟨hj, rfl⟩
        · exact h.gone i a hm hi ha j b hj
        · rcases qr with qr | qr
          · have hm : i ∈ todoOf s.rac := hm
            rw [qr] at hm; simp [todoOf] at hm
          · have := qr a (List.mem_of_getElem? hi)
            simp only [newJob]
            intro hh
            exact this (by simpa using hh.symm)
      · simp [newJob] at ha
    · intro i hm
      have := h.range i hm
      simp; omega

/-- A step that changes neither keys nor what is looked up, only places, priorities and groups. -/
theorem inv_same {s : St} {l : List Job} {r : Rac} (h : Inv s)
    (hl : ∀ (i : Nat), l[i]? = s.jobs[i]? ∨ ∃ (a b : Job), s.jobs[i]? = some a ∧ l[i]? = some b ∧ b.key = a.key ∧ b.qkey = a.qkey)
    (hlen : l.length = s.jobs.length)
    (hc : r ≠ .idle → s.pend = [])
    (hs : ∀ (i : Nat) (b : Job), l[i]? = some b → b.qkey ≠ none → b.rgroup = b.sched ∨ ∃ t, r = .put i b.sched t)
    (hp : ∀ (i g : Nat) t (b : Job), r = .put i g t → l[i]? = some b → b.sched = g)
    (ht : ∀ i ∈ todoOf r, i ∈ todoOf s.rac ∨ ∃ a : Job, l[i]? = some a ∧ a.qkey ≠ none) :
    Inv { s with jobs := l, rac := r } := by
  have back : ∀ (i : Nat) (b : Job), l[i]? = some b → ∃ a : Job, s.jobs[i]? = some a ∧ b.key = a.key ∧ b.qkey = a.qkey := by
    intro i b hb
    rcases hl i with e | ⟨a, b', ha, hb', h1, h2⟩
    · exact ⟨b, e ▸ hb, rfl, rfl⟩
    · rw [hb] at hb'; cases hb'; exact ⟨a, ha, h1, h2⟩
  have fwd : ∀ (i : Nat) (a : Job), s.jobs[i]? = some a → ∃ b : Job, l[i]? = some b ∧ b.key = a.key ∧ b.qkey = a.qkey := by
    intro i a ha
    rcases hl i with e | ⟨a', b', ha', hb', h1, h2⟩
    · exact ⟨a, e ▸ ha, rfl, rfl⟩
    · rw [ha] at ha'; cases ha'; exact ⟨b', hb', h1, h2⟩
  constructor
  · intro i j a b k hi hj ha hb
    obtain ⟨a', h1, _, h3⟩ := back i a hi
    obtain ⟨b', h4, _, h6⟩ := back j b hj
    exact h.uniq i j a' b' k h1 h4 (h3 ▸ ha) (h6 ▸ hb)
  · intro i a q hi ha
    obtain ⟨a', h1, h2, h3⟩ := back i a hi
    rw [h2]; exact h.named i a' q h1 (h3 ▸ ha)
  · intro o k hm
    obtain ⟨i, a, h1, h2, h3⟩ := h.pendKey o k hm
    obtain ⟨b, h4, h5, h6⟩ := fwd i a h1
    exact ⟨i, b, h4, h6.trans h2, h5.trans h3⟩
  · intro o k hm ho i a hi
    obtain ⟨a', h1, h2, h3⟩ := back i a hi
    rw [h3]; exact h.pendNew o k hm ho i a' h1
  · exact h.pendDist
  · exact hc
  · exact hs
  · exact hp
  · intro i a hm hi ha j b hj
    obtain ⟨a', h1, h2, h3⟩ := back i a hi
    obtain ⟨b', h4, _, h6⟩ := back j b hj
    rw [h2, h6]
    rcases ht i hm with hm' | ⟨a'', h7, h8⟩
    · exact h.gone i a' hm' h1 (h3 ▸ ha) j b' h4
    · rw [hi] at h7; cases h7; exact absurd ha h8
  · intro i hm
    show i < l.length
    rcases ht i hm with hm' | ⟨a, h7, _⟩
    · rw [hlen]; exact h.range i hm'
    · exact (List.getElem?_eq_some_iff.1 h7).1

theorem setAt_same {l : List Job} {i : Nat} {f : Job → Job} (hf : ∀ a, (f a).key = a.key ∧ (f a).qkey = a.qkey) (j : Nat) :
    (setAt l i f)[j]? = l[j]? ∨ ∃ (a b : Job), l[j]? = some a ∧ (setAt l i f)[j]? = some b ∧ b.key = a.key ∧ b.qkey = a.qkey := by
  rw [get_setAt]
  split
  · cases hj : l[j]? with
    | none => left; rfl
    | some a => right; exact ⟨a, f a, rfl, rfl, (hf a).1, (hf a).2⟩
  · left; rfl

theorem setKey_same {l : List Job} {k : Nat} {f : Job → Job} (hf : ∀ a, (f a).key = a.key ∧ (f a).qkey = a.qkey) (j : Nat) :
    (setKey l k f)[j]? = l[j]? ∨ ∃ (a b : Job), l[j]? = some a ∧ (setKey l k f)[j]? = some b ∧ b.key = a.key ∧ b.qkey = a.qkey := by
  rw [get_setKey]
  cases hj : l[j]? with
  | none => left; rfl
  | some a =>
    right
    refine ⟨a, _, rfl, rfl, ?_⟩
    dsimp only
    split
    · exact hf a
    · exact ⟨rfl, rfl⟩

theorem setAt_length (l : List Job) (i : Nat) (f : Job → Job) : (setAt l i f).length = l.length := by simp [setAt]
theorem setKey_length (l : List Job) (i : Nat) (f : Job → Job) : (setKey l i f).length = l.length := by simp [setKey]

theorem inv_modify {s s' : St} {i k w p} (h : Inv s) (q : Quiet s (.modify i k w p)) (e : step s (.modify i k w p) = some s') : Inv s' := by
  have q : s.rac = .idle := q
  simp only [step] at e
  split at e
  · cases e
  · rename_i j hj
    split at e
    · rename_i hc
      obtain ⟨c1, c2, c3, c4⟩ := hc
      cases e
      have hne : ∀ e ∈ s.pend, e.1 ≠ j.key ∧ e.2 ≠ k := by simpa using c4
      have old : ∀ (m : Nat) (b : Job), (setAt s.jobs i fun j => { j with key := k, want := w, prio := p })[m]? = some b →
          ∃ a : Job, s.jobs[m]? = some a ∧ b.qkey = a.qkey ∧ b.rgroup = a.rgroup ∧ b.sched = a.sched ∧
            ((m ≠ i ∧ b.key = a.key) ∨ (m = i ∧ a = j ∧ b.key = k)) := by
        intro m b hb
        rw [get_setAt] at hb
        split at hb
        · rename_i hm; subst hm
          rw [hj] at hb; cases hb
          exact ⟨j, hj, rfl, rfl, rfl, .inr ⟨rfl, rfl, rfl⟩⟩
        · rename_i hm
          exact ⟨b, hb, rfl, rfl, rfl, .inl ⟨fun hh => hm hh.symm, rfl⟩⟩
      have new : ∀ (m : Nat) (a : Job), s.jobs[m]? = some a →
          ∃ b : Job, (setAt s.jobs i fun j => { j with key := k, want := w, prio := p })[m]? = some b ∧ b.qkey = a.qkey ∧
            ((m ≠ i ∧ b.key = a.key) ∨ (m = i ∧ b.key = k)) := by
        intro m a ha
        rw [get_setAt]
        split
        · rename_i hm; subst hm
          rw [ha]; exact ⟨_, rfl, rfl, .inr ⟨rfl, rfl⟩⟩
        · rename_i hm
          exact ⟨a, ha, rfl, .inl ⟨fun hh => hm hh.symm, rfl⟩⟩
      constructor
      · intro m n a b k' hm hn ha hb
        obtain ⟨a', h1, h2, _⟩ := old m a hm
        obtain ⟨b', h4, h5, _⟩ := old n b hn
        exact h.uniq m n a' b' k' h1 h4 (h2 ▸ ha) (h5 ▸ hb)
      · intro m a q' hm ha
        obtain ⟨a', h1, h2, _, _, h3⟩ := old m a hm
        rcases h3 with ⟨_, h3⟩ | ⟨_, rfl, h4⟩
        · rw [h3]
          rcases h.named m a' q' h1 (h2 ▸ ha) with h5 | h5
          · exact .inl h5
          · exact .inr (List.mem_append_left _ h5)
        · right
          rw [h2, c1] at ha; cases ha
          rw [h4]; simp
      · intro o k' hm
        simp only [List.mem_append, List.mem_singleton] at hm
        rcases hm with hm | hm
        · obtain ⟨m, a, h1, h2, h3⟩ := h.pendKey o k' hm
          obtain ⟨b, h4, h5, h6⟩ := new m a h1
          rcases h6 with ⟨_, h6⟩ | ⟨rfl, _⟩
          · exact ⟨m, b, h4, h5.trans h2, h6.trans h3⟩
          · rw [hj] at h1; cases h1
            rw [c1] at h2; cases h2
            exact absurd rfl (hne _ hm).1
        · cases hm
          obtain ⟨b, h4, h5, h6⟩ := new i j hj
          rcases h6 with ⟨h6, _⟩ | ⟨_, h6⟩
          · exact absurd rfl h6
          · exact ⟨i, b, h4, h5.trans c1, h6⟩
      · intro o k' hm ho m a ha
        obtain ⟨a', h1, h2, _⟩ := old m a ha
        rw [h2]
        simp only [List.mem_append, List.mem_singleton] at hm
        rcases hm with hm | hm
        · exact h.pendNew o k' hm ho m a' h1
        · cases hm
          rcases c3 with c3 | c3
          · exact absurd c3.symm ho
          · exact has_false.1 c3 m a' h1
      · show (s.pend ++ [(j.key, k)]).Pairwise _
        rw [List.pairwise_append]
        refine ⟨h.pendDist, by simp, ?_⟩
        intro e he f hf
        simp at hf; subst hf
        exact hne e he
      · intro hr; exact absurd q hr
      · intro m a ha hq
        obtain ⟨a', h1, h2, h3, h4, _⟩ := old m a ha
        rw [h3, h4]; exact h.sync m a' h1 (h2 ▸ hq)
      · intro m g t a hr; simp [q] at hr
      · intro m a hm
        have hm : m ∈ todoOf s.rac := hm
        rw [q] at hm; simp [todoOf] at hm
      · intro m hm
        have hm : m ∈ todoOf s.rac := hm
        rw [q] at hm; simp [todoOf] at hm
    · cases e

theorem inv_rename {s s' : St} (h : Inv s) (q : Quiet s .rename) (e : step s .rename = some s') : Inv s' := by
  have q : s.rac = .idle := q
  simp only [step] at e
  split at e
  · cases e
  · rename_i o k rest hp
    cases e
    have hd := h.pendDist
    rw [hp, List.pairwise_cons] at hd
    have hpk := h.pendKey o k (by rw [hp]; simp)
    obtain ⟨i0, a0, h1, h2, h3⟩ := hpk
    have idle : ∀ {P : Prop} {m : Nat}, m ∈ todoOf s.rac → P := by
      intro P m hm; rw [q] at hm; simp [todoOf] at hm
    by_cases hok : o = k
    · rw [if_pos hok]
      subst hok
      constructor
      · exact h.uniq
      · intro m a q' hm ha
        rcases h.named m a q' hm ha with h5 | h5
        · exact .inl h5
        · rw [hp] at h5
          rcases List.mem_cons.1 h5 with h5 | h5
          · cases h5; left; rfl
          · exact .inr h5
      · intro o' k' hm; exact h.pendKey o' k' (by rw [hp]; exact List.mem_cons_of_mem _ hm)
      · intro o' k' hm; exact h.pendNew o' k' (by rw [hp]; exact List.mem_cons_of_mem _ hm)
      · exact hd.2
      · intro hr; exact absurd q hr
      · exact h.sync
      · exact h.putVal
      · intro m a hm; exact idle hm
      · intro m hm; exact idle hm
    · rw [if_neg hok]
      have hnk := h.pendNew o k (by rw [hp]; simp) hok
      have hch : changeKey s.jobs o k = setKey s.jobs o fun j => { j with qkey := some k } := by
        unfold changeKey
        rw [if_neg]
        rw [has_false.2 hnk]; simp
      rw [hch]
      have old : ∀ (m : Nat) (b : Job), (setKey s.jobs o fun j => { j with qkey := some k })[m]? = some b →
          ∃ a : Job, s.jobs[m]? = some a ∧ b.key = a.key ∧ b.rgroup = a.rgroup ∧ b.sched = a.sched ∧
            ((m = i0 ∧ a = a0 ∧ b.qkey = some k) ∨ (m ≠ i0 ∧ a.qkey ≠ some o ∧ b.qkey = a.qkey)) := by
        intro m b hb
        rw [get_setKey] at hb
        cases hm : s.jobs[m]? with
        | none => rw [hm] at hb; cases hb
        | some a =>
          rw [hm] at hb
          simp only [Option.map_some, Option.some.injEq] at hb
          refine ⟨a, rfl, ?_⟩
          split at hb
          · rename_i ho
            have := h.uniq m i0 a a0 o hm h1 ho h2
            subst this
            rw [h1] at hm; cases hm
            subst hb
            exact ⟨rfl, rfl, rfl, .inl ⟨rfl, rfl, rfl⟩⟩
          · rename_i ho
            subst hb
            refine ⟨rfl, rfl, rfl, .inr ⟨?_, ho, rfl⟩⟩
            rintro rfl
            rw [h1] at hm; cases hm; exact ho h2
      have new : ∀ (m : Nat) (a : Job), s.jobs[m]? = some a → a.qkey ≠ some o →
          (setKey s.jobs o fun j => { j with qkey := some k })[m]? = some a := by
        intro m a ha ho
        rw [get_setKey, ha]
        simp [ho]
      have nin : ∀ e ∈ rest, e.1 ≠ k := by
        intro e he hk
        obtain ⟨m, a, g1, g2, _⟩ := h.pendKey e.1 e.2 (by rw [hp]; exact List.mem_cons_of_mem _ he)
        exact hnk m a g1 (hk ▸ g2)
      constructor
      · intro m n a b k' hm hn ha hb
        obtain ⟨a', g1, _, _, _, g2⟩ := old m a hm
        obtain ⟨b', g3, _, _, _, g4⟩ := old n b hn
        rcases g2 with ⟨g2, _, g5⟩ | ⟨g2, _, g5⟩ <;> rcases g4 with ⟨g4, _, g6⟩ | ⟨g4, _, g6⟩
        · omega
        · rw [g5] at ha; cases ha; rw [g6] at hb; exact absurd hb (hnk n b' g3)
        · rw [g6] at hb; cases hb; rw [g5] at ha; exact absurd ha (hnk m a' g1)
        · exact h.uniq m n a' b' k' g1 g3 (g5 ▸ ha) (g6 ▸ hb)
      · intro m a q' hm ha
        obtain ⟨a', g1, g2, _, _, g3⟩ := old m a hm
        rw [g2]
        rcases g3 with ⟨_, rfl, g5⟩ | ⟨_, g4, g5⟩
        · rw [g5] at ha; cases ha; left; exact h3.symm
        · rw [g5] at ha
          rcases h.named m a' q' g1 ha with h5 | h5
          · exact .inl h5
          · rw [hp] at h5
            rcases List.mem_cons.1 h5 with h5 | h5
            · cases h5; exact absurd ha g4
            · exact .inr h5
      · intro o' k' hm
        obtain ⟨m, a, g1, g2, g3⟩ := h.pendKey o' k' (by rw [hp]; exact List.mem_cons_of_mem _ hm)
        refine ⟨m, a, new m a g1 ?_, g2, g3⟩
        rw [g2]
        intro hh; cases hh
        exact absurd rfl (hd.1 _ hm).1
      · intro o' k' hm ho m a ha
        obtain ⟨a', g1, g2, _, _, g3⟩ := old m a ha
        rcases g3 with ⟨_, _, g5⟩ | ⟨_, _, g5⟩
        · rw [g5]
          intro hh; cases hh
          exact absurd rfl (hd.1 _ hm).2
        · rw [g5]; exact h.pendNew o' k' (by rw [hp]; exact List.mem_cons_of_mem _ hm) ho m a' g1
      · exact hd.2
      · intro hr; exact absurd q hr
      · intro m a ha hq
        obtain ⟨a', g1, _, g3, g4, g5⟩ := old m a ha
        rw [g3, g4]
        apply h.sync m a' g1
        rcases g5 with ⟨_, rfl, _⟩ | ⟨_, _, g6⟩
        · rw [h2]; simp
        · rw [← g6]; exact hq
      · intro m g t a hr; simp [q] at hr
      · intro m a hm; exact idle hm
      · intro m hm; exact idle hm

/-- with no modification under way an item has the key of its job -/
theorem Inv.keyed {s : St} (h : Inv s) (hp : s.pend = []) {i : Nat} {a : Job} {q : Nat} (hi : s.jobs[i]? = some a) (ha : a.qkey = some q) :
    q = a.key := by
  rcases h.named i a q hi ha with h1 | h1
  · exact h1
  · rw [hp] at h1; simp at h1

theorem inv_update {s s' : St} {i} (h : Inv s) (q : Quiet s (.update i)) (e : step s (.update i) = some s') : Inv s' := by
  obtain ⟨qp, qi⟩ := q
  simp only [step] at e
  split at e
  · cases e
  · rename_i j hj
    cases e
    obtain ⟨k, hk⟩ := Option.isSome_iff_exists.1 (qi j hj)
    have hkk := h.keyed qp hj hk
    subst hkk
    have hf : ∀ a : Job, ((if a.delay ≠ 0 then { a with delay := 0 } else { a with qprio := j.prio, rgroup := j.sched } : Job).key = a.key) ∧
        ((if a.delay ≠ 0 then { a with delay := 0 } else { a with qprio := j.prio, rgroup := j.sched } : Job).qkey = a.qkey) := by
      intro a; split <;> exact ⟨rfl, rfl⟩
    refine inv_same (r := s.rac) h (fun m => setKey_same hf m) (setKey_length _ _ _) h.calm ?_ ?_ (fun m hm => .inl hm)
    · intro m b hb hq
      unfold Regroup.update at hb
      rw [get_setKey] at hb
      cases hm : s.jobs[m]? with
      | none => rw [hm] at hb; cases hb
      | some a =>
        rw [hm] at hb
        simp only [Option.map_some, Option.some.injEq] at hb
        split at hb
        · rename_i ho
          have := h.uniq m i a j j.key hm hj ho hk
          subst this
          rw [hj] at hm; cases hm
          split at hb
          · subst hb; exact h.sync m j hj hq
          · subst hb; exact .inl rfl
        · subst hb; exact h.sync m a hm hq
    · intro m g t b hr hb
      unfold Regroup.update at hb
      rw [get_setKey] at hb
      cases hm : s.jobs[m]? with
      | none => rw [hm] at hb; cases hb
      | some a =>
        rw [hm] at hb
        simp only [Option.map_some, Option.some.injEq] at hb
        have := h.putVal m g t a hr hm
        split at hb
        · split at hb <;> (subst hb; exact this)
        · subst hb; exact this

theorem mem_readyIdx {l : List Job} {i : Nat} :
    i ∈ readyIdx l ↔ ∃ a : Job, l[i]? = some a ∧ a.qkey.isSome ∧ a.place = .ready := by
  unfold readyIdx
  rw [List.mem_filter, List.mem_range]
  constructor
  · rintro ⟨_, h⟩
    cases ha : l[i]? with
    | none => rw [ha] at h; simp at h
    | some a => rw [ha] at h; exact ⟨a, rfl, by simpa using h⟩
  · rintro ⟨a, h1, h2, h3⟩
    refine ⟨(List.getElem?_eq_some_iff.1 h1).1, ?_⟩
    rw [h1]; simp [h2, h3]

theorem inv_start {s s' : St} {t} (h : Inv s) (q : Quiet s (.start t)) (e : step s (.start t) = some s') : Inv s' := by
  have q : s.pend = [] := q
  simp only [step] at e
  split at e
  · rename_i hc
    cases e
    refine inv_same (l := s.jobs) (r := .run t) h (fun m => .inl rfl) rfl (fun _ => q) ?_ ?_ ?_
    · intro m b hb hq
      rcases h.sync m b hb hq with h1 | ⟨t', h1⟩
      · exact .inl h1
      · rw [hc.1] at h1; cases h1
    · intro m g t' b hr; cases hr
    · intro m hm
      right
      have := (List.isPerm_iff.1 hc.2).mem_iff.1 hm
      obtain ⟨a, h1, h2, _⟩ := mem_readyIdx.1 this
      exact ⟨a, h1, by intro hh; rw [hh] at h2; cases h2⟩
  · cases e

theorem inv_learn {s s' : St} {w} (h : Inv s) (e : step s (.learn w) = some s') : Inv s' := by
  simp only [step] at e
  split at e
  · rename_i i t hr
    cases e
    refine inv_same (r := s.rac) h (fun m => setAt_same (fun _ => by exact ⟨rfl, rfl⟩) m) (setAt_length _ _ _) h.calm ?_ ?_ (fun m hm => .inl hm)
    · intro m b hb hq
      rw [get_setAt] at hb
      split at hb
      · cases hm : s.jobs[m]? with
        | none => rw [hm] at hb; cases hb
        | some a => rw [hm] at hb; cases hb; exact h.sync m a hm hq
      · exact h.sync m b hb hq
    · intro m g t' b hr'; rw [hr] at hr'; cases hr'
  · cases e

theorem inv_set {s s' : St} (h : Inv s) (q : Quiet s .set) (e : step s .set = some s') : Inv s' := by
  have q : s.pend = [] := q
  simp only [step] at e
  split at e
  · rename_i i t hr
    split at e
    · cases e
    · rename_i j hj
      split at e
      · rename_i hne
        cases e
        refine inv_same h (fun m => setAt_same (fun _ => by exact ⟨rfl, rfl⟩) m) (setAt_length _ _ _) (fun _ => q) ?_ ?_ ?_
        · intro m b hb hq
          rw [get_setAt] at hb
          split at hb
          · rename_i hm; subst hm
            rw [hj] at hb; cases hb
            exact .inr ⟨t, rfl⟩
          · rcases h.sync m b hb hq with h1 | ⟨t', h1⟩
            · exact .inl h1
            · rw [hr] at h1; cases h1
        · intro m g t' b hr' hb
          cases hr'
          rw [get_setAt, if_pos rfl, hj] at hb
          cases hb; rfl
        · intro m hm; left; rw [hr]; exact hm
      · cases e
        refine inv_same (l := s.jobs) (r := .run t) h (fun m => .inl rfl) rfl (fun _ => q) ?_ ?_ ?_
        · intro m b hb hq
          rcases h.sync m b hb hq with h1 | ⟨t', h1⟩
          · exact .inl h1
          · rw [hr] at h1; cases h1
        · intro m g t' b hr'; cases hr'
        · intro m hm; left; rw [hr]; exact List.mem_cons_of_mem _ hm
  · cases e

theorem inv_put {s s' : St} (h : Inv s) (q : Quiet s .put) (e : step s .put = some s') : Inv s' := by
  have q : s.pend = [] := q
  simp only [step] at e
  split at e
  · rename_i i g t hr
    split at e
    · cases e
    · rename_i j hj
      cases e
      refine inv_same h (fun m => setKey_same (fun _ => by exact ⟨rfl, rfl⟩) m) (setKey_length _ _ _) (fun _ => q) ?_ ?_ ?_
      · intro m b hb hq
        left
        unfold setReserveGroup at hb
        rw [get_setKey] at hb
        cases hm : s.jobs[m]? with
        | none => rw [hm] at hb; cases hb
        | some a =>
          rw [hm] at hb
          simp only [Option.map_some, Option.some.injEq] at hb
          split at hb
          · rename_i ho
            subst hb
            cases hjq : j.qkey with
            | none => exact absurd ho (h.gone i j (by rw [hr]; simp [todoOf]) hj hjq m a hm)
            | some k =>
              have := h.keyed q hj hjq
              subst this
              have := h.uniq m i a j j.key hm hj ho hjq
              subst this
              rw [hj] at hm; cases hm
              exact (h.putVal m g t j hr hj).symm
          · rename_i ho
            subst hb
            rcases h.sync m a hm hq with h1 | ⟨t', h1⟩
            · exact h1
            · rw [hr] at h1
              injection h1 with h2 h3 h4
              subst h2
              rw [hj] at hm; cases hm
              exfalso
              cases hjq : j.qkey with
              | none => exact hq hjq
              | some k => have := h.keyed q hj hjq; subst this; exact ho hjq
      · intro m g' t' b hr'; cases hr'
      · intro m hm; left; rw [hr]; exact List.mem_cons_of_mem _ hm
  · cases e

theorem inv_done {s s' : St} (h : Inv s) (e : step s .done = some s') : Inv s' := by
  simp only [step] at e
  split at e
  · rename_i hr
    cases e
    refine inv_same (l := s.jobs) (r := .idle) h (fun m => .inl rfl) rfl (fun hh => absurd rfl hh) ?_ ?_ ?_
    · intro m b hb hq
      rcases h.sync m b hb hq with h1 | ⟨t', h1⟩
      · exact .inl h1
      · rw [hr] at h1; cases h1
    · intro m g t' b hr'; cases hr'
    · intro m hm; simp [todoOf] at hm
  · cases e

/-- a job's place changes -/
theorem inv_place {s : St} {i : Nat} {f : Job → Job} (h : Inv s)
    (hf : ∀ a, (f a).key = a.key ∧ (f a).qkey = a.qkey ∧ (f a).sched = a.sched ∧ (f a).rgroup = a.rgroup) :
    Inv { s with jobs := setAt s.jobs i f } := by
  refine inv_same (r := s.rac) h (fun m => setAt_same (fun a => ⟨(hf a).1, (hf a).2.1⟩) m) (setAt_length _ _ _) h.calm ?_ ?_
    (fun m hm => .inl hm)
  · intro m b hb hq
    rw [get_setAt] at hb
    split at hb
    · cases hm : s.jobs[m]? with
      | none => rw [hm] at hb; cases hb
      | some a =>
        rw [hm] at hb; cases hb
        rw [(hf a).2.2.1, (hf a).2.2.2]
        exact h.sync m a hm ((hf a).2.1 ▸ hq)
    · exact h.sync m b hb hq
  · intro m g t b hr hb
    rw [get_setAt] at hb
    split at hb
    · cases hm : s.jobs[m]? with
      | none => rw [hm] at hb; cases hb
      | some a => rw [hm] at hb; cases hb; rw [(hf a).2.2.1]; exact h.putVal m g t a hr hm
    · exact h.putVal m g t b hr hb

theorem inv_leave {s s' : St} {i} (h : Inv s) (q : Quiet s (.leave i)) (e : step s (.leave i) = some s') : Inv s' := by
  have q : s.pend = [] := q
  simp only [step] at e
  split at e
  · cases e
  · rename_i j hj
    split at e
    · rename_i hc
      obtain ⟨k, hk⟩ := Option.isSome_iff_exists.1 hc
      have := h.keyed q hj hk
      subst this
      cases e
      have old : ∀ (m : Nat) (b : Job), (setAt s.jobs i fun j => { j with qkey := none })[m]? = some b →
          ∃ a : Job, s.jobs[m]? = some a ∧ b.key = a.key ∧ b.rgroup = a.rgroup ∧ b.sched = a.sched ∧
            ((m = i ∧ a = j ∧ b.qkey = none) ∨ (m ≠ i ∧ b.qkey = a.qkey)) := by
        intro m b hb
        rw [get_setAt] at hb
        split at hb
        · rename_i hm; subst hm
          rw [hj] at hb; cases hb
          exact ⟨j, hj, rfl, rfl, rfl, .inl ⟨rfl, rfl, rfl⟩⟩
        · rename_i hm
          exact ⟨b, hb, rfl, rfl, rfl, .inr ⟨fun hh => hm hh.symm, rfl⟩⟩
      have sub : ∀ (m : Nat) (b : Job) (k : Nat), (setAt s.jobs i fun j => { j with qkey := none })[m]? = some b → b.qkey = some k →
          m ≠ i ∧ ∃ a : Job, s.jobs[m]? = some a ∧ a.qkey = some k ∧ b.key = a.key := by
        intro m b k hb hk'
        obtain ⟨a, g1, g2, _, _, g3⟩ := old m b hb
        rcases g3 with ⟨_, _, g4⟩ | ⟨g3, g4⟩
        · rw [g4] at hk'; cases hk'
        · exact ⟨g3, a, g1, g4 ▸ hk', g2⟩
      constructor
      · intro m n a b k' hm hn ha hb
        obtain ⟨_, a', g1, g2, _⟩ := sub m a k' hm ha
        obtain ⟨_, b', g3, g4, _⟩ := sub n b k' hn hb
        exact h.uniq m n a' b' k' g1 g3 g2 g4
      · intro m a q' hm ha
        obtain ⟨_, a', g1, g2, g3⟩ := sub m a q' hm ha
        rw [g3]; exact h.named m a' q' g1 g2
      · intro o k' hm
        have hm : (o, k') ∈ s.pend := hm
        rw [q] at hm; simp at hm
      · intro o k' hm
        have hm : (o, k') ∈ s.pend := hm
        rw [q] at hm; simp at hm
      · exact h.pendDist
      · exact h.calm
      · intro m a ha hq
        obtain ⟨a', g1, _, g3, g4, g5⟩ := old m a ha
        rw [g3, g4]
        apply h.sync m a' g1
        rcases g5 with ⟨_, _, g6⟩ | ⟨_, g6⟩
        · exact absurd g6 hq
        · rw [← g6]; exact hq
      · intro m g t a hr ha
        obtain ⟨a', g1, _, g3, g4, g5⟩ := old m a ha
        rw [g4]; exact h.putVal m g t a' hr g1
      · intro m a hm ha hq n b hb hbk
        obtain ⟨hn, b', g1, g2, _⟩ := sub n b a.key hb hbk
        obtain ⟨a', g3, g4, _, _, g5⟩ := old m a ha
        rcases g5 with ⟨g5, rfl, _⟩ | ⟨_, g6⟩
        · rw [g4] at g2
          exact hn (h.uniq n i b' a' a'.key g1 hj g2 hk)
        · rw [g4] at g2
          exact h.gone m a' hm g3 (g6 ▸ hq) n b' g1 g2
      · intro m hm
        show m < (setAt _ _ _).length
        rw [setAt_length]; exact h.range m hm
    · cases e

theorem inv_step {s s' : St} {e : Ev} (h : Inv s) (q : Quiet s e) (hs : step s e = some s') : Inv s' := by
  cases e with
  | add => exact inv_add h q hs
  | modify => exact inv_modify h q hs
  | rename => exact inv_rename h q hs
  | update => exact inv_update h q hs
  | start => exact inv_start h q hs
  | learn => exact inv_learn h hs
  | set => exact inv_set h q hs
  | put => exact inv_put h q hs
  | done => exact inv_done h hs
  | leave => exact inv_leave h q hs
  | reserve =>
    simp only [step] at hs
    split at hs
    · cases hs
    · split at hs
      · cases hs; exact inv_place h fun a => ⟨rfl, rfl, rfl, rfl⟩
      · cases hs
  | move =>
    simp only [step] at hs
    split at hs
    · cases hs
    · split at hs
      · cases hs; exact inv_place h fun a => ⟨rfl, rfl, rfl, rfl⟩
      · cases hs

theorem inv_run {s s' : St} {es : List Ev} (h : Inv s) (q : QuietRun s es) (hs : run s es = some s') : Inv s' := by
  induction es generalizing s with
  | nil => cases hs; exact h
  | cons e es ih =>
    simp only [run] at hs
    cases he : step s e with
    | none => rw [he] at hs; cases hs
    | some s1 =>
      rw [he] at hs
      exact ih (inv_step h q.1 he) (q.2 s1 he) hs

end Verif.Server.Regroup
