import Verif.Server.Rac

/-! # C95: how many runners the server asks for -/

namespace Verif.Server.Rac

/-! ## Specification -/

/-- How many of `k` ready jobs of a group the limits leave room for. -/
def room (cap : Int) (k : Nat) : Nat := if cap < 0 then k else min cap.toNat k

/-- How many jobs are ready in a group. -/
def readyIn (n : Nat) (ready : List Job) : Nat := ready.countP (·.group = n)

/-- The scheduler gives no error. -/
def Ev.fine : Ev → Prop
  | .rac _ _ _ fails => ∀ n, fails n = false
  | .drop _ _ fails => fails = false
  | .retry fails => fails = false

/-! ## Lemmas -/

private theorem get_map {f : Group → Group} (hf : ∀ g, (f g).name = g.name) (n m : Nat) : ∀ gs : List Group,
    get m (gs.map fun g => if g.name = n then f g else g) = if m = n then (get m gs).map f else get m gs
  | [] => by simp [get]
  | g :: gs => by
    have ih := get_map hf n m gs
    unfold get at ih ⊢
    rw [List.map_cons, List.find?_cons, List.find?_cons, ih]
    by_cases h1 : g.name = n
    · by_cases h2 : g.name = m
      · have : m = n := by omega
        simp [h1, hf, this]
      · have h3 : m ≠ n := by omega
        have : ¬ n = m := fun e => h3 e.symm
        simp [h1, hf, h3, this]
    · by_cases h2 : g.name = m
      · have h3 : m ≠ n := by omega
        simp [h1, h2, h3]
      · simp [h1, h2]

private theorem any_get {n : Nat} {gs : List Group} : gs.any (·.name = n) = (get n gs).isSome := by
  unfold get
  induction gs with
  | nil => rfl
  | cons g gs ih =>
    rw [List.any_cons, List.find?_cons, ih]
    cases decide (g.name = n) <;> rfl

theorem get_upd {gs : List Group} {n m : Nat} {new : Group} {f : Group → Group} (hn : new.name = n)
    (hf : ∀ g, (f g).name = g.name) :
    get m (upd gs n new f) = if m = n then some (f ((get n gs).getD new)) else get m gs := by
  unfold upd
  split
  · rename_i h
    rw [get_map hf]
    split
    · rename_i e
      subst e
      rw [any_get] at h
      obtain ⟨g, hg⟩ := Option.isSome_iff_exists.1 h
      simp [hg]
    · rfl
  · rename_i h
    rw [any_get] at h
    have h0 : get n gs = none := by simpa using h
    unfold get at h0 ⊢
    rw [List.find?_append]
    by_cases e : m = n
    · subst e
      rw [h0]
      simp [hf, hn]
    · have : ¬ n = m := fun x => e x.symm
      simp [hf, hn, e, this]

private theorem upd_names {gs : List Group} {n : Nat} {new : Group} {f : Group → Group} (hn : new.name = n)
    (hf : ∀ g, (f g).name = g.name) (h : (gs.map (·.name)).Nodup) : ((upd gs n new f).map (·.name)).Nodup := by
  unfold upd
  split
  · have : (gs.map fun g => if g.name = n then f g else g).map (·.name) = gs.map (·.name) := by
      rw [List.map_map]
      apply List.map_congr_left
      intro g _
      simp only [Function.comp]
      split
      · exact hf g
      · rfl
    rw [this]; exact h
  · rename_i hh
    rw [List.map_append, List.nodup_append]
    refine ⟨h, by simp, ?_⟩
    intro a ha b hb
    simp only [List.map_cons, List.map_nil, List.mem_singleton] at hb
    rw [hb, hf, hn]
    rintro rfl
    apply hh
    obtain ⟨g, hg, he⟩ := List.mem_map.1 ha
    rw [List.any_eq_true]
    exact ⟨g, hg, by simpa using he⟩

/-- One group of the count of ready jobs. -/
private def bump (cap : Int) (g : Group) (j : Job) : Group :=
  if cap ≥ 0 ∧ (g.count : Int) = cap then { g with skipped := g.skipped + 1 }
  else { g with count := g.count + 1, prio := if j.prio > g.prio then j.prio else g.prio }

private theorem get_one (cap : Nat → Int) (gs : List Group) (j : Job) (m : Nat) :
    get m (countOne cap gs j) = if m = j.group then some (bump (cap m) ((get m gs).getD { name := m }) j) else get m gs := by
  unfold countOne
  rw [get_upd (n := j.group) rfl (by intro g; split <;> rfl)]
  by_cases e : m = j.group
  · subst e; simp only [if_true, bump]
  · simp only [if_neg e]

private theorem bump_name (cap : Int) (g : Group) (j : Job) : (bump cap g j).name = g.name := by
  unfold bump; split <;> rfl

private theorem room_succ (cap : Int) (k : Nat) :
    (cap ≥ 0 ∧ (room cap k : Int) = cap → room cap (k + 1) = room cap k) ∧
    (¬ (cap ≥ 0 ∧ (room cap k : Int) = cap) → room cap (k + 1) = room cap k + 1) := by
  unfold room
  by_cases hc : cap < 0
  · simp only [if_pos hc]
    constructor <;> intro h <;> first | omega | trivial
  · simp only [if_neg hc]
    constructor <;> intro h <;> omega

/-- The state of a group after `k` of its jobs, `p` being the highest priority that was counted. -/
private def after (cap : Int) (n k p : Nat) : Group := ⟨n, room cap k, k - room cap k, p⟩

private theorem room_le (cap : Int) (k : Nat) : room cap k ≤ k := by
  unfold room; split <;> omega

private theorem get_count (cap : Nat → Int) (m : Nat) : ∀ (js : List Job) (gs : List Group) (k p : Nat),
    ((get m gs).getD { name := m } = after (cap m) m k p) → (get m gs = none → k = 0) →
    ∃ p', get m (js.foldl (countOne cap) gs) =
      if k + readyIn m js = 0 ∧ get m gs = none then none else some (after (cap m) m (k + readyIn m js) p')
  | [], gs, k, p, hg, hk => by
    refine ⟨p, ?_⟩
    simp only [List.foldl_nil, readyIn, List.countP_nil, Nat.add_zero]
    cases h : get m gs with
    | none => simp [hk h]
    | some g => rw [h] at hg; simpa using hg
  | j :: js, gs, k, p, hg, hk => by
    rw [List.foldl_cons]
    have h1 := get_one cap gs j m
    by_cases e : m = j.group
    · rw [if_pos e, hg] at h1
      have hb : ∃ p', bump (cap m) (after (cap m) m k p) j = after (cap m) m (k + 1) p' := by
        obtain ⟨ha, hb⟩ := room_succ (cap m) k
        have hle := room_le (cap m) k
        unfold bump
        split
        · rename_i hc
          have := ha hc
          refine ⟨p, ?_⟩
          simp only [after, this, Group.mk.injEq, true_and, and_true]
          omega
        · rename_i hc
          have := hb hc
          refine ⟨if j.prio > p then j.prio else p, ?_⟩
          have h2 : k - room (cap m) k = k + 1 - (room (cap m) k + 1) := by omega
          simp only [after, this, h2]
      obtain ⟨p1, hp1⟩ := hb
      rw [hp1] at h1
      obtain ⟨p', hp'⟩ := get_count cap m js (countOne cap gs j) (k + 1) p1 (by rw [h1]; rfl) (by rw [h1]; simp)
      refine ⟨p', ?_⟩
      have : readyIn m (j :: js) = readyIn m js + 1 := by simp [readyIn, List.countP_cons, e]
      rw [hp', if_neg (by omega), if_neg (by omega), this]
      congr 2; omega
    · rw [if_neg e] at h1
      obtain ⟨p', hp'⟩ := get_count cap m js (countOne cap gs j) k p (by rw [h1]; exact hg) (by rw [h1]; exact hk)
      refine ⟨p', ?_⟩
      have : readyIn m (j :: js) = readyIn m js := by
        simp [readyIn, List.countP_cons]
        exact fun h => e h.symm
      rw [hp', h1, this]

/-- What the count of running jobs starts from. -/
private def base (prev : List Group) (m : Nat) : Group :=
  match get m prev with
  | some g => { g with count := 0 }
  | none => { name := m }

private theorem get_name {m : Nat} {gs : List Group} {g : Group} (h : get m gs = some g) : g.name = m := by
  simpa using List.find?_some h

private theorem base_name (prev : List Group) (m : Nat) : (base prev m).name = m := by
  unfold base
  cases h : get m prev with
  | none => rfl
  | some g => exact (get_name h : g.name = m)

private theorem base_count (prev : List Group) (m : Nat) : (base prev m).count = 0 := by
  unfold base
  cases h : get m prev <;> rfl

private theorem get_runOne (prev gs : List Group) (n m : Nat) : get m (runOne prev gs n) =
    if m = n then some { (get n gs).getD (base prev n) with count := ((get n gs).getD (base prev n)).count + 1 }
    else get m gs :=
  get_upd (base_name prev n) fun _ => rfl

private theorem get_runs (prev : List Group) (m : Nat) : ∀ (rs : List Nat) (gs : List Group),
    get m (rs.foldl (runOne prev) gs) = if rs.count m = 0 then get m gs else
      some { (get m gs).getD (base prev m) with count := ((get m gs).getD (base prev m)).count + rs.count m }
  | [], gs => by simp
  | n :: rs, gs => by
    rw [List.foldl_cons, get_runs prev m rs, get_runOne]
    by_cases e : m = n
    · subst e
      have hc : (m :: rs).count m = rs.count m + 1 := by simp
      rw [if_pos rfl, if_neg (show ¬ (m :: rs).count m = 0 by omega), hc]
      split
      · rename_i h0
        rw [h0]
      · simp only [Option.getD_some, Option.some.injEq, Group.mk.injEq, true_and, and_true]
        omega
    · rw [if_neg e]
      have hc : (n :: rs).count m = rs.count m := by
        rw [List.count_cons]; simp [Ne.symm e]
      rw [hc]

private theorem names_count (cap : Nat → Int) : ∀ (js : List Job) (gs : List Group), (gs.map (·.name)).Nodup →
    ((js.foldl (countOne cap) gs).map (·.name)).Nodup
  | [], _, h => h
  | j :: js, gs, h => names_count cap js _ (upd_names rfl (by intro g; split <;> rfl) h)

private theorem names_runs (prev : List Group) : ∀ (rs : List Nat) (gs : List Group), (gs.map (·.name)).Nodup →
    ((rs.foldl (runOne prev) gs).map (·.name)).Nodup
  | [], _, h => h
  | n :: rs, gs, h => names_runs prev rs _ (upd_names (base_name prev n) (fun _ => rfl) h)

theorem groups_nodup (cap : Nat → Int) (prev : List Group) (ready : List Job) (running : List Nat) :
    ((groups cap prev ready running).map (·.name)).Nodup :=
  names_runs prev running _ (names_count cap ready [] (by simp))

theorem get_groups (cap : Nat → Int) (prev : List Group) (ready : List Job) (running : List Nat) (m : Nat) :
    if readyIn m ready = 0 ∧ running.count m = 0 then get m (groups cap prev ready running) = none
    else ∃ g, get m (groups cap prev ready running) = some g ∧
      g.count = room (cap m) (readyIn m ready) + running.count m ∧
      (readyIn m ready > 0 → g.skipped = readyIn m ready - room (cap m) (readyIn m ready)) := by
  unfold groups
  obtain ⟨p, hp⟩ := get_count cap m ready [] 0 0 (by simp [get, after, room]) (by simp)
  simp only [Nat.zero_add] at hp
  have hgn : get m [] = none := rfl
  rw [get_runs, hp, hgn]
  by_cases hr : readyIn m ready = 0
  · simp only [hr, true_and]
    have h0 : room (cap m) 0 = 0 := by unfold room; split <;> omega
    by_cases hc : running.count m = 0
    · simp [hc]
    · simp only [hc, if_false, if_true]
      refine ⟨_, rfl, ?_, ?_⟩
      · simp [base_count, h0]
      · omega
  · simp only [hr, false_and, if_false]
    by_cases hc : running.count m = 0
    · simp only [hc, if_true]
      exact ⟨_, rfl, by simp [after], fun _ => rfl⟩
    · simp only [hc, if_false]
      exact ⟨_, rfl, by simp [after], fun _ => rfl⟩

private theorem mem_get {gs : List Group} (hn : (gs.map (·.name)).Nodup) {g : Group} : g ∈ gs ↔ get g.name gs = some g := by
  constructor
  · intro h
    induction gs with
    | nil => simp at h
    | cons x xs ih =>
      simp only [List.map_cons, List.nodup_cons] at hn
      unfold get
      rw [List.find?_cons]
      rcases List.mem_cons.1 h with rfl | h'
      · simp
      · have : x.name ≠ g.name := fun e => hn.1 (by rw [e]; exact List.mem_map_of_mem h')
        simp only [this, decide_false]
        exact ih hn.2 h'
  · intro h
    exact List.mem_of_find?_eq_some h

private theorem not_any {n : Nat} {gs : List Group} : (!gs.any (·.name = n)) = true ↔ get n gs = none := by
  rw [any_get]; simp

private theorem mem_unneeded {prev gs : List Group} {n c : Nat} :
    (n, c) ∈ (unneeded prev gs).map (fun g => (g.name, g.count)) ↔ c = 0 ∧ n ∈ prev.map (·.name) ∧ get n gs = none := by
  unfold unneeded
  rw [List.map_map]
  simp only [List.mem_map, List.mem_filter, Function.comp, Prod.mk.injEq]
  constructor
  · rintro ⟨g, ⟨hg, hx⟩, rfl, rfl⟩
    exact ⟨rfl, ⟨g, hg, rfl⟩, not_any.1 hx⟩
  · rintro ⟨rfl, ⟨g, hg, rfl⟩, hx⟩
    exact ⟨g, ⟨hg, not_any.2 hx⟩, rfl, rfl⟩

private theorem tellNew_objs (fails : Nat → Bool) : ∀ (gs : List Group) (s : St),
    (tellNew s fails gs).1.objs = s.objs ++ gs ∧ (tellNew s fails gs).2 = List.range' s.objs.length gs.length
  | [], s => by simp [tellNew]
  | g :: gs, s => by
    have ht : (tell { s with objs := s.objs ++ [g] } s.objs.length (fails g.name)).objs = s.objs ++ [g] := by
      unfold tell
      split
      · rfl
      · split <;> rfl
    obtain ⟨h1, h2⟩ := tellNew_objs fails gs (tell { s with objs := s.objs ++ [g] } s.objs.length (fails g.name))
    simp only [tellNew, h1, h2, ht, List.append_assoc, List.singleton_append, List.length_append, List.length_singleton,
      List.length_cons, List.range'_succ, true_and]
    rfl

private theorem ids (a b : List Group) : (List.range' a.length b.length).filterMap ((a ++ b)[·]?) = b := by
  induction b generalizing a with
  | nil => simp
  | cons g b ih =>
    have := ih (a ++ [g])
    simp only [List.length_append, List.length_singleton, List.append_assoc, List.singleton_append] at this
    rw [List.length_cons, List.range'_succ, List.filterMap_cons_some (b := g) (by simp), this]

private theorem tellNew_told (fails : Nat → Bool) (hf : ∀ n, fails n = false) : ∀ (gs : List Group) (s : St),
    (gs.map (·.name)).Nodup → (tellNew s fails gs).1.retries = s.retries ∧ (tellNew s fails gs).1.prev = s.prev ∧
      ∀ n, (tellNew s fails gs).1.told n = match get n gs with | some g => some g.count | none => s.told n
  | [], s, _ => by simp [tellNew, get]
  | g :: gs, s, hn => by
    have ht : tell { s with objs := s.objs ++ [g] } s.objs.length (fails g.name) = { s with
        objs := s.objs ++ [g], told := fun n => if n = g.name then some g.count else s.told n } := by
      simp [tell, hf]
    simp only [List.map_cons, List.nodup_cons] at hn
    obtain ⟨h1, h2, h3⟩ := tellNew_told fails hf gs { s with
        objs := s.objs ++ [g], told := fun n => if n = g.name then some g.count else s.told n } hn.2
    simp only [tellNew, ht]
    refine ⟨h1, h2, ?_⟩
    intro n
    rw [h3]
    unfold get
    rw [List.find?_cons]
    by_cases e : g.name = n
    · have : get n gs = none := by
        cases h : get n gs with
        | none => rfl
        | some x =>
          exfalso
          apply hn.1
          rw [e, ← get_name h]
          exact List.mem_map_of_mem (List.mem_of_find?_eq_some h)
      unfold get at this
      simp [e, this]
    · have e' : ¬ n = g.name := fun x => e x.symm
      simp only [e, e', decide_false, if_false]

/-- What the scheduler was told is what the server keeps. -/
private structure Agree (s : St) : Prop where
  names : (s.book.map (·.name)).Nodup
  valid : ∀ i ∈ s.prev, i < s.objs.length
  nodup : s.prev.Nodup
  quiet : s.retries = []
  told : ∀ n, match get n s.book with
    | some g => s.told n = some g.count
    | none => s.told n = none ∨ s.told n = some 0

private theorem unneeded_nodup {prev gs : List Group} (h : (prev.map (·.name)).Nodup) :
    ((unneeded prev gs).map (·.name)).Nodup := by
  unfold unneeded
  rw [List.map_map]
  exact h.sublist ((List.filter_sublist ..).map _)

private theorem agree_rac {s : St} (h : Agree s) (cap : Nat → Int) (ready : List Job) (running : List Nat)
    (fails : Nat → Bool) (hf : ∀ n, fails n = false) : Agree (step s (.rac cap ready running fails)) := by
  simp only [step]
  generalize hgs : groups cap s.book ready running = gs
  have hn : (gs.map (·.name)).Nodup := by rw [← hgs]; exact groups_nodup ..
  obtain ⟨a1, a2⟩ := tellNew_objs fails (unneeded s.book gs) s
  obtain ⟨b1, b2, b3⟩ := tellNew_told fails hf (unneeded s.book gs) s (unneeded_nodup h.names)
  generalize hx : tellNew s fails (unneeded s.book gs) = x at a1 a2 b1 b2 b3 ⊢
  obtain ⟨c1, c2⟩ := tellNew_objs fails gs x.1
  obtain ⟨d1, d2, d3⟩ := tellNew_told fails hf gs x.1 hn
  generalize hy : tellNew x.1 fails gs = y at c1 c2 d1 d2 d3 ⊢
  have hbook : St.book { y.1 with prev := y.2 } = gs := by
    simp only [St.book, c1, c2]
    exact ids x.1.objs gs
  constructor
  · rw [hbook]; exact hn
  · intro i hi
    simp only [c1, c2, List.mem_range'_1, List.length_append] at hi ⊢
    omega
  · simp only [c2]; exact List.nodup_range'
  · show y.1.retries = []
    rw [d1, b1, h.quiet]
  · intro n
    rw [hbook]
    have := d3 n
    cases hg : get n gs with
    | some g => rw [hg] at this; exact this
    | none =>
      rw [hg] at this
      simp only at this ⊢
      rw [this, b3 n]
      cases hu : get n (unneeded s.book gs) with
      | some g =>
        simp only [Option.some.injEq, reduceCtorEq, false_or]
        have hm := List.mem_of_find?_eq_some hu
        unfold unneeded at hm
        obtain ⟨g', _, rfl⟩ := List.mem_map.1 hm
        rfl
      | none =>
        have ho := h.told n
        cases hb : get n s.book with
        | none => rw [hb] at ho; exact ho
        | some g =>
          exfalso
          have : (n, 0) ∈ (unneeded s.book gs).map (fun g => (g.name, g.count)) :=
            mem_unneeded.2 ⟨rfl, List.mem_map.2 ⟨g, List.mem_of_find?_eq_some hb, get_name hb⟩, hg⟩
          obtain ⟨g', hg', he⟩ := List.mem_map.1 this
          have h1 := (mem_get (unneeded_nodup h.names)).1 hg'
          rw [show g'.name = n from congrArg Prod.fst he, hu] at h1
          cases h1

private theorem apart {f : Nat → Option Group} : ∀ {l : List Nat}, ((l.filterMap f).map (·.name)).Nodup →
    ∀ {i k : Nat} {a b : Group}, i ∈ l → k ∈ l → f i = some a → f k = some b → a.name = b.name → i = k
  | [], _, i, _, _, _, hi, _, _, _, _ => by simp at hi
  | x :: l, h, i, k, a, b, hi, hk, ha, hb, he => by
    have mem : ∀ {y : Nat} {c : Group}, y ∈ l → f y = some c → c.name ∈ (l.filterMap f).map (·.name) :=
      fun hy hc => List.mem_map_of_mem (List.mem_filterMap.2 ⟨_, hy, hc⟩)
    have hl : ((l.filterMap f).map (·.name)).Nodup := by
      rw [List.filterMap_cons] at h
      split at h
      · exact h
      · exact (List.nodup_cons.1 h).2
    have hx : ∀ c, f x = some c → c.name ∉ (l.filterMap f).map (·.name) := by
      intro c hc
      rw [List.filterMap_cons_some hc] at h
      exact (List.nodup_cons.1 h).1
    rcases List.mem_cons.1 hi with e1 | hi'
    · rcases List.mem_cons.1 hk with e2 | hk'
      · rw [e1, e2]
      · subst e1; exact absurd (he ▸ mem hk' hb) (hx a ha)
    · rcases List.mem_cons.1 hk with e2 | hk'
      · subst e2; exact absurd (he.symm ▸ mem hi' ha) (hx b hb)
      · exact apart hl hi' hk' ha hb he

private theorem filterMap_eq {f g : Nat → Option Group} : ∀ {l : List Nat}, (∀ k ∈ l, f k = g k) → l.filterMap f = l.filterMap g
  | [], _ => rfl
  | k :: l, h => by
    rw [List.filterMap_cons, List.filterMap_cons, h k (by simp), filterMap_eq fun x hx => h x (by simp [hx])]

private theorem book_set {s : St} (h : Agree s) {i : Nat} (hi : i ∈ s.prev) {g g' : Group} (hg : s.objs[i]? = some g)
    (more : List Group) :
    s.prev.filterMap ((s.objs.set i g' ++ more)[·]?) = s.book.map fun x => if x.name = g.name then g' else x := by
  rw [St.book, List.map_filterMap]
  apply filterMap_eq
  intro k hk
  have hlt := h.valid k hk
  have hlt' : k < (s.objs.set i g').length := by simpa using hlt
  rw [List.getElem?_append_left hlt']
  by_cases e : i = k
  · subst e
    rw [hg, List.getElem?_set]
    simp [hlt]
  · rw [List.getElem?_set, if_neg e]
    cases hb : s.objs[k]? with
    | none => rfl
    | some b =>
      have : ¬ b.name = g.name := fun he => e (apart (f := (s.objs[·]?)) h.names hi hk hg hb he.symm)
      simp [this]

private theorem decrement_name (g : Group) (d : Nat) : (decrement g d).1.name = g.name := by
  unfold decrement; split
  · rfl
  · split <;> rfl

private theorem decrement_same {g : Group} {d : Nat} (h : (decrement g d).2 = false) : (decrement g d).1.count = g.count := by
  unfold decrement at h ⊢
  split
  · rfl
  · split
    · rfl
    · rename_i h1 h2
      simp only [h1, h2, if_false] at h
      simpa using h

private theorem map_if (g g' : Group) (hn : g'.name = g.name) (bs : List Group) :
    (bs.map fun x => if x.name = g.name then g' else x).map (·.name) = bs.map (·.name) := by
  rw [List.map_map]
  apply List.map_congr_left
  intro x _
  simp only [Function.comp]
  split
  · rename_i e; rw [hn, e]
  · rfl

private theorem get_if (g g' : Group) (hn : g'.name = g.name) (n : Nat) : ∀ bs : List Group,
    get n (bs.map fun x => if x.name = g.name then g' else x) = if n = g.name then (get n bs).map fun _ => g' else get n bs
  | [] => by simp [get]
  | b :: bs => by
    have ih := get_if g g' hn n bs
    unfold get at ih ⊢
    rw [List.map_cons, List.find?_cons, List.find?_cons, ih]
    by_cases h1 : b.name = g.name
    · by_cases h2 : n = g.name
      · subst h2; simp [h1, hn]
      · have : ¬ g.name = n := fun x => h2 x.symm
        simp [h1, hn, h2, this]
    · by_cases h2 : b.name = n
      · have h3 : ¬ n = g.name := fun e => h1 (by rw [h2, e])
        simp [h1, h2, h3]
      · simp [h1, h2]

private theorem agree_drop {s : St} (h : Agree s) (n d : Nat) : Agree (step s (.drop n d false)) := by
  simp only [step]
  cases hf : s.prev.find? fun i => (s.objs[i]?.map (·.name)) = some n with
  | none => exact h
  | some i =>
    simp only
    cases hg : s.objs[i]? with
    | none => exact h
    | some g =>
      have hi := List.mem_of_find?_eq_some hf
      have hgn : g.name = n := by
        have := List.find?_some hf
        rw [hg] at this
        simpa using this
      have hmem : g ∈ s.book := List.mem_filterMap.2 ⟨i, hi, hg⟩
      have hget : get n s.book = some g := by rw [← hgn]; exact (mem_get h.names).1 hmem
      have htold := h.told n
      rw [hget] at htold
      simp only at htold ⊢
      have hname := decrement_name g d
      have hb := book_set h hi (g' := (decrement g d).1) hg
      cases hc : (decrement g d).2 with
      | false =>
        simp only [Bool.false_eq_true, if_false]
        have hb' : St.book { s with objs := s.objs.set i (decrement g d).1 } =
            s.book.map fun x => if x.name = g.name then (decrement g d).1 else x := by
          have := hb []
          rw [List.append_nil] at this
          exact this
        refine ⟨?_, ?_, h.nodup, h.quiet, ?_⟩
        · rw [hb', map_if _ _ hname]; exact h.names
        · intro k hk; simpa using h.valid k hk
        · intro m
          rw [hb', get_if _ _ hname]
          have hm := h.told m
          by_cases e : m = g.name
          · have : m = n := by omega
            subst this
            rw [if_pos e, hget]
            simp only [Option.map_some]
            rw [decrement_same hc]; exact htold
          · rw [if_neg e]; exact hm
      | true =>
        simp only [if_true]
        obtain ⟨a1, _⟩ := tellNew_objs (fun _ => false) [(decrement g d).1] { s with objs := s.objs.set i (decrement g d).1 }
        obtain ⟨b1, b2, b3⟩ := tellNew_told (fun _ => false) (fun _ => rfl) [(decrement g d).1]
          { s with objs := s.objs.set i (decrement g d).1 } (by simp)
        generalize hy : (tellNew { s with objs := s.objs.set i (decrement g d).1 } (fun _ => false) [(decrement g d).1]).1 = y
          at a1 b1 b2 b3 ⊢
        have hb' : St.book y = s.book.map fun x => if x.name = g.name then (decrement g d).1 else x := by
          rw [St.book, b2, a1]
          exact hb _
        refine ⟨?_, ?_, ?_, ?_, ?_⟩
        · rw [hb', map_if _ _ hname]; exact h.names
        · intro k hk
          rw [b2] at hk
          rw [a1]
          have := h.valid k hk
          simp only [List.length_append, List.length_set, List.length_singleton]
          omega
        · rw [b2]; exact h.nodup
        · rw [b1]; exact h.quiet
        · intro m
          rw [hb', get_if _ _ hname, b3]
          have hm := h.told m
          by_cases e : m = g.name
          · have : m = n := by omega
            subst this
            rw [if_pos e, hget]
            simp [get, hname, e]
          · have e' : ¬ g.name = m := fun x => e x.symm
            rw [if_neg e]
            simp only [get, List.find?_cons, hname, e', decide_false, List.find?_nil]
            exact hm

private theorem agree_step {s : St} (h : Agree s) (e : Ev) (he : e.fine) : Agree (step s e) := by
  cases e with
  | rac cap ready running fails => exact agree_rac h cap ready running fails he
  | drop n d fails =>
    have : fails = false := he
    subst this
    exact agree_drop h n d
  | retry fails =>
    simp only [step, h.quiet]
    exact h

private theorem agree_run : ∀ {es : List Ev} {s : St}, Agree s → (∀ e ∈ es, e.fine) → Agree (run s es)
  | [], _, h, _ => h
  | e :: es, s, h, hf => agree_run (s := step s e) (agree_step h e (hf e (by simp))) fun x hx => hf x (by simp [hx])

private theorem mono_count (cap : Nat → Int) (m : Nat) : ∀ (js : List Job) (gs : List Group) (g : Group), get m gs = some g →
    ∃ g', get m (js.foldl (countOne cap) gs) = some g' ∧ g.prio ≤ g'.prio
  | [], _, g, h => ⟨g, h, Nat.le_refl _⟩
  | j :: js, gs, g, h => by
    have h1 := get_one cap gs j m
    rw [h] at h1
    by_cases e : m = j.group
    · rw [if_pos e] at h1
      obtain ⟨g', hg', hp⟩ := mono_count cap m js _ _ h1
      refine ⟨g', hg', Nat.le_trans ?_ hp⟩
      simp only [Option.getD_some, bump]
      split
      · exact Nat.le_refl _
      · simp only; split <;> omega
    · rw [if_neg e] at h1
      exact mono_count cap m js _ _ h1

private theorem runs_prio (prev : List Group) (m : Nat) (rs : List Nat) (gs : List Group) (g : Group) (h : get m gs = some g) :
    ∃ g', get m (rs.foldl (runOne prev) gs) = some g' ∧ g'.prio = g.prio := by
  rw [get_runs, h]
  split
  · exact ⟨g, rfl, rfl⟩
  · exact ⟨_, rfl, rfl⟩

private theorem from_count (cap : Nat → Int) (m : Nat) (all : List Job) : ∀ (js : List Job) (gs : List Group),
    (∀ j ∈ js, j ∈ all) → (∀ g, get m gs = some g → g.prio = 0 ∨ ∃ j ∈ all, j.group = m ∧ j.prio = g.prio) →
    ∀ g, get m (js.foldl (countOne cap) gs) = some g → g.prio = 0 ∨ ∃ j ∈ all, j.group = m ∧ j.prio = g.prio
  | [], _, _, h => h
  | j :: js, gs, hall, h => by
    apply from_count cap m all js (countOne cap gs j) fun x hx => hall x (by simp [hx])
    intro g hg
    rw [get_one] at hg
    by_cases e : m = j.group
    · rw [if_pos e] at hg
      cases hg
      have hold : ((get m gs).getD { name := m }).prio = 0 ∨
          ∃ x ∈ all, x.group = m ∧ x.prio = ((get m gs).getD { name := m }).prio := by
        cases hm : get m gs with
        | none => exact .inl rfl
        | some g => exact h g hm
      unfold bump
      split
      · exact hold
      · simp only
        split
        · exact .inr ⟨j, hall j (by simp), e.symm, rfl⟩
        · exact hold
    · rw [if_neg e] at hg
      exact h g hg

private theorem prio_at (cap : Nat → Int) (prev : List Group) (l r : List Job) (j : Job) (running : List Nat)
    (hc : ∀ g, (get j.group (l.foldl (countOne cap) [])).getD { name := j.group } = g →
      ¬ (cap j.group ≥ 0 ∧ (g.count : Int) = cap j.group)) :
    ∃ g, get j.group (groups cap prev (l ++ j :: r) running) = some g ∧ j.prio ≤ g.prio := by
  have h1 := get_one cap (l.foldl (countOne cap) []) j j.group
  rw [if_pos rfl] at h1
  obtain ⟨g', hg', hp⟩ := mono_count cap j.group r _ _ h1
  have hfold : (l ++ j :: r).foldl (countOne cap) [] = r.foldl (countOne cap) (countOne cap (l.foldl (countOne cap) []) j) := by
    rw [List.foldl_append, List.foldl_cons]
  obtain ⟨g2, hg2, hp2⟩ := runs_prio prev j.group running ((l ++ j :: r).foldl (countOne cap) []) g' (by rw [hfold]; exact hg')
  refine ⟨g2, hg2, ?_⟩
  rw [hp2]
  refine Nat.le_trans ?_ hp
  unfold bump
  rw [if_neg (hc _ rfl)]
  simp only
  split <;> omega

/-! ## Properties -/

/-- C95: the scheduler is told, for each scheduler group with ready or running jobs, as many runners as jobs run, and as
jobs are ready that the limits leave room for; for each other group that was needed the last time, that no runner is
needed; and nothing else. -/
theorem C95_told (cap : Nat → Int) (prev : List Group) (ready : List Job) (running : List Nat) (n c : Nat) :
    (n, c) ∈ (rac cap prev ready running).1.map (fun g => (g.name, g.count)) ↔
      ((readyIn n ready > 0 ∨ n ∈ running) ∧ c = room (cap n) (readyIn n ready) + running.count n) ∨
      (readyIn n ready = 0 ∧ n ∉ running ∧ n ∈ prev.map (·.name) ∧ c = 0) := by
  have hg := get_groups cap prev ready running n
  have hrun : n ∈ running ↔ running.count n > 0 := List.count_pos_iff.symm
  simp only [rac, List.map_append, List.mem_append, mem_unneeded]
  have hmem : (n, c) ∈ (groups cap prev ready running).map (fun g => (g.name, g.count)) ↔
      ∃ g, get n (groups cap prev ready running) = some g ∧ g.count = c := by
    simp only [List.mem_map, Prod.mk.injEq]
    constructor
    · rintro ⟨g, h, rfl, rfl⟩
      exact ⟨g, (mem_get (groups_nodup ..)).1 h, rfl⟩
    · rintro ⟨g, h, rfl⟩
      have := get_name h
      subst this
      exact ⟨g, (mem_get (groups_nodup ..)).2 h, rfl, rfl⟩
  rw [hmem, hrun]
  split at hg
  · rename_i h0
    rw [hg]
    simp [h0.1, h0.2, and_comm, and_left_comm]
  · rename_i h0
    obtain ⟨g, hg, hc, _⟩ := hg
    rw [hg]
    simp only [reduceCtorEq, and_false, false_or, Option.some.injEq, exists_eq_left']
    constructor
    · rintro rfl
      exact .inl ⟨by omega, hc⟩
    · rintro (⟨_, h⟩ | ⟨h1, h2, _⟩)
      · omega
      · exact absurd ⟨h1, by omega⟩ h0

/-- C95: no scheduler group is told of twice in a run of the callback. -/
theorem C95_once (cap : Nat → Int) (prev : List Group) (hp : (prev.map (·.name)).Nodup) (ready : List Job) (running : List Nat) :
    ((rac cap prev ready running).1.map (·.name)).Nodup := by
  simp only [rac, List.map_append]
  rw [List.nodup_append]
  refine ⟨?_, groups_nodup .., ?_⟩
  · unfold unneeded
    rw [List.map_map]
    exact hp.sublist ((List.filter_sublist ..).map _)
  · intro a ha b hb hab
    subst hab
    unfold unneeded at ha
    simp only [List.map_map, List.mem_map, List.mem_filter, Function.comp] at ha
    obtain ⟨g, ⟨_, hx⟩, rfl⟩ := ha
    obtain ⟨g', hg', he⟩ := List.mem_map.1 hb
    have := (mem_get (groups_nodup ..)).1 hg'
    rw [he, not_any.1 hx] at this
    cases this

/-- C95: what is kept for the next time are the groups that have ready or running jobs. -/
theorem C95_kept (cap : Nat → Int) (prev : List Group) (ready : List Job) (running : List Nat) (n : Nat) :
    n ∈ (rac cap prev ready running).2.map (·.name) ↔ readyIn n ready > 0 ∨ n ∈ running := by
  have hg := get_groups cap prev ready running n
  have hrun : n ∈ running ↔ running.count n > 0 := List.count_pos_iff.symm
  have : n ∈ (rac cap prev ready running).2.map (·.name) ↔ (get n (groups cap prev ready running)).isSome := by
    rw [← any_get, List.any_eq_true]
    simp [rac]
  rw [this, hrun]
  split at hg
  · rename_i h0; rw [hg]; simp [h0.1, h0.2]
  · rename_i h0
    obtain ⟨g, hg, _⟩ := hg
    rw [hg]
    simp only [Option.isSome_some, true_iff]
    omega

/-- C95: jobs are left out for the limits only, and it is noted how many. -/
theorem C95_skipped (cap : Nat → Int) (prev : List Group) (ready : List Job) (running : List Nat) (g : Group)
    (h : g ∈ (rac cap prev ready running).2) (hr : readyIn g.name ready > 0) :
    g.count + g.skipped = readyIn g.name ready + running.count g.name ∧ (cap g.name < 0 → g.skipped = 0) := by
  have hg := get_groups cap prev ready running g.name
  rw [if_neg (by omega)] at hg
  obtain ⟨g', hg', hc, hs⟩ := hg
  have := (mem_get (groups_nodup ..)).1 h
  rw [this] at hg'
  cases hg'
  have hle := room_le (cap g.name) (readyIn g.name ready)
  have := hs hr
  refine ⟨by omega, ?_⟩
  intro hneg
  rw [this]
  simp [room, hneg]

/-- C95: without a limit the runners of a group are asked for with the highest priority of its ready jobs. -/
theorem C95_priority (cap : Nat → Int) (prev : List Group) (ready : List Job) (running : List Nat) (g : Group)
    (h : g ∈ (rac cap prev ready running).2) (hc : cap g.name < 0) (j : Job) (hj : j ∈ ready) (hg : j.group = g.name) :
    j.prio ≤ g.prio := by
  obtain ⟨l, r, rfl⟩ := List.append_of_mem hj
  obtain ⟨g', hg', hp⟩ := prio_at cap prev l r j running (by intro _ _; rw [hg]; omega)
  have := (mem_get (groups_nodup ..)).1 h
  rw [hg, this] at hg'
  cases hg'
  exact hp

/-- C95: with a limit that leaves room, it is at least that of the first job of the group, which is the one to be reserved
first. -/
theorem C95_priority_first (cap : Nat → Int) (prev : List Group) (l r : List Job) (j : Job) (running : List Nat) (g : Group)
    (h : g ∈ (rac cap prev (l ++ j :: r) running).2) (hc : cap g.name ≠ 0) (hl : ∀ x ∈ l, x.group ≠ g.name)
    (hg : j.group = g.name) : j.prio ≤ g.prio := by
  have h0 : get g.name (l.foldl (countOne cap) []) = none := by
    have := get_groups cap [] l [] g.name
    have hr : readyIn g.name l = 0 := by
      unfold readyIn
      rw [List.countP_eq_zero]
      intro x hx
      simpa using hl x hx
    rw [if_pos ⟨hr, rfl⟩] at this
    exact this
  obtain ⟨g', hg', hp⟩ := prio_at cap prev l r j running (by
    intro x hx
    rw [hg, h0] at hx
    subst hx
    rw [hg]
    simp only [Option.getD_none]
    omega)
  have := (mem_get (groups_nodup ..)).1 h
  rw [hg, this] at hg'
  cases hg'
  exact hp

/-- C95: and never a priority that no job of the group has. -/
theorem C95_priority_some (cap : Nat → Int) (prev : List Group) (ready : List Job) (running : List Nat) (g : Group)
    (h : g ∈ (rac cap prev ready running).2) (hr : readyIn g.name ready > 0) :
    g.prio = 0 ∨ ∃ j ∈ ready, j.group = g.name ∧ j.prio = g.prio := by
  obtain ⟨p, hp⟩ := get_count cap g.name ready [] 0 0 (by simp [get, after, room]) (by simp)
  simp only [Nat.zero_add] at hp
  rw [if_neg (by omega)] at hp
  have hf := from_count cap g.name ready ready [] (fun _ h => h) (by intro g hg; cases hg) _ hp
  obtain ⟨g', hg', he⟩ := runs_prio prev g.name running _ _ hp
  have := (mem_get (groups_nodup ..)).1 h
  have hg'' : get g.name (groups cap prev ready running) = some g' := hg'
  rw [this] at hg''
  cases hg''
  rw [he]; exact hf

example : (rac (fun n => if n = 1 then 2 else -1) [{ name := 3, count := 4 }, { name := 2 }]
    [⟨1, 0⟩, ⟨1, 5⟩, ⟨2, 7⟩, ⟨1, 9⟩] [2, 4]).1.map (fun g => (g.name, g.count, g.skipped, g.prio)) =
      [(3, 0, 0, 0), (1, 2, 1, 5), (2, 2, 0, 7), (4, 1, 0, 0)] := by decide

/-- C95: if the scheduler says that it can never run the jobs of a group, exactly the ready jobs of this group are buried,
for want of resources. -/
theorem C95_impossible (n : Nat) (jobs : List QJob) (i : Nat) (j : QJob) (h : jobs[i]? = some j) :
    (answered n jobs .impossible).1[i]? =
      some (if j.group = n ∧ j.ready = true then { j with ready := false, buried := true, noRes := true } else j) := by
  simp [answered, h]

/-- C95: otherwise no job changes; the schedule is tried again exactly if there was an error. -/
theorem C95_error (n : Nat) (jobs : List QJob) (a : Answer) (h : a ≠ .impossible) :
    (answered n jobs a).1 = jobs ∧ (answered n jobs a).2.1 = false ∧ ((answered n jobs a).2.2 = true ↔ a = .error) := by
  cases a <;> simp [answered] at h ⊢

/-- C95: as long as the scheduler gives no errors, what it was told last for a group is what the server keeps for it, and
nought, if anything, for all others. -/
theorem C95_agree_partial (es : List Ev) (h : ∀ e ∈ es, e.fine) (n : Nat) :
    match get n (run {} es).book with
    | some g => (run {} es).told n = some g.count
    | none => (run {} es).told n = none ∨ (run {} es).told n = some 0 :=
  (agree_run (s := {}) ⟨by simp [St.book], by simp, by simp, rfl, by simp [St.book, get]⟩ h).told n

/-- C95: a run of the callback puts all right, whatever was before, if the scheduler gives no error now. -/
theorem C95_rac_partial (es : List Ev) (h : ∀ e ∈ es, e.fine) (cap : Nat → Int) (ready : List Job) (running : List Nat)
    (fails : Nat → Bool) (hf : ∀ n, fails n = false) (n : Nat) :
    (readyIn n ready > 0 ∨ n ∈ running → (run {} (es ++ [.rac cap ready running fails])).told n =
      some (room (cap n) (readyIn n ready) + running.count n)) ∧
    (readyIn n ready = 0 → n ∉ running → (run {} (es ++ [.rac cap ready running fails])).told n = none ∨
      (run {} (es ++ [.rac cap ready running fails])).told n = some 0) := by
  have hall : ∀ e ∈ es ++ [.rac cap ready running fails], e.fine := by
    intro e he
    rcases List.mem_append.1 he with he | he
    · exact h e he
    · simp only [List.mem_singleton] at he
      subst he; exact hf
  have hA := C95_agree_partial _ hall n
  have hrun : ∀ (s : St) (l : List Ev) (e : Ev), run s (l ++ [e]) = step (run s l) e := by
    intro s l e
    induction l generalizing s with
    | nil => rfl
    | cons x l ih => exact ih (step s x)
  have hbook : (run {} (es ++ [.rac cap ready running fails])).book = groups cap (run {} es).book ready running := by
    rw [hrun]
    simp only [step]
    generalize (run {} es).book = bk
    obtain ⟨c1, c2⟩ := tellNew_objs fails (groups cap bk ready running)
      (tellNew (run {} es) fails (unneeded bk (groups cap bk ready running))).1
    rw [St.book, c1, c2]
    exact ids _ _
  rw [hbook] at hA
  have hg := get_groups cap (run {} es).book ready running n
  have hcount : n ∈ running ↔ running.count n > 0 := List.count_pos_iff.symm
  split at hg
  · rename_i h0
    rw [hg] at hA
    refine ⟨?_, fun _ _ => hA⟩
    rintro (h1 | h1)
    · omega
    · rw [hcount] at h1; omega
  · rename_i h0
    obtain ⟨g, hg, hc, _⟩ := hg
    rw [hg] at hA
    refine ⟨fun _ => by rw [hA, hc], ?_⟩
    intro h1 h2
    rw [hcount] at h2
    omega

example : (run {} [.rac (fun _ => -1) [⟨1, 0⟩, ⟨1, 0⟩, ⟨2, 0⟩] [] (fun _ => false), .drop 1 1 false,
    .rac (fun _ => -1) [⟨1, 0⟩] [] (fun _ => false)]).told 1 = some 1 ∧
  (run {} [.rac (fun _ => -1) [⟨1, 0⟩, ⟨1, 0⟩, ⟨2, 0⟩] [] (fun _ => false), .drop 1 1 false,
    .rac (fun _ => -1) [⟨1, 0⟩] [] (fun _ => false)]).told 2 = some 0 := by decide

/-- C95 violated: after an error the schedule is tried again with what was needed then, although it was told since that no
runner is needed any more. -/
theorem C95_violated_retry :
    let es : List Ev := [.rac (fun _ => -1) [⟨1, 0⟩, ⟨1, 0⟩] [] (fun _ => true), .rac (fun _ => -1) [] [] (fun _ => false),
      .retry false]
    (run {} es).told 1 = some 2 ∧ (run {} es).book = [] ∧ (run {} es).retries = [] := by decide

/-- C95 violated: the room that a limit leaves is given to each of the scheduler groups that it is for, so more runners are
asked for than jobs may run. -/
theorem C95_violated_shared :
    ((rac (fun _ => 1) [] [⟨1, 0⟩, ⟨2, 0⟩, ⟨3, 0⟩] []).1.map (·.count)).sum = 3 := by decide

end Verif.Server.Rac
