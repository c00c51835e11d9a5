import Verif.Sched.CloudRun
/-
Properties of commands on cloud servers: C126.
-/
namespace Verif.Sched.CloudRun

/-! ## specification -/

/-- what those of the commands `l` that are on server `i` were promised -/
def load (l : List (Nat × Res)) (i : Nat) (c : Comp) : Nat := (l.map fun p => if p.1 = i then p.2 c else 0).sum

/-! ## invariant -/

structure Inv (s : S) : Prop where
  le : ∀ i c, (s.srv i).used c ≤ (s.srv i).cap c
  ge : ∀ i c, load s.runs i c ≤ (s.srv i).used c
  eq : ∀ i c, (s.srv i).gone = false → (s.srv i).perm = false → load s.runs i c = (s.srv i).used c
  permBad : ∀ i, (s.srv i).perm = true → (s.srv i).bad = true
  fresh : ∀ i, i ≠ 0 → (s.srv i).cap .cores = 0 →
    s.loc i = .nowhere ∧ (∀ p ∈ s.runs, p.1 ≠ i) ∧ (s.srv i).bad = false ∧ Note.bad i ∉ s.notes ∧ Note.good i ∉ s.notes

theorem sum_erase {l : List (Nat × Res)} {k : Nat} {p : Nat × Res} (h : l[k]? = some p) (f : Nat × Res → Nat) :
    ((l.eraseIdx k).map f).sum + f p = (l.map f).sum := by
  induction l generalizing k with
  | nil => simp at h
  | cons a l ih =>
    cases k with
    | zero =>
      simp only [List.getElem?_cons_zero, Option.some.injEq] at h
      subst h
      simp
      omega
    | succ k =>
      simp only [List.getElem?_cons_succ] at h
      have := ih h
      simp only [List.eraseIdx_cons_succ, List.map_cons, List.sum_cons] at this ⊢
      omega

theorem sum_zero {l : List (Nat × Res)} {i : Nat} (h : ∀ p ∈ l, p.1 ≠ i) (c : Comp) :
    load l i c = 0 := by
  unfold load
  induction l with
  | nil => rfl
  | cons a l ih =>
    simp only [List.map_cons, List.sum_cons, if_neg (h a (by simp)), Nat.zero_add]
    exact ih (fun p hp => h p (by simp [hp]))

theorem inv_init (cap : Res) : Inv (init cap) := by
  constructor <;> simp +contextual [init, load, zero]

theorem fits_spec {v : Srv} {r : Res} (h : fits v r = true) : v.gone = false ∧ ∀ c, v.used c + r c ≤ v.cap c := by
  simp only [fits, Bool.and_eq_true, Bool.not_eq_true', decide_eq_true_eq] at h
  refine ⟨h.1.1.1, ?_⟩
  intro c
  cases c
  · exact h.1.1.2
  · exact h.1.2
  · exact h.2

theorem load_append (l : List (Nat × Res)) (i j : Nat) (c : Comp) (r : Res) :
    load (l ++ [(i, r)]) j c = load l j c + if i = j then r c else 0 := by
  simp [load]

theorem load_erase {l : List (Nat × Res)} {k i : Nat} {r : Res} (h : l[k]? = some (i, r)) (j : Nat) (c : Comp) :
    load (l.eraseIdx k) j c + (if i = j then r c else 0) = load l j c :=
  sum_erase h _

theorem ended_cases (v : Srv) (i : Nat) (r : Res) (ok : Bool) :
    (ok = false ∧ i ≠ 0 ∧ v.gone = false ∧ ended v i r ok = ({ v with bad := true, perm := true }, [.bad i])) ∨
    ((v.gone = true ∨ v.perm = true) ∧ (ok = true ∨ i = 0 ∨ v.gone = true) ∧ ended v i r ok = (v, [])) ∨
    (v.gone = false ∧ v.perm = false ∧ (ok = true ∨ i = 0) ∧
      ended v i r ok = ({ v with used := fun c => v.used c - r c }, [])) := by
  obtain ⟨cap, used, bad, perm, gone⟩ := v
  cases ok <;> cases gone <;> cases perm <;> by_cases h : i = 0 <;> simp [ended, h]

theorem inv_step {s s' : S} {e : Ev} (h : Inv s) (hs : step s e = some s') : Inv s' := by
  obtain ⟨le, ge, eq, pb, fr⟩ := h
  cases e with
  | spawned i cap =>
    simp only [step] at hs
    split at hs
    · rename_i hg
      have hf := fr i hg.1 hg.2.2.1
      have hz : ∀ c, load s.runs i c = 0 := fun c => sum_zero hf.2.1 c
      split at hs <;> obtain rfl := Option.some.inj hs <;>
      · constructor <;> simp only [set] <;> intro j <;> by_cases hj : j = i <;>
          simp only [hj, if_true, if_false, zero] <;> grind
    · cases hs
  | update =>
    simp only [step] at hs
    split at hs
    · cases hs
    · obtain rfl := Option.some.inj hs
      refine ⟨le, ge, eq, pb, ?_⟩
      intro j h0 hj
      have := fr j h0 hj
      simp only [this.1]
      exact ⟨by simp, this.2⟩
  | check i alive =>
    simp only [step] at hs
    (repeat' split at hs) <;> first | (exfalso; cases hs; done) | skip
    all_goals obtain rfl := Option.some.inj hs
    all_goals first
      | exact ⟨le, ge, eq, pb, fr⟩
      | (constructor <;> simp only [set] <;> intro j <;> by_cases hj : j = i <;>
          simp only [hj, if_true, if_false] <;> grind)
  | start i r =>
    simp only [step] at hs
    split at hs
    · rename_i hg
      obtain ⟨hgone, hfit⟩ := fits_spec hg.2.2.2
      obtain rfl := Option.some.inj hs
      constructor <;> simp only [set, load_append] <;> intro j <;> by_cases hj : j = i <;>
          simp only [hj, if_true, if_false] <;> grind
    · cases hs
  | finish k ok =>
    simp only [step] at hs
    split at hs
    · rename_i i r hk
      have hl := load_erase hk
      have hm : (i, r) ∈ s.runs := List.mem_of_getElem? hk
      have he : ∀ p, p ∈ s.runs.eraseIdx k → p ∈ s.runs := fun p hp => List.mem_of_mem_eraseIdx hp
      obtain rfl := Option.some.inj hs
      rcases ended_cases (s.srv i) i r ok with ⟨h1, h2, h3, h4⟩ | ⟨h1, h2, h4⟩ | ⟨h1, h2, h3, h4⟩ <;> rw [h4] <;>
      (constructor <;> simp only [set] <;> intro j <;> by_cases hj : j = i <;>
          simp only [hj, if_true, if_false] <;> grind)
    · cases hs
  | destroy i =>
    simp only [step] at hs
    split at hs
    · obtain rfl := Option.some.inj hs
      constructor <;> simp only [set] <;> intro j <;> by_cases hj : j = i <;>
          simp only [hj, if_true, if_false] <;> grind
    · cases hs
  | cleanup =>
    simp only [step] at hs
    obtain rfl := Option.some.inj hs
    have key : ∀ j, ∃ g, (if j ≠ 0 ∧ s.loc j ≠ .nowhere then { s.srv j with gone := true } else s.srv j) =
        { s.srv j with gone := g } ∧ (g = false → (s.srv j).gone = false) := by
      intro j
      split
      · exact ⟨true, rfl, by simp⟩
      · exact ⟨(s.srv j).gone, rfl, id⟩
    constructor <;> simp only <;> intro j <;> obtain ⟨g, hg, hg'⟩ := key j <;> rw [hg] <;> grind

theorem inv_run {s s' : S} {es : List Ev} (h : Inv s) (hs : run s es = some s') : Inv s' := by
  induction es generalizing s with
  | nil => simp only [run, Option.some.injEq] at hs; exact hs ▸ h
  | cons e es ih =>
    simp only [run] at hs
    cases e1 : step s e with
    | none => rw [e1] at hs; simp at hs
    | some t => rw [e1] at hs; exact ih (inv_step h e1) hs

theorem run_append (s : S) (a b : List Ev) : run s (a ++ b) = (run s a).bind fun t => run t b := by
  induction a generalizing s with
  | nil => rfl
  | cons e es ih =>
    simp only [List.cons_append, run]
    cases step s e with
    | none => rfl
    | some t => simpa using ih t

/-- what is true of every state and event of a history, from an invariant -/
theorem run_inv {P : S → Prop} {Q : Ev → Prop} (hstep : ∀ s e s', P s → step s e = some s' → P s' ∧ Q e)
    {s s' : S} {es : List Ev} (h : P s) (hs : run s es = some s') : P s' ∧ ∀ e ∈ es, Q e := by
  induction es generalizing s with
  | nil => simp only [run, Option.some.injEq] at hs; exact ⟨hs ▸ h, by simp⟩
  | cons e es ih =>
    simp only [run] at hs
    cases e1 : step s e with
    | none => rw [e1] at hs; simp at hs
    | some t =>
      rw [e1] at hs
      have a := hstep s e t h e1
      have b := ih a.1 hs
      exact ⟨b.1, fun x hx => (List.mem_cons.1 hx).elim (fun e => e ▸ a.2) (b.2 x)⟩

/-! ## theorems -/

def flavor : Res := fun c => match c with | .cores => 4 | .ram => 1000 | .disk => 20
def need (n : Nat) : Res := fun c => match c with | .cores => n | .ram => 100 * n | .disk => n

/-- C126: whatever happens, the commands on a server were never promised more
cores, memory or disk together than the server has. -/
theorem C126_capacity (cap : Res) (es : List Ev) (s : S) (h : run (init cap) es = some s) (i : Nat) (c : Comp) :
    load s.runs i c ≤ (s.srv i).cap c :=
  let v := inv_run (inv_init cap) h
  Nat.le_trans (v.ge i c) (v.le i c)

/-- localhost and a new server with commands; a third one of two cores does not fit on the new one -/
example : ∃ s, run (init flavor) [.spawned 1 flavor, .update, .start 1 (need 2), .start 0 (need 3), .start 1 (need 1)] = some s ∧
    load s.runs 1 .cores = 3 ∧ (s.srv 1).cap .cores = 4 ∧ load s.runs 0 .ram = 300 ∧ (step s (.start 1 (need 2))).isNone ∧
    (step s (.start 1 (need 1))).isSome :=
  ⟨_, rfl, by decide +kernel, by decide +kernel, by decide +kernel, by decide +kernel, by decide +kernel⟩

/-- C126: all of the space is given back: a command can start on a server that
can be used whenever it fits beside the commands that run there now. -/
theorem C126_given_back (cap : Res) (es : List Ev) (s : S) (h : run (init cap) es = some s) (i : Nat) (r : Res)
    (hc : s.cleaned = false) (hl : s.loc i = .usable) (hb : (s.srv i).bad = false) (hg : (s.srv i).gone = false)
    (hfit : ∀ c, load s.runs i c + r c ≤ (s.srv i).cap c) : ∃ s', step s (.start i r) = some s' ∧ s'.runs = s.runs ++ [(i, r)] := by
  have v := inv_run (inv_init cap) h
  have hp : (s.srv i).perm = false := by
    cases hx : (s.srv i).perm with
    | false => rfl
    | true => have := v.permBad i hx; rw [hb] at this; cases this
  have he := fun c => v.eq i c hg hp
  have hf : fits (s.srv i) r = true := by
    simp only [fits, Bool.and_eq_true, Bool.not_eq_true', decide_eq_true_eq]
    exact ⟨⟨⟨hg, he .cores ▸ hfit .cores⟩, he .ram ▸ hfit .ram⟩, he .disk ▸ hfit .disk⟩
  exact ⟨_, if_pos ⟨by simp [hc], hl, by simp [hb], hf⟩, rfl⟩

/-- after the command of four cores ended, another one starts -/
example : ∃ s, run (init flavor) [.spawned 1 flavor, .update, .start 1 (need 4), .finish 0 true] = some s ∧
    s.cleaned = false ∧ s.loc 1 = .usable ∧ (s.srv 1).bad = false ∧ (s.srv 1).gone = false ∧
    (∀ c, load s.runs 1 c + need 4 c ≤ (s.srv 1).cap c) :=
  ⟨_, rfl, rfl, rfl, rfl, rfl, by intro c; cases c <;> decide +kernel⟩

/-- A command starts only on a server that is in use, that is not bad and was not
destroyed. -/
theorem C126_start (s s' : S) (i : Nat) (r : Res) (h : step s (.start i r) = some s') :
    s.cleaned = false ∧ s.loc i = .usable ∧ (s.srv i).bad = false ∧ (s.srv i).gone = false ∧ s'.runs = s.runs ++ [(i, r)] := by
  simp only [step] at h
  split at h
  · rename_i hg
    obtain rfl := Option.some.inj h
    exact ⟨by simpa using hg.1, hg.2.1, by simpa using hg.2.2.1, (fits_spec hg.2.2.2).1, rfl⟩
  · cases h

example : ∃ s, run (init flavor) [.spawned 1 flavor, .update, .start 1 (need 2), .destroy 1] = some s ∧
    (step s (.start 1 (need 1))).isNone ∧ (step s (.start 0 (need 1))).isSome :=
  ⟨_, rfl, by decide +kernel, by decide +kernel⟩

def Lost (i : Nat) (s : S) : Prop := (s.srv i).perm = true ∧ (s.srv i).bad = true ∧ (s.srv i).cap .cores ≠ 0

theorem lost_step (i : Nat) (s : S) (e : Ev) (s' : S) (h : Lost i s) (hs : step s e = some s') :
    Lost i s' ∧ ∀ r, e ≠ .start i r := by
  obtain ⟨h1, h2, h3⟩ := h
  cases e with
  | finish k ok =>
    simp only [step] at hs
    split at hs
    · rename_i j r hk
      obtain rfl := Option.some.inj hs
      refine ⟨?_, by simp⟩
      rcases ended_cases (s.srv j) j r ok with ⟨_, _, _, h4⟩ | ⟨_, _, h4⟩ | ⟨_, _, _, h4⟩ <;> rw [h4] <;>
        simp only [Lost, set] <;> by_cases hj : i = j <;> simp only [hj, if_true, if_false] <;> grind
    · cases hs
  | _ =>
    simp only [step] at hs
    (repeat' split at hs) <;> first | (exfalso; cases hs; done) | skip
    all_goals obtain rfl := Option.some.inj hs
    all_goals simp only [Lost, set]
    all_goals grind

/-- C126: when a command on a server fails, the user is told and no other
command ever starts on that server, whatever happens afterwards: not even when
the server can be reached. -/
theorem C126_failed (cap : Res) (es : List Ev) (s s1 s2 : S) (h : run (init cap) es = some s) (k i : Nat) (r : Res)
    (hk : s.runs[k]? = some (i, r)) (h0 : i ≠ 0) (hg : (s.srv i).gone = false)
    (h1 : step s (.finish k false) = some s1) (fs : List Ev) (h2 : run s1 fs = some s2) :
    s1.notes = s.notes ++ [.bad i] ∧ ∀ r', Ev.start i r' ∉ fs := by
  have v := inv_run (inv_init cap) h
  have hcap : (s.srv i).cap .cores ≠ 0 := fun hc => (v.fresh i h0 hc).2.1 _ (List.mem_of_getElem? hk) rfl
  simp only [step, hk] at h1
  obtain rfl := Option.some.inj h1
  have he : ended (s.srv i) i r false = ({ s.srv i with bad := true, perm := true }, [.bad i]) := by
    simp [ended, h0, hg]
  refine ⟨by simp only [he], ?_⟩
  intro r' hm
  refine (run_inv (P := Lost i) (Q := fun e => ∀ r, e ≠ .start i r) (lost_step i) ?_ h2).2 _ hm r' rfl
  simp only [he]
  exact ⟨by simp [set], by simp [set], by simpa [set] using hcap⟩

example : ∃ s, run (init flavor) [.spawned 1 flavor, .update, .start 1 (need 1), .start 1 (need 1), .finish 0 false, .check 1 true,
      .update, .finish 0 true] = some s ∧ s.notes = [.bad 1] ∧ (s.srv 1).gone = false ∧ s.runs = [] ∧ (step s (.start 1 (need 1))).isNone :=
  ⟨_, rfl, by decide +kernel, by decide +kernel, rfl, by decide +kernel⟩

/-- A command that fails on the manager's own machine, or that ended because its
server was destroyed, changes nothing about the server except its space. -/
theorem C126_failed_local (s : S) (k i : Nat) (r : Res) (hk : s.runs[k]? = some (i, r)) (ok : Bool)
    (h : ok = true ∨ i = 0 ∨ (s.srv i).gone = true) :
    ∃ s', step s (.finish k ok) = some s' ∧ s'.notes = s.notes ∧ s'.runs = s.runs.eraseIdx k ∧
      ∀ j, (s'.srv j).bad = (s.srv j).bad ∧ (s'.srv j).perm = (s.srv j).perm ∧ (s'.srv j).gone = (s.srv j).gone := by
  simp only [step, hk]
  refine ⟨_, rfl, ?_⟩
  rcases ended_cases (s.srv i) i r ok with ⟨h1, h2, h3, _⟩ | ⟨_, _, h4⟩ | ⟨_, _, _, h4⟩
  · exfalso; grind
  all_goals
    simp only [h4, List.append_nil, true_and, set]
    intro j
    by_cases hj : j = i <;> simp [hj]

example : ∃ s, run (init flavor) [.start 0 (need 2)] = some s ∧ s.runs[0]? = some (0, need 2) := ⟨_, rfl, rfl⟩

/-- C126: a server that could not be reached gets no command until it is found
to be reachable again; then it is as before. -/
theorem C126_unreachable (s : S) (i : Nat) (h0 : i ≠ 0) (hl : s.loc i = .usable) (hg : (s.srv i).gone = false)
    (hb : (s.srv i).bad = false) (hp : (s.srv i).perm = false) :
    ∃ s1 s2, step s (.check i false) = some s1 ∧ s1.notes = s.notes ++ [.bad i] ∧ (∀ r, step s1 (.start i r) = none) ∧
      step s1 (.check i false) = some s1 ∧
      step s1 (.check i true) = some s2 ∧ s2.notes = s1.notes ++ [.good i] ∧ s2.srv i = s.srv i ∧ s2.runs = s.runs := by
  have e1 : step s (.check i false) =
      some { set s i { s.srv i with bad := true } with notes := s.notes ++ [.bad i] } := by
    simp [step, h0, hl, hg, hb]
  refine ⟨_, { set (set s i { s.srv i with bad := true }) i { s.srv i with bad := false } with
      notes := s.notes ++ [.bad i] ++ [.good i] }, e1, rfl, ?_, ?_, ?_, rfl, ?_, rfl⟩
  · intro r
    simp [step, set]
  · simp [step, set, h0, hl, hg]
  · simp [step, set, h0, hl, hg, hp]
  · simp only [set, if_true]
    rw [← hb]

example : ∃ s, run (init flavor) [.spawned 1 flavor, .update, .start 1 (need 1)] = some s ∧ s.loc 1 = .usable ∧
    (s.srv 1).gone = false ∧ (s.srv 1).bad = false ∧ (s.srv 1).perm = false := ⟨_, rfl, rfl, rfl, rfl, rfl⟩

/-- what the user was last told about server `i`: `true` for bad -/
def told (i : Nat) (l : List Note) : Bool :=
  l.foldl (fun b n => match n with | .bad j => if j = i then true else b | .good j => if j = i then false else b) false

theorem told_bad (i j : Nat) (l : List Note) : told i (l ++ [.bad j]) = if j = i then true else told i l := by
  simp [told, List.foldl_append]

theorem told_good (i j : Nat) (l : List Note) : told i (l ++ [.good j]) = if j = i then false else told i l := by
  simp [told, List.foldl_append]

theorem told_step (s : S) (e : Ev) (s' : S) (h : Inv s ∧ ∀ i, (s.srv i).bad = told i s.notes) (hs : step s e = some s') :
    (Inv s' ∧ ∀ i, (s'.srv i).bad = told i s'.notes) ∧ True := by
  refine ⟨⟨inv_step h.1 hs, ?_⟩, trivial⟩
  obtain ⟨hi, h⟩ := h
  intro j
  have hj := h j
  cases e with
  | finish k ok =>
    simp only [step] at hs
    split at hs
    · rename_i i r hk
      obtain rfl := Option.some.inj hs
      rcases ended_cases (s.srv i) i r ok with ⟨_, _, _, h4⟩ | ⟨_, _, h4⟩ | ⟨_, _, _, h4⟩ <;> rw [h4] <;>
        simp only [set, told_bad, List.append_nil] <;> by_cases hx : j = i <;> simp only [hx, if_true, if_false] <;> grind
    · cases hs
  | spawned i cap =>
    simp only [step] at hs
    split at hs
    · rename_i hg
      have hf := hi.fresh i hg.1 hg.2.2.1
      split at hs <;> obtain rfl := Option.some.inj hs <;> simp only [set] <;> grind
    · cases hs
  | _ =>
    simp only [step] at hs
    (repeat' split at hs) <;> first | (exfalso; cases hs; done) | skip
    all_goals obtain rfl := Option.some.inj hs
    all_goals (try simp only [set, told_bad, told_good])
    all_goals grind

/-- C126: what the user was last told about a server is what the scheduler
thinks of it. -/
theorem C126_told (cap : Res) (es : List Ev) (s : S) (h : run (init cap) es = some s) (i : Nat) :
    (s.srv i).bad = told i s.notes :=
  (run_inv (P := fun s => Inv s ∧ ∀ i, (s.srv i).bad = told i s.notes) (Q := fun _ => True) told_step
    ⟨inv_init cap, fun _ => rfl⟩ h).1.2 i

example : ∃ s, run (init flavor) [.spawned 1 flavor, .spawned 2 flavor, .update, .check 1 false, .check 2 false, .check 1 true] = some s ∧
    (s.srv 1).bad = false ∧ (s.srv 2).bad = true ∧ s.notes = [.bad 1, .bad 2, .good 1] :=
  ⟨_, rfl, by decide +kernel, by decide +kernel, by decide +kernel⟩

def Clean (s : S) : Prop := s.cleaned = true ∧ ∀ i, i ≠ 0 → s.loc i = .nowhere

theorem clean_step (s : S) (e : Ev) (s' : S) (h : Clean s) (hs : step s e = some s') :
    Clean s' ∧ ∀ i r, e ≠ .start i r := by
  obtain ⟨h1, h2⟩ := h
  cases e with
  | finish k ok =>
    simp only [step] at hs
    split at hs
    · obtain rfl := Option.some.inj hs
      exact ⟨⟨h1, h2⟩, by simp⟩
    · cases hs
  | _ =>
    simp only [step] at hs
    (repeat' split at hs) <;> first | (exfalso; cases hs; done) | skip
    all_goals obtain rfl := Option.some.inj hs
    all_goals simp only [Clean, set]
    all_goals grind

def Gone (i : Nat) (s : S) : Prop := s.cleaned = true ∧ (s.srv i).gone = true

theorem gone_step (i : Nat) (s : S) (e : Ev) (s' : S) (h : Gone i s) (hs : step s e = some s') : Gone i s' ∧ True := by
  refine ⟨?_, trivial⟩
  obtain ⟨h1, h2⟩ := h
  cases e with
  | finish k ok =>
    simp only [step] at hs
    split at hs
    · rename_i j r hk
      obtain rfl := Option.some.inj hs
      rcases ended_cases (s.srv j) j r ok with ⟨_, _, _, h4⟩ | ⟨_, _, h4⟩ | ⟨_, _, _, h4⟩ <;> rw [h4] <;>
        simp only [Gone, set] <;> by_cases hj : i = j <;> simp only [hj, if_true, if_false] <;> grind
    · cases hs
  | _ =>
    simp only [step] at hs
    (repeat' split at hs) <;> first | (exfalso; cases hs; done) | skip
    all_goals obtain rfl := Option.some.inj hs
    all_goals simp only [Gone, set]
    all_goals grind

/-- C126: after the scheduler was cleaned up no command starts, and no server is
left: not those there were, and not those that come up later. -/
theorem C126_cleanup (s s1 s2 : S) (h1 : step s .cleanup = some s1) (fs : List Ev) (h2 : run s1 fs = some s2) :
    (∀ i r, Ev.start i r ∉ fs) ∧ (∀ i, i ≠ 0 → s.loc i ≠ .nowhere → (s2.srv i).gone = true) ∧
    (∀ i cap, Ev.spawned i cap ∈ fs → (s2.srv i).gone = true) := by
  simp only [step] at h1
  have e1 := Option.some.inj h1
  have hc : Clean s1 := by subst e1; exact ⟨rfl, by intro i hi; simp [hi]⟩
  refine ⟨fun i r hm => (run_inv (Q := fun e => ∀ i r, e ≠ .start i r) clean_step hc h2).2 _ hm i r rfl, ?_, ?_⟩
  · intro i h0 hl
    have : Gone i s1 := by subst e1; exact ⟨rfl, by simp [h0, hl]⟩
    exact (run_inv (Q := fun _ => True) (gone_step i) this h2).1.2
  · intro i cap hm
    obtain ⟨a, b, rfl⟩ := List.append_of_mem hm
    rw [run_append] at h2
    cases ea : run s1 a with
    | none => rw [ea] at h2; cases h2
    | some t =>
      rw [ea] at h2
      simp only [Option.bind_some, run] at h2
      have ht := (run_inv (Q := fun e => ∀ i r, e ≠ .start i r) clean_step hc ea).1
      cases eb : step t (.spawned i cap) with
      | none => rw [eb] at h2; cases h2
      | some u =>
        rw [eb] at h2
        have hu : Gone i u := by
          simp only [step] at eb
          split at eb
          · rw [if_pos ht.1] at eb
            obtain rfl := Option.some.inj eb
            exact ⟨ht.1, by simp [set]⟩
          · cases eb
        exact (run_inv (Q := fun _ => True) (gone_step i) hu h2).1.2

example : ∃ s, run (init flavor) [.spawned 1 flavor, .update, .spawned 2 flavor, .start 1 (need 1), .cleanup, .spawned 3 flavor,
      .finish 0 false] = some s ∧
    (s.srv 1).gone = true ∧ (s.srv 2).gone = true ∧ (s.srv 3).gone = true ∧ (s.srv 0).gone = false ∧ s.notes = [] :=
  ⟨_, rfl, by decide +kernel, by decide +kernel, by decide +kernel, by decide +kernel, by decide +kernel⟩

/-- A new server gets no command before the queue is gone through again; then it
can get commands. -/
theorem C126_new_server (s s1 : S) (i : Nat) (cap : Res) (hc : s.cleaned = false) (h : step s (.spawned i cap) = some s1) :
    (∀ r, step s1 (.start i r) = none) ∧
    ∃ s2, step s1 .update = some s2 ∧ ∀ r, (∀ c, r c ≤ cap c) → (step s2 (.start i r)).isSome := by
  simp only [step, hc] at h
  split at h
  · rename_i hg
    simp only [Bool.false_eq_true, if_false] at h
    obtain rfl := Option.some.inj h
    refine ⟨fun r => by simp [step, set], ?_⟩
    refine ⟨_, if_neg (by simp [set, hc]), ?_⟩
    intro r hr
    have := hr .cores
    have := hr .ram
    have := hr .disk
    simp [step, set, fits, zero, hc, *]
  · cases h

example : (step (init flavor) (.spawned 1 flavor)).isSome := by decide +kernel

/-! ## servers of an earlier manager -/

theorem kill_gone (s : R) (h : Nat) : (kill s h).gone h = true := by
  simp only [kill]; split <;> simp_all

theorem rrun_inv {P : R → Prop} {ttd : Nat} {ok : REv → Prop}
    (hstep : ∀ s e s', P s → ok e → rstep ttd s e = some s' → P s')
    {s s' : R} {es : List REv} (h : P s) (hes : ∀ e ∈ es, ok e) (hs : rrun ttd s es = some s') : P s' := by
  induction es generalizing s with
  | nil => simp only [rrun, Option.some.injEq] at hs; exact hs ▸ h
  | cons e es ih =>
    simp only [rrun] at hs
    cases e1 : rstep ttd s e with
    | none => rw [e1] at hs; simp at hs
    | some t =>
      rw [e1] at hs
      exact ih (hstep s e t h (hes e (by simp)) e1) (fun x hx => hes x (by simp [hx])) hs

/-- the host can be reached in this event, if it is tried -/
def reached : REv → Bool
  | .recover _ ssh => ssh
  | .tick _ ssh => ssh
  | _ => true

theorem lost_rstep (ttd : Nat) (s : R) (e : REv) (s' : R) (h : ∀ p ∈ s.lost, p.2 = 0) (ho : reached e = true)
    (hs : rstep ttd s e = some s') : ∀ p ∈ s'.lost, p.2 = 0 := by
  cases e <;> simp only [rstep] at hs <;> (repeat' split at hs) <;> first | (exfalso; cases hs; done) | skip
  all_goals obtain rfl := Option.some.inj hs
  all_goals simp only [reached] at ho
  all_goals (try simp only [kill])
  all_goals grind

/-- C126 (partial: as long as every host can be reached with the user name
given): no host is destroyed while a command of the earlier manager runs there.
-/
theorem C126_recovered_kept_partial (ttd : Nat) (known : Nat → Bool) (procs : Nat → Nat) (es : List REv) (s : R)
    (hr : ∀ e ∈ es, reached e = true) (h : rrun ttd (rinit known procs) es = some s) : ∀ p ∈ s.lost, p.2 = 0 :=
  rrun_inv (P := fun s => ∀ p ∈ s.lost, p.2 = 0) (ok := fun e => reached e = true) (lost_rstep ttd) (by simp [rinit]) hr h

/-- two commands on host 1 -/
def two (h : Nat) : Nat := if h = 1 then 2 else 0

example : ∃ s, rrun 10 (rinit (fun _ => true) two) [.recover 1 true, .recover 1 true, .tick 0 true, .ends 1, .tick 0 true, .ends 1,
    .tick 0 true] = some s ∧ s.lost = [(1, 0)] ∧ s.gone 1 = true := ⟨_, rfl, rfl, rfl⟩

/-- The code violates the property: if a host cannot be reached at one of the
checks, it is destroyed with the commands that run there. -/
theorem C126_violated_unreachable : ∃ s, rrun 10 (rinit (fun _ => true) two) [.recover 1 true, .tick 0 true, .tick 0 false] = some s ∧
    s.lost = [(1, 2)] ∧ s.gone 1 = true := ⟨_, rfl, rfl, rfl⟩

/-- The code violates the property: the same when the second command of the host
is recovered, though the host is already looked after. -/
theorem C126_violated_second : ∃ s, rrun 10 (rinit (fun _ => true) two) [.recover 1 true, .recover 1 false] = some s ∧
    s.lost = [(1, 2)] ∧ s.gone 1 = true := ⟨_, rfl, rfl, rfl⟩

theorem watch_rstep (ttd : Nat) (h : Nat) (s : R) (e : REv) (s' : R)
    (hw : s.recovered h = true → s.gone h = false → s.stopped = false → some h ∈ s.mon) (_ : True)
    (hs : rstep ttd s e = some s') : s'.recovered h = true → s'.gone h = false → s'.stopped = false → some h ∈ s'.mon := by
  have key : ∀ (m : Nat) (x : Nat), s.mon[m]? = some (some x) → x ≠ h → some h ∈ s.mon → some h ∈ s.mon.set m none := by
    intro m x hx hne hm
    obtain ⟨n, hn⟩ := List.mem_iff_getElem?.1 hm
    refine List.mem_iff_getElem?.2 ⟨n, ?_⟩
    rw [List.getElem?_set]
    split
    · rename_i e; subst e; rw [hx] at hn; simp at hn; exact absurd hn hne
    · exact hn
  cases e <;> simp only [rstep] at hs <;> (repeat' split at hs) <;> first | (exfalso; cases hs; done) | skip
  all_goals obtain rfl := Option.some.inj hs
  all_goals (try simp only [kill])
  all_goals grind

/-- C126: a host that was recovered is looked after until it is destroyed or the
manager stops, -/
theorem C126_recovered_watched (ttd : Nat) (known : Nat → Bool) (procs : Nat → Nat) (es : List REv) (s : R)
    (h : rrun ttd (rinit known procs) es = some s) (x : Nat) (hr : s.recovered x = true) (hg : s.gone x = false)
    (hs : s.stopped = false) : ∃ m : Nat, s.mon[m]? = some (some x) :=
  List.mem_iff_getElem?.1 (rrun_inv (P := fun s => s.recovered x = true → s.gone x = false → s.stopped = false → some x ∈ s.mon)
    (ok := fun _ => True) (watch_rstep ttd x) (by simp [rinit]) (fun _ _ => trivial) h hr hg hs)

/-- and when all the commands there have ended it is destroyed at the next
check. -/
theorem C126_recovered_idle (ttd : Nat) (s : R) (m x : Nat) (ssh : Bool) (hm : s.mon[m]? = some (some x)) (hp : s.procs x = 0) :
    ∃ s', rstep ttd s (.tick m ssh) = some s' ∧ s'.gone x = true ∧ s'.mon = s.mon.set m none := by
  simp only [rstep, hm]
  rw [if_neg (by simp [hp])]
  exact ⟨_, rfl, kill_gone s x, rfl⟩

example : ∃ s, rrun 10 (rinit (fun _ => true) two) [.recover 1 true, .ends 1, .ends 1] = some s ∧ s.mon[0]? = some (some 1) ∧
    s.procs 1 = 0 ∧ s.recovered 1 = true ∧ s.gone 1 = false ∧ s.stopped = false := ⟨_, rfl, rfl, rfl, rfl, rfl, rfl⟩

structure Once (s : R) : Prop where
  one : ∀ m n x : Nat, s.mon[m]? = some (some x) → s.mon[n]? = some (some x) → m = n
  rcv : ∀ m x : Nat, s.mon[m]? = some (some x) → s.recovered x = true

theorem once_rstep (ttd : Nat) (s : R) (e : REv) (s' : R) (h : Once s) (_ : True) (hs : rstep ttd s e = some s') : Once s' := by
  obtain ⟨h1, h2⟩ := h
  have hset : ∀ m : Nat, (∀ a b x : Nat, (s.mon.set m none)[a]? = some (some x) → (s.mon.set m none)[b]? = some (some x) → a = b) ∧
      (∀ a x : Nat, (s.mon.set m none)[a]? = some (some x) → s.recovered x = true) := by
    intro m
    have : ∀ a x : Nat, (s.mon.set m none)[a]? = some (some x) → s.mon[a]? = some (some x) := by
      intro a x ha; rw [List.getElem?_set] at ha; grind
    exact ⟨fun a b x ha hb => h1 a b x (this a x ha) (this b x hb), fun a x ha => h2 a x (this a x ha)⟩
  cases e <;> simp only [rstep] at hs <;> (repeat' split at hs) <;> first | (exfalso; cases hs; done) | skip
  all_goals obtain rfl := Option.some.inj hs
  all_goals (try simp only [kill])
  all_goals (try split)
  all_goals first
    | exact ⟨h1, h2⟩
    | exact ⟨(hset _).1, (hset _).2⟩
    | (constructor <;> simp only [List.getElem?_append] <;> grind)

/-- C126: however often a host is recovered (once for each of its commands), it
is looked after once. -/
theorem C126_recovered_once (ttd : Nat) (known : Nat → Bool) (procs : Nat → Nat) (es : List REv) (s : R)
    (h : rrun ttd (rinit known procs) es = some s) (m n x : Nat) (hm : s.mon[m]? = some (some x)) (hn : s.mon[n]? = some (some x)) :
    m = n :=
  (rrun_inv (P := Once) (ok := fun _ => True) (once_rstep ttd) ⟨by simp [rinit], by simp [rinit]⟩ (fun _ _ => trivial) h).one m n x hm hn

example : ∃ s, rrun 10 (rinit (fun _ => true) two) [.recover 1 true, .recover 2 true, .recover 1 true] = some s ∧
    s.mon = [some 1, some 2] := ⟨_, rfl, rfl⟩

/-- C126: with servers that are kept for ever, or hosts that are not ours, nothing
is looked after or destroyed. -/
theorem C126_recovered_forever (ttd : Nat) (known : Nat → Bool) (procs : Nat → Nat) (es : List REv) (s : R)
    (hn : ttd = 0 ∨ ∀ h, known h = false) (h : rrun ttd (rinit known procs) es = some s) :
    s.mon = [] ∧ s.lost = [] := by
  have := rrun_inv (P := fun s => s.mon = [] ∧ s.lost = [] ∧ s.known = known) (ok := fun _ => True)
    (by
      intro s e s' hp _ hs
      obtain ⟨h1, h2, h3⟩ := hp
      have hk : ∀ h, ttd = 0 ∨ s.known h = false := fun h => hn.imp id (fun f => h3 ▸ f h)
      cases e <;> simp only [rstep] at hs <;> (repeat' split at hs) <;> first | (exfalso; cases hs; done) | skip
      all_goals obtain rfl := Option.some.inj hs
      all_goals (try simp only [kill])
      all_goals grind)
    (by simp [rinit]) (fun _ _ => trivial) h
  exact ⟨this.1, this.2.1⟩

example : ∃ s, rrun 0 (rinit (fun _ => true) two) [.recover 1 false, .ends 1] = some s ∧ s.procs 1 = 1 := ⟨_, rfl, rfl⟩

theorem words_nospace {w rest : List Char} (h : ' ' ∉ w) : words (w ++ ' ' :: rest) = w :: words rest := by
  induction w with
  | nil => rfl
  | cons c w ih =>
    have hc : c ≠ ' ' := fun e => h (by simp [e])
    simp only [List.cons_append, words, if_neg hc, ih (fun m => h (by simp [m]))]

theorem words_head {w : List Char} (h : ' ' ∉ w) : words w = [w] := by
  induction w with
  | nil => rfl
  | cons c w ih =>
    have hc : c ≠ ' ' := fun e => h (by simp [e])
    simp only [words, if_neg hc, ih (fun m => h (by simp [m]))]

/-- What is looked for on a host is the same for all commands of an executable
without spaces in its path, whatever their other arguments. -/
theorem C126_pattern (exe sub args : List Char) (h1 : ' ' ∉ exe) (h2 : ' ' ∉ sub) :
    pattern (exe ++ ' ' :: (sub ++ ' ' :: args)) = exe ++ ' ' :: sub ∧ pattern (exe ++ ' ' :: sub) = exe ++ ' ' :: sub := by
  simp only [pattern, words_nospace h1, words_nospace h2, words_head h2]
  simp

example : pattern "/usr/bin/wr runner -s 'x y' --deployment production".toList = "/usr/bin/wr runner".toList := by decide +kernel

end Verif.Sched.CloudRun
