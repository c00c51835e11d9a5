/- C133: groups of hosts, users, and what goes wrong. -/
import Verif.Sched.LsfMemory

namespace Verif.Sched.LsfParse
open Verif.Sched.Lsf (Crit Queue contains usable highest tracked)
open Verif.Utils.Config (digits itoa digits_itoa itoa_ne)
open Verif.Sched.LsfText

/-! ## Groups of hosts -/

private def hostsOf (gs : List (Str × List Str)) (g : Str) : List Str := (gs.lookup g).getD []

private theorem lookup_upd (f : List Str → List Str) (g g' : Str) : ∀ gs : List (Str × List Str),
    (gs.map fun e => if e.1 = g then (g, f e.2) else e).lookup g' = if g' = g then (gs.lookup g').map f else gs.lookup g'
  | [] => by simp
  | (n, l) :: gs => by
    have ih := lookup_upd f g g' gs
    rw [List.map_cons]
    by_cases hn : n = g
    · subst hn
      simp only [if_true, List.lookup_cons]
      by_cases hg : g' = n
      · subst hg
        simp
      · have : (g' == n) = false := by simpa using hg
        rw [this, ih, if_neg hg]
    · simp only [hn, if_false, List.lookup_cons]
      by_cases hg : g' = n
      · subst hg
        simp [hn]
      · have : (g' == n) = false := by simpa using hg
        rw [this, ih]

private theorem known_addGroup (gs : List (Str × List Str)) (g g' : Str) :
    ((addGroup gs g).lookup g').isSome = true ↔ (gs.lookup g').isSome = true ∨ g' = g := by
  unfold addGroup
  cases h : gs.lookup g with
  | none =>
    simp only [List.lookup_cons]
    by_cases hg : g' = g
    · subst hg; simp
    · have : (g' == g) = false := by simpa using hg
      rw [this]; simp [hg]
  | some l =>
    constructor
    · exact Or.inl
    · rintro (h' | rfl)
      · exact h'
      · rw [h]; rfl

private theorem hosts_addGroup (gs : List (Str × List Str)) (g g' : Str) : hostsOf (addGroup gs g) g' = hostsOf gs g' := by
  unfold addGroup hostsOf
  cases h : gs.lookup g with
  | none =>
    simp only [List.lookup_cons]
    by_cases hg : g' = g
    · subst hg; simp [h]
    · have : (g' == g) = false := by simpa using hg
      rw [this]
  | some l => rfl

private theorem known_addHost (gs : List (Str × List Str)) (g h g' : Str) :
    ((addHost gs g h).lookup g').isSome = true ↔ (gs.lookup g').isSome = true ∨ g' = g := by
  unfold addHost
  cases hl : gs.lookup g with
  | none =>
    simp only [List.lookup_cons]
    by_cases hg : g' = g
    · subst hg; simp
    · have : (g' == g) = false := by simpa using hg
      rw [this]; simp [hg]
  | some l =>
    simp only
    rw [lookup_upd (fun x => if h ∈ x then x else x ++ [h])]
    by_cases hg : g' = g
    · subst hg; simp [hl]
    · simp [hg]

private theorem hosts_addHost (gs : List (Str × List Str)) (g h g' x : Str) :
    x ∈ hostsOf (addHost gs g h) g' ↔ x ∈ hostsOf gs g' ∨ (g' = g ∧ x = h) := by
  unfold addHost hostsOf
  cases hl : gs.lookup g with
  | none =>
    simp only [List.lookup_cons]
    by_cases hg : g' = g
    · subst hg; simp [hl]
    · have : (g' == g) = false := by simpa using hg
      rw [this]; simp [hg]
  | some l =>
    simp only
    rw [lookup_upd (fun x => if h ∈ x then x else x ++ [h])]
    by_cases hg : g' = g
    · subst hg
      rw [if_pos rfl, hl]
      simp only [Option.map_some, Option.getD_some, true_and]
      split
      · rename_i hm
        constructor
        · exact Or.inl
        · rintro (h' | rfl)
          · exact h'
          · exact hm
      · simp
    · simp [hg]

private theorem fold_addHost (g : Str) : ∀ (hs : List Str) (gs : List (Str × List Str)),
    (∀ g' x, x ∈ hostsOf (hs.foldl (fun gs h => addHost gs g h) gs) g' ↔ x ∈ hostsOf gs g' ∨ (g' = g ∧ x ∈ hs)) ∧
      ∀ g', ((hs.foldl (fun gs h => addHost gs g h) gs).lookup g').isSome = true → (gs.lookup g').isSome = true ∨ g' = g
  | [], gs => ⟨fun g' x => by simp, fun g' h => Or.inl h⟩
  | h :: hs, gs => by
    obtain ⟨i1, i2⟩ := fold_addHost g hs (addHost gs g h)
    refine ⟨fun g' x => ?_, fun g' hk => ?_⟩
    · rw [List.foldl_cons, i1, hosts_addHost, List.mem_cons]
      constructor
      · rintro ((a | ⟨b, c⟩) | ⟨b, c⟩)
        · exact Or.inl a
        · exact Or.inr ⟨b, Or.inl c⟩
        · exact Or.inr ⟨b, Or.inr c⟩
      · rintro (a | ⟨b, c | c⟩)
        · exact Or.inl (Or.inl a)
        · exact Or.inl (Or.inr ⟨b, c⟩)
        · exact Or.inr ⟨b, c⟩
    · rw [List.foldl_cons] at hk
      rcases i2 g' hk with h1 | h1
      · exact (known_addHost _ _ _ _).mp h1
      · exact Or.inr h1

private theorem fold_keep (g g' : Str) : ∀ (hs : List Str) (gs : List (Str × List Str)), (gs.lookup g').isSome = true →
    ((hs.foldl (fun gs h => addHost gs g h) gs).lookup g').isSome = true
  | [], _, h => h
  | h :: hs, gs, hk => fold_keep g g' hs _ ((known_addHost _ _ _ _).mpr (Or.inl hk))

/-- what a field adds -/
private theorem field_hosts (g : Str) (gs : List (Str × List Str)) (f g' x : Str) :
    x ∈ hostsOf (groupField g gs f) g' ↔ x ∈ hostsOf gs g' ∨
      (g' = g ∧ ((f.getLast? ≠ some '/' ∧ x = f) ∨ (f.getLast? = some '/' ∧ x ∈ hostsOf gs f.dropLast))) := by
  unfold groupField
  split
  · rename_i hf
    rw [(fold_addHost g _ _).1, hosts_addGroup]
    have : ((addGroup gs g).lookup f.dropLast |>.getD []) = hostsOf gs f.dropLast := hosts_addGroup gs g f.dropLast
    rw [this]
    simp [hf]
  · rename_i hf
    rw [hosts_addHost]
    simp [hf]

private theorem field_known (g : Str) (gs : List (Str × List Str)) (f g' : Str) :
    ((groupField g gs f).lookup g').isSome = true ↔ (gs.lookup g').isSome = true ∨ g' = g := by
  unfold groupField
  split
  · constructor
    · intro h
      rcases (fold_addHost g _ _).2 g' h with h | h
      · exact (known_addGroup _ _ _).mp h
      · exact Or.inr h
    · intro h
      exact fold_keep g g' _ _ ((known_addGroup _ _ _).mpr h)
  · exact known_addHost _ _ _ _

private theorem fields_hosts (g : Str) : ∀ (fs : List Str) (gs : List (Str × List Str)) (g' x : Str),
    x ∈ hostsOf (fs.foldl (groupField g) gs) g' ↔ x ∈ hostsOf gs g' ∨
      (g' = g ∧ ∃ f ∈ fs, (f.getLast? ≠ some '/' ∧ x = f) ∨ (f.getLast? = some '/' ∧ f.dropLast ≠ g ∧ x ∈ hostsOf gs f.dropLast))
  | [], gs, g', x => by simp
  | f :: fs, gs, g', x => by
    rw [List.foldl_cons, fields_hosts g fs (groupField g gs f) g' x, field_hosts]
    have other : ∀ n, n ≠ g → (x ∈ hostsOf (groupField g gs f) n ↔ x ∈ hostsOf gs n) := by
      intro n hn
      rw [field_hosts]
      simp [hn]
    constructor
    · rintro ((h | ⟨h1, h2 | h2⟩) | ⟨h1, e, he, h2 | h2⟩)
      · exact Or.inl h
      · exact Or.inr ⟨h1, f, by simp, Or.inl h2⟩
      · by_cases hg : f.dropLast = g
        · rw [hg] at h2
          exact Or.inl (h1 ▸ h2.2)
        · exact Or.inr ⟨h1, f, by simp, Or.inr ⟨h2.1, hg, h2.2⟩⟩
      · exact Or.inr ⟨h1, e, by simp [he], Or.inl h2⟩
      · exact Or.inr ⟨h1, e, by simp [he], Or.inr ⟨h2.1, h2.2.1, (other _ h2.2.1).mp h2.2.2⟩⟩
    · rintro (h | ⟨h1, e, he, h2 | h2⟩)
      · exact Or.inl (Or.inl h)
      · rcases List.mem_cons.mp he with rfl | he
        · exact Or.inl (Or.inr ⟨h1, Or.inl h2⟩)
        · exact Or.inr ⟨h1, e, he, Or.inl h2⟩
      · rcases List.mem_cons.mp he with rfl | he
        · exact Or.inl (Or.inr ⟨h1, Or.inr ⟨h2.1, h2.2.2⟩⟩)
        · exact Or.inr ⟨h1, e, he, Or.inr ⟨h2.1, h2.2.1, (other _ h2.2.1).mpr h2.2.2⟩⟩

private theorem fields_known (g : Str) : ∀ (fs : List Str) (gs : List (Str × List Str)) (g' : Str),
    ((fs.foldl (groupField g) gs).lookup g').isSome = true ↔ (gs.lookup g').isSome = true ∨ (g' = g ∧ fs ≠ [])
  | [], gs, g' => by simp
  | f :: fs, gs, g' => by
    rw [List.foldl_cons, fields_known g fs, field_known]
    constructor
    · rintro ((h | h) | h)
      · exact Or.inl h
      · exact Or.inr ⟨h, by simp⟩
      · exact Or.inr ⟨h.1, by simp⟩
    · rintro (h | h)
      · exact Or.inl (Or.inl h)
      · exact Or.inl (Or.inr h.1)

private theorem line_eq (x : Group) (h : x.Wf) (gs : List (Str × List Str)) : groupLine gs x.text = x.items.foldl (groupField x.name) gs := by
  obtain ⟨h1, h2, h3⟩ := h
  unfold groupLine Group.text
  rw [fields_line _ h1 h3]
  cases hi : x.items with
  | nil => exact absurd hi h2
  | cons f fs => rfl

private theorem slash {f : Str} (h : f.getLast? = some '/') : f = f.dropLast ++ ['/'] := by
  have hne : f ≠ [] := by intro h'; subst h'; simp at h
  have := List.dropLast_concat_getLast hne
  rw [List.getLast?_eq_some_getLast hne, Option.some.injEq] at h
  rw [h] at this
  exact this.symm

private theorem member_mono {gs gs' : List Group} (h : ∀ x ∈ gs, x ∈ gs') {g x : Str} (hm : Member gs g x) : Member gs' g x := by
  induction hm with
  | host y h' hy hi hl => exact Member.host y h' (h y hy) hi hl
  | nested y n h' hy hi _ ih => exact Member.nested y n h' (h y hy) hi ih

/-- the groups so far -/
private theorem groups_sound (gs : List Group) (hw : ∀ x ∈ gs, x.Wf) : ∀ (todo done : List Group) (acc : List (Str × List Str)),
    gs = done ++ todo → (∀ g x, x ∈ hostsOf acc g → Member gs g x) →
    ∀ g x, x ∈ hostsOf ((todo.map Group.text).foldl groupLine acc) g → Member gs g x
  | [], _, acc, _, h => h
  | y :: todo, done, acc, he, h => by
    rw [List.map_cons, List.foldl_cons]
    have hy : y ∈ gs := by rw [he]; simp
    refine groups_sound gs hw todo (done ++ [y]) _ (by rw [he]; simp) ?_
    intro g x hx
    rw [line_eq y (hw y hy), fields_hosts] at hx
    rcases hx with hx | ⟨rfl, f, hf, hx | hx⟩
    · exact h g x hx
    · rw [hx.2]
      exact Member.host y f hy hf hx.1
    · exact Member.nested y f.dropLast x hy (by rw [← slash hx.1]; exact hf) (h _ _ hx.2.2)

/-- C133: a host that wr counts as one of a group of hosts is one -/
theorem C133_groups_sound (gs : List Group) (hw : ∀ x ∈ gs, x.Wf) (g : Str) (l : List Str)
    (h : (parseBmgroups (gs.map Group.text)).lookup g = some l) : ∀ x ∈ l, Member gs g x := by
  intro x hx
  refine groups_sound gs hw gs [] [] rfl (fun g x hx => by simp [hostsOf] at hx) g x ?_
  show x ∈ ((parseBmgroups (gs.map Group.text)).lookup g).getD []
  rw [h]
  exact hx

private theorem member_snoc {done : List Group} {y : Group} (ho : ∀ pre x post, done ++ [y] = pre ++ x :: post →
    ∀ n, n ++ ['/'] ∈ x.items → ∀ z ∈ x :: post, z.name ≠ n) {g x : Str} (hm : Member (done ++ [y]) g x) :
    Member done g x ∨ (g = y.name ∧ ∃ f ∈ y.items, (f.getLast? ≠ some '/' ∧ x = f) ∨
      (f.getLast? = some '/' ∧ f.dropLast ≠ y.name ∧ Member done f.dropLast x)) := by
  have noty : ∀ z ∈ done ++ [y], ∀ n, n ++ ['/'] ∈ z.items → y.name ≠ n := by
    intro z hz n hn
    obtain ⟨p, s, e⟩ := List.append_of_mem hz
    apply ho p z s e n hn y
    cases hs : s with
    | nil =>
      rw [hs] at e
      have := List.append_inj_right' e rfl
      simp at this
      simp [this]
    | cons a b =>
      have hl := congrArg List.getLast? e
      rw [hs] at hl
      simp only [List.getLast?_append, List.getLast?_cons_cons] at hl
      have hy : y ∈ a :: b := by
        have : (a :: b).getLast? = some y := by
          cases hgl : (a :: b).getLast? with
          | none => simp at hgl
          | some w => rw [hgl] at hl; simp at hl; rw [hl]
        exact List.mem_of_getLast? this
      exact List.mem_cons_of_mem _ hy
  induction hm with
  | host z h' hz hi hl =>
    rcases List.mem_append.mp hz with hd | hd
    · exact Or.inl (Member.host z h' hd hi hl)
    · rw [List.mem_singleton.mp hd] at hi ⊢
      exact Or.inr ⟨rfl, h', hi, Or.inl ⟨hl, rfl⟩⟩
  | nested z n h' hz hi _ ih =>
    have hne := noty z hz n hi
    rcases ih with ih | ⟨e, _⟩
    · rcases List.mem_append.mp hz with hd | hd
      · exact Or.inl (Member.nested z n h' hd hi ih)
      · rw [List.mem_singleton.mp hd] at hi ⊢
        exact Or.inr ⟨rfl, n ++ ['/'], hi, Or.inr ⟨by simp, by simpa using fun e => hne e.symm, by simpa using ih⟩⟩
    · exact absurd e.symm hne

private theorem groups_complete (gs : List Group) (hw : ∀ x ∈ gs, x.Wf) (ho : Ordered gs) : ∀ (todo done : List Group) (acc : List (Str × List Str)),
    gs = done ++ todo → (∀ g x, Member done g x → x ∈ hostsOf acc g) → (∀ y ∈ done, (acc.lookup y.name).isSome = true) →
    (∀ g x, Member gs g x → x ∈ hostsOf ((todo.map Group.text).foldl groupLine acc) g) ∧
      ∀ y ∈ gs, (((todo.map Group.text).foldl groupLine acc).lookup y.name).isSome = true
  | [], done, acc, he, h, hk => by
    rw [List.append_nil] at he
    subst he
    exact ⟨h, hk⟩
  | y :: todo, done, acc, he, h, hk => by
    rw [List.map_cons, List.foldl_cons]
    have hy : y ∈ gs := by rw [he]; simp
    refine groups_complete gs hw ho todo (done ++ [y]) _ (by rw [he]; simp) ?_ ?_
    · intro g x hm
      have hm' := member_snoc (by
        intro p z s e n hn w hwm
        have e' : gs = p ++ z :: (s ++ todo) := by
          rw [he]
          have : done ++ y :: todo = (done ++ [y]) ++ todo := by simp
          rw [this, e]
          simp
        exact ho p z (s ++ todo) e' n hn w (by
          rcases List.mem_cons.mp hwm with rfl | hwm
          · simp
          · simp [hwm])) hm
      rw [line_eq y (hw y hy), fields_hosts]
      rcases hm' with hm' | ⟨e, f, hf, h2 | h2⟩
      · exact Or.inl (h g x hm')
      · exact Or.inr ⟨e, f, hf, Or.inl h2⟩
      · exact Or.inr ⟨e, f, hf, Or.inr ⟨h2.1, h2.2.1, h _ _ h2.2.2⟩⟩
    · intro z hz
      rw [line_eq y (hw y hy), fields_known]
      rcases List.mem_append.mp hz with hz | hz
      · exact Or.inl (hk z hz)
      · rw [List.mem_singleton.mp hz]
        exact Or.inr ⟨rfl, (hw y hy).2.1⟩

/-- C133: if `bmgroup -w` lists groups before those that contain them, wr knows exactly the hosts of each group, those of the groups in it
included. Partial: LSF lists them in the order of its configuration (`C133_violated_nested`). -/
theorem C133_groups_partial (gs : List Group) (hw : ∀ x ∈ gs, x.Wf) (ho : Ordered gs) (y : Group) (hy : y ∈ gs) :
    ∃ l, (parseBmgroups (gs.map Group.text)).lookup y.name = some l ∧ ∀ x, x ∈ l ↔ Member gs y.name x := by
  obtain ⟨h1, h2⟩ := groups_complete gs hw ho gs [] [] rfl (fun g x hm => by cases hm <;> simp_all) (by simp)
  have hk := h2 y hy
  obtain ⟨l, hl⟩ := Option.isSome_iff_exists.mp hk
  refine ⟨l, hl, fun x => ⟨C133_groups_sound gs hw y.name l hl x, fun hm => ?_⟩⟩
  have := h1 y.name x hm
  unfold hostsOf at this
  rw [hl] at this
  exact this

/-- C133: so the hosts of a queue are counted right: the number is that of the hosts that its HOSTS line names, or that are in a group it names -/
theorem C133_hosts_partial (gs : List Group) (hw : ∀ x ∈ gs, x.Wf) (ho : Ordered gs) (hs : List Str)
    (hg : ∀ n, n ++ ['/'] ∈ hs → ∃ y ∈ gs, y.name = n) (l : List Str) (hn : l.Nodup)
    (hl : ∀ x, x ∈ l ↔ (x ∈ hs ∧ x.getLast? ≠ some '/') ∨ ∃ n, n ++ ['/'] ∈ hs ∧ Member gs n x) :
    numHosts (parseBmgroups (gs.map Group.text)) hs = l.length := by
  unfold numHosts
  apply C133_count _ _ hn
  intro x
  rw [hl, List.mem_flatMap]
  constructor
  · rintro (⟨h1, h2⟩ | ⟨n, h1, h2⟩)
    · exact ⟨x, h1, by unfold hostField; rw [if_neg h2]; simp⟩
    · refine ⟨n ++ ['/'], h1, ?_⟩
      obtain ⟨y, hy, rfl⟩ := hg n h1
      obtain ⟨l', e, hl'⟩ := C133_groups_partial gs hw ho y hy
      unfold hostField
      rw [if_pos (by simp), List.dropLast_concat, e]
      exact (hl' x).mpr h2
  · rintro ⟨f, hf, hx⟩
    unfold hostField at hx
    split at hx
    · rename_i hs'
      rw [slash hs'] at hf
      obtain ⟨y, hy, hyn⟩ := hg _ hf
      obtain ⟨l', e, hl'⟩ := C133_groups_partial gs hw ho y hy
      rw [hyn] at e hl'
      rw [e] at hx
      exact Or.inr ⟨_, hf, (hl' x).mp hx⟩
    · rename_i hs'
      rw [List.mem_singleton.mp hx]
      exact Or.inl ⟨hf, hs'⟩

/-! ## A case -/

private instance (a b : Str) : Decidable (a <:+: b) := decidable_of_iff _ (Verif.Sched.Lsf.contains_iff a b)
private instance (w : Str) : Decidable (Word w) := by unfold Word; infer_instance
private instance (w : Str) : Decidable (Other w) := by unfold Other; infer_instance
private instance (w : Str) : Decidable (Quiet w) := by unfold Quiet; infer_instance
private instance (m : Lim) : Decidable m.Wf := by unfold Lim.Wf; infer_instance
private instance (m : Mem) : Decidable m.Wf := by unfold Mem.Wf; infer_instance
private instance (m : Run) : Decidable m.Wf := by unfold Run.Wf; infer_instance
private instance (m : Group) : Decidable m.Wf := by unfold Group.Wf; infer_instance

/-- a queue with everything -/
def full (name : String) (users : List String) (hosts : Option (List Str)) : Desc where
  name := name.toList
  nameRest := []
  q0 := ["  -- for work".toList, []]
  gh := fun i => if i = 2 then 9 else 0
  headRest := " JL/P".toList
  indent := 1
  gr := fun i => i
  prio := 30
  nice := ['2', '0']
  status := "Open:Active".toList
  max := none
  maxUser := some 1000
  more := [['-']]
  q1 := [[]]
  defaults := some [" MEMLIMIT".toList, "   100 M".toList]
  maximum := true
  q2 := []
  run := some ⟨" RUNLIMIT".toList, 0, 720, ['0'], " of h1".toList⟩
  q3 := [[]]
  mem := some ⟨fun _ => 0, ["CORELIMIT".toList], [], [⟨4, 0, [], 'M'⟩], ⟨4, 10, ['5'], 'G'⟩, []⟩
  q4 := [[]]
  schedRest := []
  q5 := ["           r15s   r1m".toList]
  gu := fun _ => 0
  users := users.map String.toList
  ut := 1
  q6 := []
  ghs := fun i => if i = 0 then 1 else 0
  hosts := hosts
  ht := 1
  q7 := []
  gc := 0
  chunk := some 5
  q8 := [[]]

example : (full "normal" ["ann", "bob"] (some ["big/".toList, "h9".toList])).text.map String.ofList =
    ["QUEUE: normal", "  -- for work", "", "PRIO NICE STATUS          MAX JL/U JL/P", " 30 20  Open:Active   -    1000     -", "",
     "DEFAULT LIMITS:", " MEMLIMIT", "   100 M", "MAXIMUM LIMITS:", " RUNLIMIT", " 720.0 min of h1", "", " CORELIMIT MEMLIMIT",
     "     0 M     10.5 G", "", "SCHEDULING PARAMETERS", "           r15s   r1m", "USERS: ann bob ", "HOSTS:  big/ h9 ",
     "CHUNK_JOB_SIZE: 5", ""] := by decide +kernel

private theorem full_wf (name : String) (users : List String) (hosts : Option (List Str)) (h : Word name.toList)
    (hu : users ≠ []) (hu1 : ∀ w ∈ users.map String.toList, Word w)
    (hu2 : ¬ "MEMLIMIT".toList <:+: (full name users hosts).usersLine ∧ ¬ "RUNLIMIT".toList <:+: (full name users hosts).usersLine)
    (hh : ∀ hs, hosts = some hs → hs ≠ [] ∧ hs ≠ ["all".toList] ∧ ∀ w ∈ hs, Word w)
    (hh2 : ¬ "MEMLIMIT".toList <:+: (full name users hosts).hostsLine ∧ ¬ "RUNLIMIT".toList <:+: (full name users hosts).hostsLine) :
    (full name users hosts).Wf where
  name := h
  nameRest := Or.inl rfl
  nice := (by decide : Word ['2', '0'])
  status := (by decide : Word "Open:Active".toList)
  more := (by decide : ∀ w ∈ ([['-']] : List Str), Word w)
  quiet := (by decide : ∀ l ∈ (["  -- for work".toList, []] ++ [[]] ++ [] ++ [[]] ++ [[]] ++ ["           r15s   r1m".toList] ++ [] ++ [] ++ [[]] : List Str), Quiet l)
  defaults := by
    intro ls hl
    have : ls = [" MEMLIMIT".toList, "   100 M".toList] := (Option.some.inj hl).symm
    subst this
    decide
  maximum := fun h => absurd (show true = false from h) (by decide)
  run := by
    intro r hr
    have : r = ⟨" RUNLIMIT".toList, 0, 720, ['0'], " of h1".toList⟩ := (Option.some.inj hr).symm
    subst this
    decide +kernel
  mem := by
    intro r hr
    have : r = ⟨fun _ => 0, ["CORELIMIT".toList], [], [⟨4, 0, [], 'M'⟩], ⟨4, 10, ['5'], 'G'⟩, []⟩ := (Option.some.inj hr).symm
    subst this
    decide +kernel
  sched := (by decide : ¬ "MEMLIMIT".toList <:+: "SCHEDULING PARAMETERS".toList ++ ([] : Str) ∧ ¬ "RUNLIMIT".toList <:+: "SCHEDULING PARAMETERS".toList ++ ([] : Str))
  users := ⟨by intro h0; exact hu (List.map_eq_nil_iff.mp h0), hu1, hu2⟩
  hosts := ⟨hh, hh2⟩

private theorem normal_wf : (full "normal" ["ann", "bob"] (some ["big/".toList, "h9".toList])).Wf :=
  full_wf _ _ _ (by decide) (by decide) (by decide) (by decide) (by intro hs h; cases h; decide) (by decide)

private theorem all_wf : (full "long" ["all"] none).Wf :=
  full_wf _ _ _ (by decide) (by decide) (by decide) (by decide) (by intro hs h; cases h) (by decide)

/-- the case meets the hypotheses of `C133_queues_partial`: carl can use only one of two queues -/
example : ∃ p, parse "carl".toList [] (["hello".toList] ++ [full "normal" ["ann", "bob"] (some ["big/".toList, "h9".toList]),
      full "long" ["all"] none].flatMap Desc.text) = .ok p ∧ p.queues.map (·.1) = ["long".toList] ∧ p.highest .maxUser = 1000 := by
  obtain ⟨p, h1, h2, h3⟩ := C133_queues_partial "carl".toList [] ["hello".toList]
    [full "normal" ["ann", "bob"] (some ["big/".toList, "h9".toList]), full "long" ["all"] none] (by decide)
    (by intro d hd; simp only [List.mem_cons, List.not_mem_nil, or_false] at hd; rcases hd with rfl | rfl; exact normal_wf; exact all_wf) (by decide)
  exact ⟨p, h1, by rw [h2]; decide, by rw [h3 _ rfl]; decide⟩

/-- two groups, one in the other -/
def twoGroups : List Group := [⟨"big".toList, fun _ => 2, ["h1".toList, "h2".toList]⟩, ⟨"huge".toList, fun _ => 0, ["h2".toList, "big/".toList, "h3".toList]⟩]

example : (twoGroups.map Group.text).map String.ofList = ["big   h1   h2", "huge h2 big/ h3"] := by decide

/-- the groups meet the hypotheses of `C133_groups_partial` and `C133_hosts_partial` -/
example : (∀ x ∈ twoGroups, x.Wf) ∧ Ordered twoGroups ∧ (parseBmgroups (twoGroups.map Group.text)).lookup "huge".toList =
    some ["h2".toList, "h1".toList, "h3".toList] := by
  refine ⟨by decide, ?_, by decide⟩
  intro pre x post e n hn y hy
  rcases pre with _ | ⟨p, pre⟩
  · simp only [twoGroups, List.nil_append, List.cons.injEq] at e
    obtain ⟨rfl, _⟩ := e
    simp only [List.mem_cons, List.not_mem_nil, or_false] at hn
    rcases hn with hn | hn <;> (have := congrArg List.getLast? hn; simp at this)
  · rcases pre with _ | ⟨p', pre⟩
    · simp only [twoGroups, List.cons_append, List.nil_append, List.cons.injEq] at e
      obtain ⟨rfl, rfl, rfl⟩ := e
      simp only [List.mem_cons, List.not_mem_nil, or_false] at hn hy
      subst hy
      rcases hn with hn | hn | hn
      · have := congrArg List.getLast? hn; simp at this
      · have := congrArg List.dropLast hn
        simp at this
        subst this
        decide
      · have := congrArg List.getLast? hn; simp at this
    · have := congrArg List.length e
      simp [twoGroups] at this

/-! ## What goes wrong -/

/-- C133: a group in HOSTS: that `bmgroup -w` did not list counts as one host -/
theorem C133_hosts_unknown (gs : List (Str × List Str)) (n : Str) (h : gs.lookup n = none) : numHosts gs [n ++ ['/']] = 1 := by
  have h1 : (n ++ ['/']).getLast? = some '/' := by simp
  have h2 : (n ++ ['/']).dropLast = n := by simp
  have e : hostField gs (n ++ ['/']) = [n] := by
    unfold hostField
    rw [if_pos h1, h2, h]
    rfl
  simp [numHosts, e, distinct]

example : numHosts (parseBmgroups (twoGroups.map Group.text)) ["gpus/".toList] = 1 := by decide

/-- C133 is violated: groups listed the other way round are not resolved: a queue with the hosts of `huge` counts 2 hosts, not 3 -/
theorem C133_violated_nested : ∃ gs : List Group, (∀ x ∈ gs, x.Wf) ∧ Member gs "huge".toList "h1".toList ∧
    "h1".toList ∉ ((parseBmgroups (gs.map Group.text)).lookup "huge".toList).getD [] ∧
    numHosts (parseBmgroups (gs.map Group.text)) ["huge/".toList] = 2 := by
  refine ⟨twoGroups.reverse, by decide, ?_, by decide, by decide⟩
  exact Member.nested ⟨"huge".toList, fun _ => 0, ["h2".toList, "big/".toList, "h3".toList]⟩ "big".toList _ (by simp [twoGroups])
    (by decide) (Member.host ⟨"big".toList, fun _ => 2, ["h1".toList, "h2".toList]⟩ _ (by simp [twoGroups]) (by decide) (by decide))

/-- who may use a queue, by its USERS line: everybody, a user, the members of a group (with a `/`), but not who is excluded (with a `~`) -/
def May (member : Str → Prop) (me : Str) (users : List Str) : Prop :=
  ("all".toList ∈ users ∨ me ∈ users ∨ ∃ g, member g ∧ g ++ ['/'] ∈ users) ∧ '~' :: me ∉ users

/-- C133: where the USERS line has no groups and excludes nobody, wr knows the queue (`C133_queues_partial`) just if the user may use it -/
theorem C133_usable_partial (member : Str → Prop) (me : Str) (gs : List (Str × List Str)) (d : Desc) (hg : ∀ u ∈ d.users, u.getLast? ≠ some '/')
    (he : ∀ u ∈ d.users, u.head? ≠ some '~') : (queueOf me gs d).permitted = true ↔ May member me d.users := by
  unfold May
  show decide _ = true ↔ _
  rw [decide_eq_true_iff]
  constructor
  · intro h
    exact ⟨h.imp id Or.inl, fun hx => he _ hx rfl⟩
  · rintro ⟨h | h | ⟨g, _, hx⟩, _⟩
    · exact Or.inl h
    · exact Or.inr h
    · exact absurd (by simp) (hg _ hx)

private theorem team_wf : (full "team" ["devs/"] none).Wf :=
  full_wf _ _ _ (by decide) (by decide) (by decide) (by decide) (by intro hs h; cases h) (by decide)

private theorem most_wf : (full "most" ["all", "~ann"] (some ["all".toList, "~h9".toList])).Wf :=
  full_wf _ _ _ (by decide) (by decide) (by decide) (by decide) (by intro hs h; cases h; decide) (by decide)

private theorem one (me : Str) (gs : List (Str × List Str)) (d : Desc) (h : d.Wf) : ∃ p, parse me gs d.text = .ok p ∧
    p.queues = (usable [queueOf me gs d]).map (fun q => (q.name, q.attr)) := by
  obtain ⟨p, h1, h2, _⟩ := C133_queues_partial me gs [] [d] (by simp) (by simpa using h) (by simp)
  exact ⟨p, by simpa using h1, h2⟩

/-- C133 is violated: a queue that a group of users may use is unknown to its members -/
theorem C133_violated_group : ∃ d : Desc, d.Wf ∧ (∃ member, May member "ann".toList d.users) ∧
    ∃ p, parse "ann".toList [] d.text = .ok p ∧ p.queues = [] := by
  obtain ⟨p, h1, h2⟩ := one "ann".toList [] _ team_wf
  refine ⟨_, team_wf, ⟨fun g => g = "devs".toList, Or.inr (Or.inr ⟨_, rfl, by decide⟩), by decide⟩, p, h1, ?_⟩
  rw [h2]
  rfl

/-- C133 is violated: a queue that the user is excluded from is known, and can be chosen for jobs -/
theorem C133_violated_excluded : ∃ d : Desc, d.Wf ∧ (∀ member, ¬ May member "ann".toList d.users) ∧
    ∃ p, parse "ann".toList [] d.text = .ok p ∧ p.queues.map (·.1) = [d.name] := by
  obtain ⟨p, h1, h2⟩ := one "ann".toList [] _ most_wf
  refine ⟨_, most_wf, fun m h => h.2 (by decide), p, h1, ?_⟩
  rw [h2]
  rfl

/-- C133 is violated: a queue with all hosts but one is known to have two hosts -/
theorem C133_violated_hosts : ∃ d : Desc, d.Wf ∧ d.hosts = some ["all".toList, "~h9".toList] ∧
    ∃ p, parse "bob".toList [] d.text = .ok p ∧ p.queues.map (fun e => e.2 .hosts) = [some 2] := by
  obtain ⟨p, h1, h2⟩ := one "bob".toList [] _ most_wf
  refine ⟨_, most_wf, rfl, p, h1, ?_⟩
  rw [h2]
  decide

/-- C133 is violated: if there is one value fewer than it takes to get to the MEMLIMIT column, wr does not give an error but crashes -/
theorem C133_violated_crash : (match parse "ann".toList [] ["QUEUE: q".toList, " CORELIMIT MEMLIMIT".toList, " 10 M -".toList] with
    | .error e => some e
    | .ok _ => none) = some .panic := by
  decide +kernel

end Verif.Sched.LsfParse
