import Verif.Cloud.Known
/-
C116: which servers with an external IP are known, and which is the head node.

The specification is a fold over what happened: `known` is the list of the servers that were spawned and not destroyed or found broken since
(none after TearDown()). `quiet` says that no process was killed between a change and the next time the file was saved, and that a process
did nothing after TearDown(). `orderly` says that every process spawned only after its Deploy() worked.
-/
namespace Verif.Cloud.Known

/-! ### Specification -/

def knownStep (l : List Nat) : Said → List Nat
  | .spawned i => l ++ [i]
  | .removed i => l.filter (· ≠ i)
  | .tore => []
  | _ => l

/-- spawned, and not removed since -/
def known (log : List Said) : List Nat := log.foldl knownStep []

/-- how the file is compared with the memory -/
inductive Sync where
  | same
  | dirty
  | torn
  | lost
deriving DecidableEq

def syncStep : Sync → Said → Sync
  | .lost, _ => .lost
  | .torn, .killed => .same
  | .torn, _ => .lost
  | _, .spawned _ => .dirty
  | _, .removed _ => .dirty
  | _, .saved => .same
  | .dirty, .killed => .lost
  | _, .tore => .torn
  | x, _ => x

def sync (log : List Said) : Sync := log.foldl syncStep .same

/-- no process was killed before the file was saved, or went on after TearDown() -/
def quiet (log : List Said) : Prop := sync log ≠ .lost

/-- `some b`: so far every process spawned only after its Deploy() worked; `b`: the Deploy() of this process has worked -/
def orderStep : Option Bool → Said → Option Bool
  | none, _ => none
  | some _, .opened => some false
  | some _, .deployed => some true
  | some false, .spawned _ => none
  | some b, _ => some b

def order (log : List Said) : Option Bool := log.foldl orderStep (some false)

def orderly (log : List Said) : Prop := order log ≠ none

theorem known_add (l : List Said) (x : Said) : known (l ++ [x]) = knownStep (known l) x := by simp [known]
theorem sync_add (l : List Said) (x : Said) : sync (l ++ [x]) = syncStep (sync l) x := by simp [sync]
theorem order_add (l : List Said) (x : Said) : order (l ++ [x]) = orderStep (order l) x := by simp [order]

/-! ### Servers() -/

theorem ids_filter (l : List Rec) (i : Nat) : (l.filter (fun r => decide (r.id ≠ i))).map (·.id) = (l.map (·.id)).filter (· ≠ i) := by
  induction l with
  | nil => rfl
  | cons a l ih =>
    simp only [List.filter_cons, List.map_cons]
    by_cases h : a.id = i
    · simpa [h] using ih
    · simpa [h] using ih

/-- what is known, in each phase -/
def Agree (s : S) : Prop :=
  match sync s.log with
  | .lost => True
  | .torn => s.on = true ∧ s.disk = [] ∧ known s.log = []
  | .dirty => s.on = true ∧ servers s = known s.log
  | .same => s.disk.map (·.id) = known s.log ∧ (s.on = true → s.mem = s.disk)

theorem agree_mem {s : S} (h : Agree s) (hs : sync s.log = .same ∨ sync s.log = .dirty) (ho : s.on = true) : servers s = known s.log := by
  unfold Agree at h
  rcases hs with e | e <;> rw [e] at h
  · rw [servers, h.2 ho]; exact h.1
  · exact h.2

theorem agree_step {s t : S} {e : Ev} (h : Agree s) (hs : step s e = some t) : Agree t := by
  have keep : ∀ u : S, u.log = s.log → u.disk = s.disk → u.on = s.on → u.mem = s.mem → Agree u := by
    intro u a b c d
    unfold Agree
    rw [a, b, c]
    simp only [servers, d]
    exact h
  have change : ∀ (u : S) (x : Said) (hx : (∃ i, x = .spawned i) ∨ (∃ i, x = .removed i)), s.on = true → u.on = true → u.log = s.log ++ [x] →
      (servers s = known s.log → servers u = knownStep (known s.log) x) → Agree u := by
    intro u x hx hso ho a b
    unfold Agree
    rw [a, sync_add, known_add]
    have hm := fun hs => agree_mem h hs hso
    cases hy : sync s.log <;> rcases hx with ⟨i, rfl⟩ | ⟨i, rfl⟩ <;> simp only [syncStep] <;>
      first
      | trivial
      | exact ⟨ho, b (hm (.inl hy))⟩
      | exact ⟨ho, b (hm (.inr hy))⟩
  have forgot : ∀ (u : S) (i : Nat), u.on = true → s.on = true → u.log = s.log → u.mem = s.mem → Agree (forget u i) := by
    intro u i ho hso hl hm
    refine change _ (.removed i) (.inr ⟨i, rfl⟩) hso ho (by rw [← hl]; rfl) fun e => ?_
    simp only [servers, forget, knownStep, hm, ids_filter]
    rw [← e]
    rfl
  cases e <;> simp only [step] at hs
  case new =>
    split at hs
    · simp at hs
    · rename_i ho
      simp only [Option.some.injEq] at hs
      subst hs
      unfold Agree at h ⊢
      rw [sync_add, known_add]
      cases hy : sync s.log <;> rw [hy] at h <;> simp only [syncStep, knownStep]
      · exact ⟨h.1, fun _ => trivial⟩
      · exact absurd h.1 ho
  case deploy err =>
    split at hs
    · rename_i ho
      simp only [Option.some.injEq] at hs
      subst hs
      have h1 : Agree { s with disk := s.mem, log := s.log ++ [.saved] } := by
        unfold Agree
        rw [sync_add, known_add]
        have hm := fun hs => agree_mem h hs ho
        cases hy : sync s.log <;> simp only [syncStep, knownStep]
        · exact ⟨hm (.inl hy), fun _ => trivial⟩
        · exact ⟨hm (.inr hy), fun _ => trivial⟩
      have more : ∀ (u : S) (x : Said), x = .deployed ∨ x = .deployFailed → u.disk = s.mem → u.mem = s.mem → u.on = s.on →
          u.log = s.log ++ [.saved] ++ [x] → Agree u := by
        intro u x hx a b c d
        unfold Agree at h1 ⊢
        rw [d, sync_add, known_add, a, c, b]
        cases hy : sync (s.log ++ [.saved]) <;> simp only [hy] at h1 <;> rcases hx with rfl | rfl <;> simp only [syncStep, knownStep]
        · exact h1
        · exact h1
        · exact ⟨h1.1, by simp only [servers, b]; exact h1.2⟩
        · exact ⟨h1.1, by simp only [servers, b]; exact h1.2⟩
      unfold doDeploy
      dsimp only
      split
      · exact more _ _ (.inr rfl) rfl rfl rfl rfl
      · exact more _ _ (.inl rfl) rfl rfl rfl rfl
    · simp at hs
  case spawn id ext =>
    split at hs
    · rename_i ho
      simp only [Option.some.injEq] at hs
      subst hs
      unfold doSpawn
      dsimp only
      split
      · refine change _ (.spawned id) (.inl ⟨id, rfl⟩) ho.1 ho.1 rfl fun e => ?_
        simp only [servers, List.map_append, List.map_cons, List.map_nil, knownStep]
        rw [← e]
        rfl
      · exact keep _ rfl rfl rfl rfl
    · simp at hs
  case check id err =>
    split at hs
    · rename_i ho
      simp only [Option.some.injEq] at hs
      subst hs
      unfold doCheck
      split
      · exact h
      · split
        · exact forgot s id ho ho rfl rfl
        · exact h
    · simp at hs
  case destroy id err =>
    split at hs
    · rename_i ho
      simp only [Option.some.injEq] at hs
      subst hs
      unfold doDestroy
      split
      · exact h
      · exact forgot _ id ho ho rfl rfl
    · simp at hs
  case save ok =>
    split at hs
    · rename_i ho
      have hm := fun hs => agree_mem h hs ho.1
      split at hs <;> simp only [Option.some.injEq] at hs <;> subst hs <;> unfold Agree <;> rw [sync_add, known_add]
      · cases hy : sync s.log <;> simp only [syncStep, knownStep]
        · exact ⟨hm (.inl hy), fun _ => trivial⟩
        · exact ⟨hm (.inr hy), fun _ => trivial⟩
      · unfold Agree at h
        cases hy : sync s.log <;> rw [hy] at h <;> simp only [syncStep, knownStep]
        · exact h
        · exact h
    · simp at hs
  case tear =>
    split at hs
    · rename_i ho
      simp only [Option.some.injEq] at hs
      subst hs
      unfold Agree
      rw [sync_add, known_add]
      cases hy : sync s.log <;> simp only [syncStep, knownStep]
      · exact ⟨ho, trivial, trivial⟩
      · exact ⟨ho, trivial, trivial⟩
    · simp at hs
  case kill =>
    split at hs
    · simp only [Option.some.injEq] at hs
      subst hs
      unfold Agree at h ⊢
      rw [sync_add, known_add]
      cases hy : sync s.log <;> rw [hy] at h <;> simp only [syncStep, knownStep]
      · exact ⟨h.1, fun e => by simp at e⟩
      · exact ⟨by rw [h.2.1, h.2.2]; rfl, fun e => by simp at e⟩
    · simp at hs
  case vanish id =>
    simp only [Option.some.injEq] at hs
    subst hs
    exact keep _ rfl rfl rfl rfl
  case status id a =>
    simp only [Option.some.injEq] at hs
    subst hs
    exact keep _ rfl rfl rfl rfl

theorem run_inv {P : S → Prop} (hstep : ∀ s t e, P s → step s e = some t → P t) {s t : S} {es : List Ev} (h : P s)
    (hr : run s es = some t) : P t := by
  induction es generalizing s with
  | nil => simp only [run, Option.some.injEq] at hr; exact hr ▸ h
  | cons e es ih =>
    simp only [run] at hr
    cases hs : step s e with
    | none => rw [hs] at hr; simp at hr
    | some u => rw [hs] at hr; exact ih (hstep _ _ _ h hs) hr

/-- C116, partial: Servers() are exactly the servers with an external IP that were spawned, by this process or an earlier one, and not
destroyed or found broken since, in the order in which they were spawned. Missing: a process that was killed before it saved a change
(`C116_violated_killed`), and one that goes on after TearDown() (`C116_violated_tear`). -/
theorem C116_servers_partial (es : List Ev) (t : S) (hr : run {} es = some t) (hq : quiet t.log) (ho : t.on = true)
    (hn : t.log.getLast? ≠ some .tore) : servers t = known t.log := by
  have h : Agree t := run_inv (fun _ _ _ => agree_step) (by simp [Agree, sync, known]) hr
  refine agree_mem h ?_ ho
  cases hy : sync t.log with
  | same => exact .inl rfl
  | dirty => exact .inr rfl
  | lost => exact absurd hy hq
  | torn =>
    exfalso
    rcases List.eq_nil_or_concat t.log with e | ⟨l, x, e⟩
    · rw [e] at hy; simp [sync] at hy
    · rw [List.concat_eq_append] at e
      rw [e, sync_add] at hy
      rw [e] at hn
      cases x <;> cases hz : sync l <;> simp [hz, syncStep] at hy hn

/-- three servers are spawned by two processes, one is destroyed; a third process knows the other two, also though the first call that was
to save failed -/
example : ∃ t, run {} [.new, .deploy false, .spawn 1 true, .spawn 2 true, .save false, .spawn 9 false, .save true, .kill, .new, .deploy false,
      .spawn 3 true, .destroy 2 false, .save true, .save true, .kill, .new] = some t ∧ quiet t.log ∧ t.on = true ∧
    servers t = [1, 3] ∧ headNodes t = [1] ∧ t.log.getLast? = some .opened := by
  refine ⟨_, rfl, ?_, ?_, ?_, ?_, ?_⟩
  · unfold quiet; decide +kernel
  all_goals decide +kernel

/-- C116: a server is only forgotten if it was destroyed, or if the cloud answered that it does not work. -/
theorem C116_forgotten (s t : S) (e : Ev) (i : Nat) (hs : step s e = some t) (ho : s.on = true) (hi : i ∈ servers s)
    (hn : i ∉ servers t) : (e = .destroy i false ∧ there t i = false) ∨ (e = .check i false ∧ works s i = false) := by
  have gone : ∀ (u : S) (j : Nat), u.mem = s.mem → i ∉ servers (forget u j) → j = i := by
    intro u j hm h
    by_cases e : j = i
    · exact e
    · exfalso
      apply h
      simp only [servers, forget, ids_filter, hm]
      exact List.mem_filter.2 ⟨hi, by simpa using Ne.symm e⟩
  cases e <;> simp only [step, ho, if_true] at hs
  case new => simp at hs
  case deploy err =>
    simp only [Option.some.injEq] at hs
    subst hs
    exfalso
    apply hn
    unfold doDeploy
    dsimp only
    split
    · exact hi
    · exact hi
  case spawn id ext =>
    split at hs
    · simp only [Option.some.injEq] at hs
      subst hs
      exfalso
      apply hn
      unfold doSpawn
      dsimp only
      split
      · simp only [servers, List.map_append, List.mem_append]
        exact .inl hi
      · exact hi
    · simp at hs
  case check id err =>
    simp only [Option.some.injEq] at hs
    subst hs
    unfold doCheck at hn
    split at hn
    · exact absurd hi hn
    · rename_i hw
      simp only [Bool.or_eq_true, not_or, Bool.not_eq_true] at hw
      split at hn
      · have := gone s id rfl hn
        subst this
        exact .inr ⟨by rw [hw.1], hw.2⟩
      · exact absurd hi hn
  case destroy id err =>
    simp only [Option.some.injEq] at hs
    subst hs
    cases err with
    | true => exact absurd hi hn
    | false =>
      have := gone { s with cloud := s.cloud.filter (·.id ≠ id) } id rfl hn
      subst this
      refine .inl ⟨rfl, ?_⟩
      simp [there, doDestroy, forget]
  case save ok =>
    split at hs
    · split at hs <;> simp only [Option.some.injEq] at hs <;> subst hs <;> exact absurd hi hn
    · simp at hs
  all_goals
    simp only [Option.some.injEq] at hs
    subst hs
    exact absurd hi hn

example : ∃ s t, run {} [.new, .deploy false, .spawn 1 true, .status 1 false] = some s ∧ s.on = true ∧ step s (.check 1 false) = some t ∧
    servers s = [1] ∧ servers t = [] := by
  refine ⟨_, _, rfl, ?_, rfl, ?_, ?_⟩ <;> decide +kernel

/-- C116 is violated: the process is killed after the server was spawned and before the file is saved. The server runs, but no later process
knows it. -/
theorem C116_violated_killed : ∃ t, run {} [.new, .deploy false, .spawn 1 true, .kill, .new, .deploy false] = some t ∧ works t 1 = true ∧
    known t.log = [1] ∧ servers t = [] := by
  refine ⟨_, rfl, ?_, ?_, ?_⟩ <;> decide +kernel

/-- C116 is violated: TearDown() destroyed all servers, but the process still lists them, and if it deploys again they are in the file. -/
theorem C116_violated_tear : ∃ t, run {} [.new, .deploy false, .spawn 1 true, .save true, .tear, .deploy false, .kill, .new] = some t ∧
    works t 1 = false ∧ known t.log = [] ∧ servers t = [1] ∧ headNodes t = [1] := by
  refine ⟨_, rfl, ?_, ?_, ?_, ?_⟩ <;> decide +kernel

/-- C116 is violated: the server is being restarted when CheckServer() asks. It is forgotten for ever, though it works again. -/
theorem C116_violated_restart : ∃ t, run {} [.new, .deploy false, .spawn 1 true, .save true, .status 1 false, .check 1 false, .save true,
      .status 1 true, .kill, .new, .deploy false] = some t ∧ works t 1 = true ∧ servers t = [] ∧ headNodes t = [] := by
  refine ⟨_, rfl, ?_, ?_, ?_⟩ <;> decide +kernel

/-! ### HeadNode() -/

def heads (l : List Rec) : List Rec := l.filter (·.head)

theorem heads_forget (l : List Rec) (i : Nat) : heads (l.filter fun r => decide (r.id ≠ i)) = (heads l).filter fun r => decide (r.id ≠ i) := by
  simp only [heads, List.filter_filter]
  congr 1
  funext r
  exact Bool.and_comm ..

theorem heads_any {l : List Rec} : l.any (·.head) = true ↔ heads l ≠ [] := by
  simp [heads, List.filter_eq_nil_iff]

/-- the records: of the process, or else those in the file -/
def cur (s : S) : List Rec := if s.on then s.mem else s.disk

theorem cur_on {s : S} (h : s.on = true) : cur s = s.mem := by simp [cur, h]
theorem cur_off {s : S} (h : s.on = false) : cur s = s.disk := by simp [cur, h]

/-- nothing was destroyed or found broken, and there was no TearDown() -/
def undisturbed (log : List Said) : Prop := ∀ x ∈ log, x ≠ .tore ∧ ∀ i, x ≠ .removed i

/-- there is at most one head node, it exists, and the process knows of it -/
structure Body (s : S) : Prop where
  one : (heads (cur s)).length ≤ 1
  live : ∀ r ∈ heads (cur s), there s r.id = true
  made : s.on = true → order s.log = some true → heads s.mem ≠ [] → s.made = true
  first : undisturbed s.log → ∀ r l, cur s = r :: l → r.head = true
  empty : undisturbed s.log → s.on = true → s.made = true → s.mem ≠ []

structure One (s : S) : Prop where
  agree : Agree s
  body : quiet s.log → sync s.log ≠ .torn → orderly s.log → Body s

theorem there_filter {s : S} {i j : Nat} (h : there s j = true) (hn : j ≠ i) :
    s.cloud.filter (·.id ≠ i) |>.any (·.id = j) := by
  simp only [there, List.any_eq_true, decide_eq_true_eq] at h ⊢
  obtain ⟨v, hv, rfl⟩ := h
  exact ⟨v, List.mem_filter.2 ⟨hv, by simpa using hn⟩, rfl⟩

theorem undisturbed_add {l : List Said} {x : Said} : undisturbed (l ++ [x]) ↔ undisturbed l ∧ x ≠ .tore ∧ ∀ i, x ≠ .removed i := by
  simp only [undisturbed, List.mem_append, List.mem_singleton]
  constructor
  · intro h; exact ⟨fun y hy => h y (.inl hy), h x (.inr rfl)⟩
  · rintro ⟨h, h'⟩ y (hy | rfl)
    · exact h y hy
    · exact h'

theorem one_forget {s : S} {i : Nat} (h : One s) (ho : s.on = true) (c : List Vm)
    (hc : ∀ j, j ≠ i → there s j = true → c.any (·.id = j)) (ha : Agree (forget { s with cloud := c } i)) :
    One (forget { s with cloud := c } i) := by
  refine ⟨ha, fun hq hn hor => ?_⟩
  have hl : (forget { s with cloud := c } i).log = s.log ++ [.removed i] := rfl
  rw [hl, quiet, sync_add] at hq
  rw [hl, sync_add] at hn
  rw [hl, orderly, order_add] at hor
  have hq' : quiet s.log := by
    intro e; rw [e] at hq; exact hq rfl
  have hn' : sync s.log ≠ .torn := by
    intro e; rw [e] at hq; exact hq rfl
  have hor' : orderly s.log := by
    intro e; rw [e] at hor; exact hor rfl
  have b := h.body hq' hn' hor'
  have hon : (forget { s with cloud := c } i).on = true := ho
  have hm : (forget { s with cloud := c } i).mem = s.mem.filter fun r => decide (r.id ≠ i) := rfl
  refine ⟨?_, ?_, ?_, ?_, ?_⟩
  · rw [cur_on hon, hm, heads_forget]
    have := b.one
    rw [cur_on ho] at this
    exact Nat.le_trans (List.length_filter_le ..) this
  · rw [cur_on hon, hm, heads_forget]
    intro r hr
    obtain ⟨h1, h2⟩ := List.mem_filter.1 hr
    have := b.live
    rw [cur_on ho] at this
    exact hc _ (by simpa using h2) (this r h1)
  · intro _ e hne
    rw [hl, order_add] at e
    have e' : order s.log = some true := by
      cases hx : order s.log with
      | none => rw [hx] at e; simp [orderStep] at e
      | some v => rw [hx] at e; cases v <;> simp [orderStep] at e ⊢
    refine b.made ho e' fun e2 => hne ?_
    rw [hm, heads_forget, e2]
    rfl
  · intro hu
    rw [hl, undisturbed_add] at hu
    exact absurd rfl (hu.2.2 i)
  · intro hu
    rw [hl, undisturbed_add] at hu
    exact absurd rfl (hu.2.2 i)

theorem one_step {s t : S} {e : Ev} (he : ∀ i, e ≠ .vanish i) (h : One s) (hs : step s e = some t) : One t := by
  have ha : Agree t := agree_step h.agree hs
  have before : ∀ {x : Said}, quiet (s.log ++ [x]) → quiet s.log := by
    intro x hq e; rw [quiet, sync_add, e] at hq; exact hq rfl
  have obefore : ∀ {x : Said}, orderly (s.log ++ [x]) → orderly s.log := by
    intro x hq e; rw [orderly, order_add, e] at hq; exact hq rfl
  have tbefore : ∀ {x : Said}, quiet (s.log ++ [x]) → x ≠ .killed → sync s.log ≠ .torn := by
    intro x hq hx e; rw [quiet, sync_add, e] at hq; cases x <;> simp [syncStep] at hq hx
  cases e <;> simp only [step] at hs
  case vanish i => exact absurd rfl (he i)
  case new =>
    split at hs
    · simp at hs
    · rename_i ho
      simp only [Bool.not_eq_true] at ho
      simp only [Option.some.injEq] at hs
      subst hs
      refine ⟨ha, fun hq hn hor => ?_⟩
      have b := h.body (before hq) (tbefore hq (by simp)) (obefore hor)
      have hc : cur s = s.disk := cur_off ho
      obtain ⟨b1, b2, b3, b4, b5⟩ := b
      rw [hc] at b1 b2 b4
      refine ⟨by rw [cur_on (by exact rfl)]; exact b1, by rw [cur_on (by exact rfl)]; exact b2, ?_, ?_, ?_⟩
      · intro _ e
        rw [order_add] at e
        cases hx : order s.log with
        | none => rw [hx] at e; simp [orderStep] at e
        | some v => rw [hx] at e; simp [orderStep] at e
      · rw [cur_on (by exact rfl)]
        exact fun hu => b4 (undisturbed_add.1 hu).1
      · intro _ _ e; simp at e
  case deploy err =>
    split at hs
    · rename_i ho
      simp only [Option.some.injEq] at hs
      subst hs
      refine ⟨ha, ?_⟩
      unfold doDeploy
      dsimp only
      split
      · intro hq hn hor
        have hq1 : quiet (s.log ++ [.saved]) := by
          intro e; simp only [quiet] at hq; rw [sync_add, e] at hq; exact hq rfl
        have hor1 : orderly (s.log ++ [.saved]) := by
          intro e; simp only [orderly] at hor; rw [order_add, e] at hor; exact hor rfl
        obtain ⟨b1, b2, b3, b4, b5⟩ := h.body (before hq1) (tbefore hq1 (by simp)) (obefore hor1)
        rw [cur_on ho] at b1 b2 b4
        refine ⟨by rw [cur_on (by exact ho)]; exact b1, by rw [cur_on (by exact ho)]; exact b2, ?_, ?_, ?_⟩
        · intro _ e
          simp only [order_add] at e
          apply b3 ho
          cases hx : order s.log with
          | none => rw [hx] at e; simp [orderStep] at e
          | some v => rw [hx] at e; cases v <;> simp [orderStep] at e ⊢
        · rw [cur_on (by exact ho)]
          exact fun hu => b4 (undisturbed_add.1 (undisturbed_add.1 hu).1).1
        · exact fun hu => b5 (undisturbed_add.1 (undisturbed_add.1 hu).1).1
      · intro hq hn hor
        have hq1 : quiet (s.log ++ [.saved]) := by
          intro e; simp only [quiet] at hq; rw [sync_add, e] at hq; exact hq rfl
        have hor1 : orderly (s.log ++ [.saved]) := by
          intro e; simp only [orderly] at hor; rw [order_add, e] at hor; exact hor rfl
        obtain ⟨b1, b2, b3, b4, b5⟩ := h.body (before hq1) (tbefore hq1 (by simp)) (obefore hor1)
        rw [cur_on ho] at b1 b2 b4
        refine ⟨by rw [cur_on (by exact ho)]; exact b1, by rw [cur_on (by exact ho)]; exact b2, ?_, ?_, ?_⟩
        · intro _ _ hne
          simp only [Bool.or_eq_true]
          right
          obtain ⟨r, hr⟩ := List.exists_mem_of_ne_nil _ hne
          have hl := b2 r hr
          obtain ⟨h1, h2⟩ := List.mem_filter.1 hr
          exact List.any_eq_true.2 ⟨r, h1, by simp only [Bool.and_eq_true]; exact ⟨h2, hl⟩⟩
        · rw [cur_on (by exact ho)]
          exact fun hu => b4 (undisturbed_add.1 (undisturbed_add.1 hu).1).1
        · intro hu _ hm e
          simp only [Bool.or_eq_true] at hm
          have e : s.mem = [] := e
          rcases hm with hm | hm
          · exact b5 (undisturbed_add.1 (undisturbed_add.1 hu).1).1 ho hm e
          · rw [e] at hm; simp at hm
    · simp at hs
  case spawn id ext =>
    split at hs
    · rename_i ho
      simp only [Option.some.injEq] at hs
      subst hs
      refine ⟨ha, ?_⟩
      have grow : ∀ {j}, there s j = true → (s.cloud ++ [({ id := id } : Vm)]).any (fun v => decide (v.id = j)) = true := by
        intro j hj
        rw [List.any_append]
        simp only [there] at hj
        simp [hj]
      unfold doSpawn
      dsimp only
      split
      · intro hq hn hor
        obtain ⟨b1, b2, b3, b4, b5⟩ := h.body (before hq) (tbefore hq (by simp)) (obefore hor)
        have hot : order s.log = some true := by
          simp only [orderly] at hor
          rw [order_add] at hor
          cases hx : order s.log with
          | none => rw [hx] at hor; simp [orderStep] at hor
          | some v => rw [hx] at hor; cases v <;> simp [orderStep] at hor ⊢
        rw [cur_on ho.1] at b1 b2 b4
        have b3 := b3 ho.1 hot
        refine ⟨?_, ?_, fun _ _ _ => rfl, ?_, ?_⟩
        · rw [cur_on (by exact ho.1)]
          simp only [heads, List.filter_append, List.length_append]
          by_cases hm : s.made = true
          · simp only [hm]; simpa [heads] using b1
          · have : heads s.mem = [] := by
              cases hz : heads s.mem with
              | nil => rfl
              | cons a l => exact absurd (b3 (by rw [hz]; simp)) hm
            rw [heads] at this
            rw [this]
            simp only [List.length_nil, Nat.zero_add]
            exact List.length_filter_le _ [_]
        · rw [cur_on (by exact ho.1)]
          simp only [heads, List.filter_append, List.mem_append]
          intro r hr
          rcases hr with hr | hr
          · exact grow (b2 r hr)
          · have := (List.mem_filter.1 hr).1
            simp only [List.mem_singleton] at this
            subst this
            simp [there]
        · rw [cur_on (by exact ho.1)]
          intro hu r l e
          have hu := (undisturbed_add.1 hu).1
          dsimp only at e
          cases hz : s.mem with
          | nil =>
            rw [hz] at e
            simp only [List.nil_append, List.cons.injEq] at e
            rw [← e.1]
            cases hm : s.made with
            | false => rfl
            | true => exact absurd hz (b5 hu ho.1 hm)
          | cons a l' =>
            rw [hz] at e
            simp only [List.cons_append, List.cons.injEq] at e
            rw [← e.1]
            exact b4 hu a l' hz
        · intro _ _ _; simp
      · intro hq hn hor
        obtain ⟨b1, b2, b3, b4, b5⟩ := h.body hq hn hor
        exact ⟨b1, fun r hr => grow (b2 r hr), b3, b4, b5⟩
    · simp at hs
  case check id err =>
    split at hs
    · rename_i ho
      simp only [Option.some.injEq] at hs
      subst hs
      revert ha
      unfold doCheck
      split
      · exact fun _ => h
      · split
        · exact fun ha => one_forget (s := s) h ho s.cloud (fun j _ hj => hj) ha
        · exact fun _ => h
    · simp at hs
  case destroy id err =>
    split at hs
    · rename_i ho
      simp only [Option.some.injEq] at hs
      subst hs
      revert ha
      unfold doDestroy
      split
      · exact fun _ => h
      · exact fun ha => one_forget h ho _ (fun j hj hl => there_filter hl hj) ha
    · simp at hs
  case save ok =>
    split at hs
    · rename_i ho
      split at hs <;> simp only [Option.some.injEq] at hs <;> subst hs
      all_goals
        refine ⟨ha, fun hq hn hor => ?_⟩
        obtain ⟨b1, b2, b3, b4, b5⟩ := h.body (before hq) (tbefore hq (by simp)) (obefore hor)
        rw [cur_on ho.1] at b1 b2 b4
        refine ⟨by rw [cur_on (by exact ho.1)]; exact b1, by rw [cur_on (by exact ho.1)]; exact b2, ?_, ?_, ?_⟩
        · intro _ e
          simp only [order_add] at e
          apply b3 ho.1
          cases hx : order s.log with
          | none => rw [hx] at e; simp [orderStep] at e
          | some v => rw [hx] at e; cases v <;> simp [orderStep] at e ⊢
        · rw [cur_on (by exact ho.1)]
          exact fun hu => b4 (undisturbed_add.1 hu).1
        · exact fun hu => b5 (undisturbed_add.1 hu).1
    · simp at hs
  case tear =>
    split at hs
    · simp only [Option.some.injEq] at hs
      subst hs
      refine ⟨ha, fun hq hn hor => ?_⟩
      exfalso
      simp only [quiet] at hq
      simp only [sync_add] at hq hn
      cases hy : sync s.log <;> simp [hy, syncStep] at hq hn
    · simp at hs
  case kill =>
    split at hs
    · rename_i ho
      simp only [Option.some.injEq] at hs
      subst hs
      refine ⟨ha, fun hq hn hor => ?_⟩
      have hag := h.agree
      simp only [Agree] at hag
      by_cases ht : sync s.log = .torn
      · rw [ht] at hag
        have hc : cur { s with on := false, log := s.log ++ [.killed] } = [] := hag.2.1
        refine ⟨by rw [hc]; simp [heads], by rw [hc]; simp [heads], fun e => by simp at e, ?_, fun _ e => by simp at e⟩
        rw [hc]; simp
      · have hsame : sync s.log = .same := by
          simp only [quiet] at hq
          rw [sync_add] at hq
          cases hy : sync s.log <;> simp [hy, syncStep] at hq ht ⊢
        rw [hsame] at hag
        have hc : cur { s with on := false, log := s.log ++ [.killed] } = cur s := by
          rw [cur_on ho, hag.2 ho]
          rfl
        obtain ⟨b1, b2, b3, b4, b5⟩ := h.body (before hq) ht (obefore hor)
        refine ⟨by rw [hc]; exact b1, by rw [hc]; exact b2, fun e => by simp at e, ?_, fun _ e => by simp at e⟩
        rw [hc]
        exact fun hu => b4 (undisturbed_add.1 hu).1
    · simp at hs
  case status id a =>
    simp only [Option.some.injEq] at hs
    subst hs
    refine ⟨ha, fun hq hn hor => ?_⟩
    obtain ⟨b1, b2, b3, b4, b5⟩ := h.body hq hn hor
    refine ⟨b1, fun r hr => ?_, b3, b4, b5⟩
    have := b2 r hr
    simp only [there, List.any_eq_true, decide_eq_true_eq] at this ⊢
    obtain ⟨v, hv, e⟩ := this
    refine ⟨if v.id = id then { v with active := a } else v, List.mem_map.2 ⟨v, hv, rfl⟩, ?_⟩
    split
    · exact e
    · exact e

theorem one_run {es : List Ev} {t : S} (hv : ∀ i, .vanish i ∉ es) (hr : run {} es = some t) : One t := by
  have key : ∀ {s : S} {es : List Ev}, (∀ i, .vanish i ∉ es) → One s → run s es = some t → One t := by
    intro s es
    induction es generalizing s with
    | nil => intro _ h hr; simp only [run, Option.some.injEq] at hr; exact hr ▸ h
    | cons e es ih =>
      intro hv h hr
      simp only [run] at hr
      cases hs : step s e with
      | none => rw [hs] at hr; simp at hr
      | some u =>
        rw [hs] at hr
        exact ih (fun i hi => hv i (List.mem_cons_of_mem _ hi))
          (one_step (fun i e => hv i (by rw [e]; exact List.mem_cons_self ..)) h hs) hr
  refine key hv ⟨by simp [Agree, sync, known], fun _ _ _ => ⟨?_, ?_, ?_, ?_, ?_⟩⟩ hr <;> simp [cur, heads]

/-- C116, partial: there is at most one head node and it exists, if servers are not deleted by others, every process deployed before it
spawned, and none was killed before it saved or went on after TearDown(). Missing: `C116_violated_two`. -/
theorem C116_head_partial (es : List Ev) (t : S) (hr : run {} es = some t) (hv : ∀ i, .vanish i ∉ es) (hq : quiet t.log) (hor : orderly t.log)
    (ho : t.on = true) (hn : t.log.getLast? ≠ some .tore) : headNodes t = [] ∨ ∃ i, headNodes t = [i] ∧ there t i = true := by
  have h := one_run hv hr
  have ht : sync t.log ≠ .torn := by
    intro hy
    rcases List.eq_nil_or_concat t.log with e | ⟨l, x, e⟩
    · rw [e] at hy; simp [sync] at hy
    · rw [List.concat_eq_append] at e
      rw [e, sync_add] at hy
      rw [e] at hn
      cases x <;> cases hz : sync l <;> simp [hz, syncStep] at hy hn
  have b := h.body hq ht hor
  have h1 := b.one
  have h2 := b.live
  rw [cur_on ho] at h1 h2
  have e : headNodes t = (heads t.mem).map (·.id) := rfl
  rw [e]
  cases hz : heads t.mem with
  | nil => exact .inl rfl
  | cons r l =>
    cases l with
    | nil => exact .inr ⟨r.id, rfl, h2 r (by rw [hz]; simp)⟩
    | cons a l => rw [hz] at h1; simp at h1

/-- C116, partial: as long as nothing is destroyed or found broken, HeadNode() is the first server with an external IP that was ever spawned,
in every process. Missing: after the head node was destroyed (`C116_violated_no_head`). -/
theorem C116_first_partial (es : List Ev) (t : S) (hr : run {} es = some t) (hv : ∀ i, .vanish i ∉ es) (hq : quiet t.log)
    (hor : orderly t.log) (ho : t.on = true) (hu : undisturbed t.log) : headNodes t = (known t.log).take 1 := by
  have hn : t.log.getLast? ≠ some .tore := by
    intro e
    exact absurd rfl (hu _ (List.mem_of_getLast? e)).1
  have hk := C116_servers_partial es t hr hq ho hn
  have h := one_run hv hr
  have ht : sync t.log ≠ .torn := by
    intro hy
    rcases List.eq_nil_or_concat t.log with e | ⟨l, x, e⟩
    · rw [e] at hy; simp [sync] at hy
    · rw [List.concat_eq_append] at e
      rw [e, sync_add] at hy
      rw [e] at hn
      cases x <;> cases hz : sync l <;> simp [hz, syncStep] at hy hn
  have b := h.body hq ht hor
  have h1 := b.one
  have h2 := b.first hu
  rw [cur_on ho] at h1 h2
  rw [← hk, servers, headNodes]
  cases hz : t.mem with
  | nil => rfl
  | cons r l =>
    have hr := h2 r l hz
    rw [hz, heads, List.filter_cons, if_pos hr] at h1
    simp only [List.length_cons] at h1
    have : l.filter (·.head) = [] := List.length_eq_zero_iff.1 (by omega)
    simp [List.filter_cons, hr, this]

/-- the second process spawned another server; the third sees the head node of the first one -/
example : ∃ t, run {} [.new, .deploy true, .spawn 1 true, .save true, .kill, .new, .deploy true, .deploy false, .spawn 3 true, .save true, .kill,
      .new] = some t ∧ quiet t.log ∧ orderly t.log ∧ t.on = true ∧ headNodes t = [1] ∧ known t.log = [1, 3] := by
  refine ⟨_, rfl, ?_, ?_, ?_, ?_, ?_⟩
  · unfold quiet; decide +kernel
  · unfold orderly; decide +kernel
  all_goals decide +kernel

/-- C116 is violated: the head node was deleted with the cloud's own tools. The next deployment has two head nodes, and HeadNode() returns
any one of them. -/
theorem C116_violated_two : ∃ t, run {} [.new, .deploy false, .spawn 1 true, .save true, .vanish 1, .kill, .new, .deploy false, .spawn 2 true,
      .save true] = some t ∧ quiet t.log ∧ orderly t.log ∧ headNodes t = [1, 2] ∧ there t 1 = false := by
  refine ⟨_, rfl, ?_, ?_, ?_, ?_⟩
  · unfold quiet; decide +kernel
  · unfold orderly; decide +kernel
  all_goals decide +kernel

/-- C116 is violated: the head node is destroyed and another server is spawned by the same process: there is no head node. -/
theorem C116_violated_no_head : ∃ t, run {} [.new, .deploy false, .spawn 1 true, .save true, .destroy 1 false, .save true, .spawn 2 true,
      .save true, .deploy false] = some t ∧ servers t = [2] ∧ works t 2 = true ∧ headNodes t = [] := by
  refine ⟨_, rfl, ?_, ?_, ?_⟩ <;> decide +kernel

/-! ### Names of hosts -/

open Deploy (hostChar squash hostName)

theorem squash_app (b : Bool) (n u : List Char) (hu : ∀ x ∈ u, hostChar x = true) : squash b (n ++ u) = squash b n ++ u := by
  induction n generalizing b with
  | nil =>
    have : ∀ (v : List Char) (b : Bool), (∀ x ∈ v, hostChar x = true) → squash b v = v := by
      intro v
      induction v with
      | nil => intro _ _; rfl
      | cons x v ih =>
        intro b h
        simp only [squash, h x (List.mem_cons_self ..), if_true, ih false fun y hy => h y (List.mem_cons_of_mem _ hy)]
    simp only [List.nil_append, squash]
    exact this u b hu
  | cons x n ih =>
    simp only [List.cons_append, squash]
    split
    · rw [ih]; rfl
    · split
      · rw [ih]
      · rw [ih]; rfl

theorem squash_length (b : Bool) (n : List Char) : (squash b n).length ≤ n.length := by
  induction n generalizing b with
  | nil => simp [squash]
  | cons x n ih =>
    simp only [squash]
    split
    · simpa using ih _
    · split
      · exact Nat.le_succ_of_le (ih _)
      · simpa using ih _

/-- C116: servers whose names begin with the same resource name and have different UUIDs have different host names, so GetServerByName()
tells them apart, if the resource name is as long as wr allows (18 characters after "wr-prod-", cmd/root.go:38-43, 159-170). -/
theorem C116_hostname (n u v : List Char) (hn : n.length ≤ 26) (hu : u.length = 36) (hv : v.length = 36)
    (hcu : ∀ x ∈ u, hostChar x = true ∧ x.toLower = x) (hcv : ∀ x ∈ v, hostChar x = true ∧ x.toLower = x)
    (h : hostName (n ++ '-' :: u) = hostName (n ++ '-' :: v)) : u = v := by
  have key : ∀ w : List Char, w.length = 36 → (∀ x ∈ w, hostChar x = true ∧ x.toLower = x) →
      hostName (n ++ '-' :: w) = squash false (n.map Char.toLower) ++ '-' :: w := by
    intro w hw hc
    have e : (n ++ '-' :: w).map Char.toLower = n.map Char.toLower ++ '-' :: w := by
      rw [List.map_append, List.map_cons]
      have : w.map Char.toLower = w := by
        have h' : w.map Char.toLower = w.map id := List.map_congr_left fun x hx => (hc x hx).2
        rw [h', List.map_id]
      rw [this]
      rfl
    have hh : ∀ x ∈ ('-' :: w), hostChar x = true := by
      intro x hx
      rcases List.mem_cons.1 hx with rfl | hx
      · decide
      · exact (hc x hx).1
    rw [hostName, e, squash_app _ _ _ hh, List.take_of_length_le]
    have := squash_length false (n.map Char.toLower)
    simp only [List.length_append, List.length_cons, List.length_map] at *
    omega
  rw [key u hu hcu, key v hv hcv] at h
  have := List.append_cancel_left h
  simpa using this

example : let u := "6ba7b810-9dad-11d1-80b4-00c04fd430c8".toList
    u.length = 36 ∧ (∀ x ∈ u, hostChar x = true ∧ x.toLower = x) ∧ ("wr-prod-".toList ++ List.replicate 18 'x').length = 26 := by
  decide +kernel

/-- with one more character they need not be different -/
theorem C116_hostname_sharp : ∃ n u v : List Char, n.length = 27 ∧ u.length = 36 ∧ v.length = 36 ∧
    (∀ x ∈ u, hostChar x = true ∧ x.toLower = x) ∧ (∀ x ∈ v, hostChar x = true ∧ x.toLower = x) ∧ u ≠ v ∧
    hostName (n ++ '-' :: u) = hostName (n ++ '-' :: v) :=
  ⟨List.replicate 27 'x', "6ba7b810-9dad-11d1-80b4-00c04fd430c8".toList, "6ba7b810-9dad-11d1-80b4-00c04fd430c9".toList,
    by decide, by decide, by decide, by decide +kernel, by decide +kernel, by decide +kernel, by decide +kernel⟩

end Verif.Cloud.Known
