import Verif.Queue.Deps
import Verif.Queue.Props2
/-!
# Properties C04, C05, C10 of the queue package: dependencies
-/
namespace Verif.Queue
open Verif.Heap

/-! ### Specification: what is outstanding for an item

The keys an item waits for are those it was added with, less those that were removed since; when an item is renamed,
those that wait for it wait for its new name. -/

/-- the effect of one operation (in state `q`, with result `res`) on the outstanding dependencies of item `i` -/
def pendStep (q : Q) (i : Nat) (op : Op) (res : Res) (p : List String) : List String :=
  match op, res with
  | .remove k _, .ok => p.filter (· ≠ k)
  | .changeKey old new, .ok => if q.find old = some i then p else p.map fun d => if d = old then new else d
  | _, _ => p

/-- the outstanding dependencies of item `i` after the history, if they are `p` before it -/
def pending (i : Nat) : Q → List (Int × Op) → List String → List String
  | _, [], p => p
  | q, (now, op) :: rest, p =>
    match step q now op with
    | none => p
    | some o => pending i o.q rest (pendStep q i op o.res p)

/-- the operation is not an `Update` that gives item `i` other dependencies -/
def NoDepUpdate (i : Nat) (q : Q) : Op → Prop
  | .update k _ _ _ _ _ (some _) => q.find k ≠ some i
  | _ => True

theorem pendStep_nil (q i op res) : pendStep q i op res [] = [] := by
  unfold pendStep; split <;> simp

theorem pendStep_err (q i op e p) : pendStep q i op (.err e) p = p := by
  unfold pendStep; split <;> simp_all

theorem Eff.ok_or_fail {q : Q} {now op o} (e : Eff q now op o) :
    (o.q = q ∧ ∃ er, o.res = .err er) ∨ ((∀ k ord, op = .remove k ord → o.res = .ok) ∧ (∀ a b, op = .changeKey a b → o.res = .ok)) := by
  cases e with
  | fail _ => exact Or.inl ⟨rfl, _, rfl⟩
  | move _ m _ => right; cases m <;> simp
  | remove => right; simp
  | changeKey => right; simp
  | add => right; simp
  | addMany => right; simp
  | update => right; simp
  | delayTick => right; simp
  | ttrTick => right; simp
  | destroy => right; simp

theorem pendStep_other {q i op res p} (h1 : ∀ k ord, op ≠ .remove k ord) (h2 : ∀ a b, op ≠ .changeKey a b) : pendStep q i op res p = p := by
  unfold pendStep; split
  · exact absurd rfl (h1 _ _)
  · exact absurd rfl (h2 _ _)
  · rfl

/-- the invariant behind C04 -/
def Waits (i : Nat) (p : List String) (q : Q) : Prop :=
  i < q.next ∧ (live q i → (∀ k ∈ p, k ∈ (q.store i).remaining) ∧ (p ≠ [] → (q.store i).state = .dependent))

theorem waits_step {q : Q} {now op o i p} (e : Eff q now op o) (hi : Inv q) (hn : NoDepUpdate i q op) (h : Waits i p q) :
    Waits i (pendStep q i op o.res p) o.q := by
  refine ⟨Nat.lt_of_lt_of_le h.1 e.next_le, ?_⟩
  intro hl'
  have hl : live q i := by
    cases hdec : decide (live q i) with
    | true => simpa using hdec
    | false =>
      have hnl : ¬ live q i := by simpa using hdec
      have := (e.born hi i hnl hl').1; have := h.1; omega
  obtain ⟨hsub, hdep⟩ := h.2 hl
  by_cases hp : p = []
  · subst hp; rw [pendStep_nil]; simp
  have hdep := hdep hp
  rcases e.ok_or_fail with ⟨hq, er, hres⟩ | ⟨hok1, hok2⟩
  · rw [hres, pendStep_err, hq]; exact ⟨hsub, fun _ => hdep⟩
  have e0 := e
  cases op with
  | changeKey old new =>
    rw [hok2 old new rfl]
    cases e with
    | fail he => simp at hok2
    | move _ m _ => cases m
    | @changeKey _ _ i' q' hc hnn ho r =>
      have hst : q'.store i = (q.store i).changedKey old new := by
        rcases r.store i with ⟨_, e⟩ | ⟨_, e⟩
        · exact absurd hl e
        · exact e
      show (∀ k ∈ pendStep _ _ _ _ _, k ∈ (q'.store i).remaining) ∧ (_ → (q'.store i).state = _)
      rw [hst, changedKey_state]
      refine ⟨?_, fun _ => hdep⟩
      simp only [pendStep]
      by_cases hf : q.find old = some i
      · rw [if_pos hf]
        have : (q.store i).key = old := (hi.keyOf _ _ hf).1
        unfold Item.changedKey; rw [if_pos this]; exact hsub
      · rw [if_neg hf]
        have hne : (q.store i).key ≠ old := by intro e; apply hf; rw [← e]; exact hl
        rw [changedKey_remaining _ _ _ hne]
        intro k hk
        obtain ⟨d, hd, rfl⟩ := List.mem_map.1 hk
        have hd' := hsub d hd
        by_cases hdo : d = old
        · subst hdo; rw [if_pos rfl, if_pos hd']; simp
        · rw [if_neg hdo]
          split
          · by_cases hdn : d = new
            · subst hdn; simp
            · refine List.mem_cons_of_mem _ ?_
              simp [hd', hdo, hdn]
          · exact hd'
  | remove k ord =>
    rw [hok1 k ord rfl]
    simp only [pendStep]
    cases e0.fate hi i hl with
    | same _ e =>
      rw [e]
      exact ⟨fun x hx => hsub x (List.mem_filter.1 hx).1, fun _ => hdep⟩
    | @settle k' ord' h2 hv hne _ e =>
      injection h2 with h2 _; subst h2
      rw [e, settleDep_remaining]
      refine ⟨?_, ?_⟩
      · intro x hx
        have := List.mem_filter.1 hx
        exact List.mem_filter.2 ⟨hsub x this.1, this.2⟩
      · intro hne2
        unfold Item.settleDep
        rw [if_neg]
        · exact hdep
        · rintro ⟨_, hnil⟩
          obtain ⟨x, hx⟩ := List.exists_mem_of_ne_nil _ hne2
          have := List.mem_filter.1 hx
          have h4 : x ∈ ((q.store i).resolve k).remaining := List.mem_filter.2 ⟨hsub x this.1, this.2⟩
          rw [hnil] at h4; simp at h4
    | removed _ _ h3 => exact absurd hl' h3
    | move m => cases m
    | update h => simp at h
    | rename h => simp at h
    | due h => simp at h
    | timeout h => simp at h
    | destroyed h => simp at h
  | _ =>
    rw [pendStep_other (by simp) (by simp)]
    cases e0.fate hi i hl with
    | same _ e => rw [e]; exact ⟨hsub, fun _ => hdep⟩
    | move m _ e =>
      rw [e, m.remaining]
      refine ⟨hsub, fun _ => ?_⟩
      cases m <;> first
        | (exfalso; have hh : (q.store i).state = .run := by assumption
           rw [hdep] at hh; simp at hh)
        | (exfalso; have hh : (q.store i).state = .bury := by assumption
           rw [hdep] at hh; simp at hh)
        | (exfalso; have hh : (q.store i).state = .ready := by assumption
           rw [hdep] at hh; simp at hh)
        | exact hdep
        | (simp only; split
           · exact hdep
           · split <;> exact hdep)
    | @update _ _ _ _ _ _ ds h1 h2 _ e =>
      cases ds with
      | none => rw [e]; simp only [Item.updated, withFields_remaining, withFields_state]; exact ⟨hsub, fun _ => hdep⟩
      | some l => rw [h1] at hn; exact absurd h2 hn
    | rename h => simp at h
    | settle h => simp at h
    | removed h => simp at h
    | due _ h => rw [hdep] at h; simp at h
    | timeout _ h => rw [hdep] at h; simp at h
    | destroyed _ _ h3 => exact absurd hl' h3

theorem waits_run (i : Nat) (h : List (Int × Op)) : ∀ {q q' : Q} {p}, Inv q → Timed q → Along Safe q h → Along (NoDepUpdate i) q h →
    runFrom q h = some q' → Waits i p q → Waits i (pending i q h p) q' := by
  induction h with
  | nil => intro q q' p _ _ _ _ e w; simp [runFrom] at e; subst e; exact w
  | cons a h ih =>
    obtain ⟨now, op⟩ := a
    intro q q' p hi ht hs hn e w
    simp only [runFrom] at e
    simp only [pending]
    cases hst : step q now op with
    | none => rw [hst] at e; simp at e
    | some o =>
      rw [hst] at e
      have ef := (step_eff (now := now) hi ht hs.1).1 o hst
      exact ih (ef.inv hi) (ef.timed hi ht) (hs.2 o hst) (hn.2 o hst) e (waits_step ef hi hn.1 w)

/-- specification: the operation `op` (at time `t`, in state `q`, giving `o`) added the item `i` with dependencies `D`
(not empty), by `Add` or by `AddMany` -/
def AddedWith (q : Q) (op : Op) (o : Out) (i : Nat) (D : List String) : Prop :=
  D ≠ [] ∧ ((∃ d, op = .add d ∧ o.res = .item i ∧ d.deps = D) ∨
    (∃ ds d, op = .addMany ds ∧ q.find d.key = none ∧ ds.find? (fun x => x.key = d.key) = some d ∧ o.q.find d.key = some i ∧ d.deps = D))

theorem addedWith_start {q : Q} {now op o i D} (e : Eff q now op o) (h : AddedWith q op o i D) :
    live o.q i ∧ (o.q.store i).remaining = D.eraseDups ∧ (o.q.store i).state = .dependent ∧ i < o.q.next := by
  obtain ⟨hD, ⟨d, rfl, hres, rfl⟩ | ⟨ds, d, rfl, hf, hfind, hin, rfl⟩⟩ := h
  · cases e with
    | fail => simp at hres
    | move _ m _ => cases m
    | @add _ q' s hc hf a hsub =>
      simp only [Res.item.injEq] at hres; subst hres
      have hs : q'.store q.next = placed d now false (mkItem d now) := by rw [a.store, if_pos rfl]
      refine ⟨?_, ?_, ?_, by have := a.next; simp only; omega⟩
      · unfold live; simp only; rw [hs, placed_key, a.find, if_pos rfl]
      · simp only; rw [hs, placed_remaining]
      · simp only; rw [hs]; unfold placed; rw [if_pos hD]; rfl
  · cases e with
    | fail => exact absurd hin (by simp [hf])
    | move _ m _ => cases m
    | @addMany _ q' n l hc a =>
      have hin : q'.find d.key = some i := hin
      obtain ⟨d', h1, h2, h3⟩ := a.new _ _ hf hin
      rw [List.find?_map] at h1
      have hcomp : ((fun x : Def => decide (x.key = d.key)) ∘ fun d : Def => { d with size := 0 }) = fun x => decide (x.key = d.key) := rfl
      rw [hcomp, hfind] at h1
      simp only [Option.map_some, Option.some.injEq] at h1
      subst h1
      refine ⟨a.inv.live hin, ?_, ?_, (a.inv.keyOf _ _ hin).2⟩
      · simp only; rw [h2, placed_remaining]
      · simp only; rw [h2]; unfold placed; rw [if_pos hD]; rfl

/-- C04: an item added with dependencies stays in the dependent sub-queue (until it is removed itself), and so cannot be
reserved, as long as one of them is outstanding - for histories that do not change its dependencies by `Update`. -/
theorem C04 (h1 h2 : List (Int × Op)) (t : Int) (op : Op) (q1 q2 : Q) (o1 : Out) (i : Nat) (D : List String)
    (hs : Along Safe new (h1 ++ (t, op) :: h2)) (r1 : runFrom new h1 = some q1) (s1 : step q1 t op = some o1)
    (ha : AddedWith q1 op o1 i D) (hn : Along (NoDepUpdate i) o1.q h2) (r2 : runFrom o1.q h2 = some q2)
    (hp : pending i o1.q h2 D ≠ []) :
    (∀ s, inSub q2 s i → s = .dependent) ∧ (∀ t' g o, step q2 t' (.reserve g) = some o → o.res ≠ .item i) := by
  obtain ⟨hs1, hs2⟩ := along_append h1 _ new hs
  obtain ⟨i1, tm1⟩ := run_inv h1 inv_new timed_new hs1 r1
  have hs2 := hs2 q1 r1
  have ef1 := (step_eff (now := t) i1 tm1 hs2.1).1 o1 s1
  have st := addedWith_start ef1 ha
  have w : Waits i D o1.q := ⟨st.2.2.2, fun _ => ⟨fun k hk => by rw [st.2.1, eraseDups_mem]; exact hk, fun _ => st.2.2.1⟩⟩
  have io1 := ef1.inv i1
  have to1 := ef1.timed i1 tm1
  have hs3 := hs2.2 o1 s1
  obtain ⟨i2, tm2⟩ := run_inv h2 io1 to1 hs3 r2
  have w2 := waits_run i h2 io1 to1 hs3 hn r2 w
  have core : ∀ s, inSub q2 s i → s = .dependent := by
    intro s hin
    have := (inSub_iff i2 s i).1 hin
    rw [← this.2]; exact (w2.2 this.1).2 hp
  refine ⟨core, ?_⟩
  intro t' g o ho hres
  have ef2 := (step_eff (now := t') (op := .reserve g) i2 tm2 trivial).1 o ho
  have := core _ (reserve_eff ef2 i2 hres).1
  simp at this

/-- non-trivial instance: two dependencies, one removed, one renamed -/
example : (step new 0 (.add { key := "c", deps := ["a", "b"] })).map (fun o =>
    pending 0 o.q [(1, .add { key := "a" }), (2, .add { key := "b" }), (3, .remove "a" []), (4, .changeKey "b" "d")] ["a", "b"]) =
    some ["d"] := by decide +kernel

/-- the invariant behind C05: exactly what is outstanding is recorded -/
def WaitsExactly (i : Nat) (p : List String) (q : Q) : Prop :=
  i < q.next ∧ (live q i → ∀ k, k ∈ p ↔ k ∈ (q.store i).remaining)

theorem waitsExactly_step {q : Q} {now op o i p} (e : Eff q now op o) (hi : Inv q) (hn : NoDepUpdate i q op) (hd : DepsInv q)
    (h : WaitsExactly i p q) : WaitsExactly i (pendStep q i op o.res p) o.q := by
  refine ⟨Nat.lt_of_lt_of_le h.1 e.next_le, ?_⟩
  intro hl'
  have hl : live q i := by
    cases hdec : decide (live q i) with
    | true => simpa using hdec
    | false =>
      have hnl : ¬ live q i := by simpa using hdec
      have := (e.born hi i hnl hl').1; have := h.1; omega
  have hsub := h.2 hl
  rcases e.ok_or_fail with ⟨hq, er, hres⟩ | ⟨hok1, hok2⟩
  · rw [hres, pendStep_err, hq]; exact hsub
  have e0 := e
  cases op with
  | changeKey old new =>
    rw [hok2 old new rfl]
    cases e with
    | fail he => simp at hok2
    | move _ m _ => cases m
    | @changeKey _ _ i' q' hc hnn ho r =>
      have hst : q'.store i = (q.store i).changedKey old new := by
        rcases r.store i with ⟨_, e⟩ | ⟨_, e⟩
        · exact absurd hl e
        · exact e
      intro k
      show k ∈ pendStep _ _ _ _ _ ↔ k ∈ (q'.store i).remaining
      rw [hst]
      simp only [pendStep]
      by_cases hf : q.find old = some i
      · rw [if_pos hf]
        have : (q.store i).key = old := (hi.keyOf _ _ hf).1
        unfold Item.changedKey; rw [if_pos this]; exact hsub k
      · rw [if_neg hf]
        have hne : (q.store i).key ≠ old := by intro e; apply hf; rw [← e]; exact hl
        rw [changedKey_remaining _ _ _ hne, List.mem_map]
        constructor
        · rintro ⟨d, hd, rfl⟩
          have hd' := (hsub d).1 hd
          by_cases hdo : d = old
          · subst hdo; rw [if_pos rfl, if_pos hd']; simp
          · rw [if_neg hdo]
            split
            · by_cases hdn : d = new
              · subst hdn; simp
              · refine List.mem_cons_of_mem _ ?_
                simp [hd', hdo, hdn]
            · exact hd'
        · intro hk
          split at hk
          · rename_i hold
            rcases List.mem_cons.1 hk with hk | hk
            · subst hk; exact ⟨old, (hsub old).2 hold, by simp⟩
            · simp only [List.mem_filter, decide_eq_true_eq] at hk
              exact ⟨k, (hsub k).2 hk.1, by simp [hk.2.1]⟩
          · rename_i hold
            have : k ≠ old := by intro e; rw [e] at hk; exact hold hk
            exact ⟨k, (hsub k).2 hk, by simp [this]⟩
  | remove k ord =>
    rw [hok1 k ord rfl]
    simp only [pendStep]
    cases e0.fate hi i hl with
    | same _ hsame =>
      rw [hsame]
      intro x
      simp only [List.mem_filter, decide_eq_true_eq]
      rw [hsub x]
      constructor
      · exact fun h => h.1
      · intro hx
        refine ⟨hx, ?_⟩
        intro he; subst he
        -- it is registered, so it was visited
        have hreg := hd i hl x hx
        have hv : i ∈ q.visit x ord := by
          rw [mem_visit]; unfold reg at hreg
          exact List.mem_map.2 ⟨_, mget_mem _ _ _ hreg, rfl⟩
        cases e0 with
        | fail he => simp at hok1
        | move _ m _ => cases m
        | @remove _ _ i' added s' q' hc hf r =>
          have hst : q'.store i = q.store i := hsame
          by_cases hii : i = i'
          · subst hii
            have hdead : (q'.store i).state = .removed := by rw [r.self]; rfl
            exact r.inv.notRemoved i hl' (by simp) hdead
          · have := r.other i hii
            rw [if_pos hv, hst] at this
            have hx2 : x ∈ ((q.store i).settleDep x).remaining := by rw [← this]; exact hx
            rw [settleDep_remaining] at hx2; simp at hx2
    | @settle k' ord' h2 hv hne _ e =>
      injection h2 with h2 _; subst h2
      rw [e, settleDep_remaining]
      intro x; simp only [List.mem_filter]; rw [hsub x]
    | removed _ _ h3 => exact absurd hl' h3
    | move m => cases m
    | update h => simp at h
    | rename h => simp at h
    | due h => simp at h
    | timeout h => simp at h
    | destroyed h => simp at h
  | _ =>
    rw [pendStep_other (by simp) (by simp)]
    cases e0.fate hi i hl with
    | same _ e => rw [e]; exact hsub
    | move m _ e => rw [e, m.remaining]; exact hsub
    | @update _ _ _ _ _ _ ds h1 h2 _ e =>
      cases ds with
      | none => rw [e]; simp only [Item.updated, withFields_remaining]; exact hsub
      | some l => rw [h1] at hn; exact absurd h2 hn
    | rename h => simp at h
    | settle h => simp at h
    | removed h => simp at h
    | due _ _ _ _ e => rw [e]; exact hsub
    | timeout _ _ _ _ e => rw [e, timeout_remaining]; exact hsub
    | destroyed _ _ h3 => exact absurd hl' h3

theorem waitsExactly_run (i : Nat) (h : List (Int × Op)) : ∀ {q q' : Q} {p}, Inv q → Timed q → DepsInv q → Along Safe q h →
    Along CleanRename q h → Along (NoDepUpdate i) q h →
    runFrom q h = some q' → WaitsExactly i p q → WaitsExactly i (pending i q h p) q' := by
  induction h with
  | nil => intro q q' p _ _ _ _ _ _ e w; simp [runFrom] at e; subst e; exact w
  | cons a h ih =>
    obtain ⟨now, op⟩ := a
    intro q q' p hi ht hd hs hc hn e w
    simp only [runFrom] at e
    simp only [pending]
    cases hst : step q now op with
    | none => rw [hst] at e; simp at e
    | some o =>
      rw [hst] at e
      have ef := (step_eff (now := now) hi ht hs.1).1 o hst
      exact ih (ef.inv hi) (ef.timed hi ht) (step_deps hi hst ef hc.1 hd) (hs.2 o hst) (hc.2 o hst) (hn.2 o hst) e
        (waitsExactly_step ef hi hn.1 hd w)

/-- C05: if an item added with dependencies `D` has exactly one outstanding dependency `k`, then a successful
`Remove(k)` (of another item) makes it ready at once. For histories in which no item is renamed to a name that some item
waits for, nor is renamed while waiting for itself (`CleanRename`; see `C05_violated`). -/
theorem C05_partial (h1 h2 : List (Int × Op)) (t t' : Int) (op : Op) (q1 q2 : Q) (o1 o : Out) (i : Nat) (D : List String)
    (k : String) (order : List Nat)
    (hs : Along Safe new (h1 ++ (t, op) :: h2)) (hc : Along CleanRename new (h1 ++ (t, op) :: h2))
    (r1 : runFrom new h1 = some q1) (s1 : step q1 t op = some o1)
    (ha : AddedWith q1 op o1 i D) (hn : Along (NoDepUpdate i) o1.q h2) (r2 : runFrom o1.q h2 = some q2)
    (hin : held q2 i) (hp : ∀ d, d ∈ pending i o1.q h2 D ↔ d = k)
    (ho : step q2 t' (.remove k order) = some o) (hok : o.res = .ok) (hki : q2.find k ≠ some i) :
    inSub o.q .ready i := by
  obtain ⟨hs1, hs2⟩ := along_append h1 _ new hs
  obtain ⟨hc1, hc2⟩ := along_append h1 _ new hc
  obtain ⟨i1, tm1⟩ := run_inv h1 inv_new timed_new hs1 r1
  have d1 := run_deps h1 inv_new timed_new deps_new hs1 hc1 r1
  have hs2 := hs2 q1 r1
  have hc2 := hc2 q1 r1
  have ef1 := (step_eff (now := t) i1 tm1 hs2.1).1 o1 s1
  have st := addedWith_start ef1 ha
  have w : Waits i D o1.q := ⟨st.2.2.2, fun _ => ⟨fun k hk => by rw [st.2.1, eraseDups_mem]; exact hk, fun _ => st.2.2.1⟩⟩
  have we : WaitsExactly i D o1.q := ⟨st.2.2.2, fun _ k => by rw [st.2.1, eraseDups_mem]⟩
  have io1 := ef1.inv i1
  have to1 := ef1.timed i1 tm1
  have do1 := step_deps i1 s1 ef1 hc2.1 d1
  have hs3 := hs2.2 o1 s1
  have hc3 := hc2.2 o1 s1
  obtain ⟨i2, tm2⟩ := run_inv h2 io1 to1 hs3 r2
  have d2 := run_deps h2 io1 to1 do1 hs3 hc3 r2
  have w2 := waits_run i h2 io1 to1 hs3 hn r2 w
  have we2 := waitsExactly_run i h2 io1 to1 do1 hs3 hc3 hn r2 we
  have hl := (held_iff i2 i).1 hin
  have hkp : k ∈ pending i o1.q h2 D := (hp k).2 rfl
  have hst : (q2.store i).state = .dependent := (w2.2 hl).2 (List.ne_nil_of_mem hkp)
  have hrem : ∀ d, d ∈ (q2.store i).remaining ↔ d = k := fun d => (we2.2 hl d).symm.trans (hp d)
  have ef := (step_eff (now := t') (op := .remove k order) i2 tm2 trivial).1 o ho
  cases ef with
  | fail => simp at hok
  | move _ m _ => cases m
  | @remove _ _ i' added s' q' hcl hf r =>
    have hii : i ≠ i' := by intro e; subst e; exact hki hf
    have hv : i ∈ q2.visit k order := by
      rw [mem_visit]
      have hreg := d2 i hl k ((hrem k).2 rfl)
      unfold reg at hreg
      exact List.mem_map.2 ⟨_, mget_mem _ _ _ hreg, rfl⟩
    have hstore := r.other i hii
    rw [if_pos hv] at hstore
    show inSub q' .ready i
    rw [inSub_iff r.inv]
    have hfin : (q2.store i).settleDep k = ((q2.store i).resolve k).switchDependentReady := by
      unfold Item.settleDep
      rw [if_pos]
      refine ⟨hst, ?_⟩
      show (q2.store i).remaining.filter _ = []
      rw [List.filter_eq_nil_iff]
      intro d hd; simp [(hrem d).1 hd]
    refine ⟨?_, by rw [hstore, hfin]; rfl⟩
    have hne : (q2.store i).key ≠ k := by intro e; apply hki; rw [← e]; exact hl
    unfold live
    rw [hstore, settleDep_key, r.find, if_neg hne]; exact hl

example : ((runFrom new [(0, .add { key := "c", deps := ["a", "b"] }), (1, .add { key := "a" }), (2, .add { key := "b" }),
    (3, .remove "a" [])]).bind fun q => (step q 4 (.remove "b" [])).map fun o => ((q.store 0).state, (o.q.store 0).state)) =
    some (.dependent, .ready) := by decide +kernel

/-- C05 fails after a rename onto an awaited name: "w" waits for "new" (not yet in the queue) and "v" for "old"; "old" is
renamed to "new"; removing "new" frees "v" but not "w", which stays dependent although nothing it waits for is left. -/
theorem C05_violated : ∃ q o, runFrom new [(0, .add { key := "w", deps := ["new"] }), (1, .add { key := "old" }),
      (2, .add { key := "v", deps := ["old"] }), (3, .changeKey "old" "new")] = some q ∧
    step q 4 (.remove "new" []) = some o ∧ o.res = .ok ∧ (o.q.store 0).state = .dependent ∧ (o.q.store 2).state = .ready ∧
    (q.store 0).remaining = ["new"] := by
  have hq : ((runFrom new [(0, .add { key := "w", deps := ["new"] }), (1, .add { key := "old" }),
      (2, .add { key := "v", deps := ["old"] }), (3, .changeKey "old" "new")]).bind fun q =>
      (step q 4 (.remove "new" [])).map fun o =>
      (o.res, (o.q.store 0).state, (o.q.store 2).state, (q.store 0).remaining)) =
      some (.ok, .dependent, .ready, ["new"]) := by decide +kernel
  obtain ⟨q, e, hq⟩ := Option.bind_eq_some_iff.1 hq
  obtain ⟨o, ho, hq⟩ := Option.map_eq_some_iff.1 hq
  simp only [Prod.mk.injEq] at hq
  exact ⟨q, o, e, ho, hq.1, hq.2.1, hq.2.2.1, hq.2.2.2⟩

/-- A related defect: `Kick` looks at all dependencies ever given, not at the outstanding ones. The item "d" waits for
"a"; "a" is removed, "d" runs and is buried; then a new "a" is added and "d" is kicked: it goes to the dependent
sub-queue with nothing outstanding, and removing "a" does not free it. -/
theorem C05_violated_kick : ∃ q, runFrom new [(0, .add { key := "d", deps := ["a"] }), (1, .add { key := "a" }),
      (2, .remove "a" []), (3, .reserve ""), (4, .bury "d"), (5, .add { key := "a" }), (6, .kick "d"),
      (7, .remove "a" [])] = some q ∧ (q.store 0).state = .dependent ∧ (q.store 0).remaining = [] ∧ q.find "a" = none := by
  have hq : ((runFrom new [(0, .add { key := "d", deps := ["a"] }), (1, .add { key := "a" }),
      (2, .remove "a" []), (3, .reserve ""), (4, .bury "d"), (5, .add { key := "a" }), (6, .kick "d"),
      (7, .remove "a" [])]).map fun q => ((q.store 0).state, (q.store 0).remaining, q.find "a")) = some (.dependent, [], none) := by
    decide +kernel
  obtain ⟨q, e, hq⟩ := Option.map_eq_some_iff.1 hq
  simp only [Prod.mk.injEq] at hq
  exact ⟨q, e, hq.1, hq.2.1, hq.2.2⟩

/-! ## C10 -/

/-- C10: a successful `ChangeKey(old, new)` in any state of a safe history: the item is found under the new key and not
under the old one, other keys are unaffected, every item is in the sub-queue it was in, only keys and dependencies
change, and every other item that waited for `old` waits for `new` instead. -/
theorem C10_partial (h : List (Int × Op)) (q : Q) (hs : Along Safe new h) (hr : runFrom new h = some q) (t : Int)
    (old new : String) (o : Out) (i : Nat) (ho : step q t (.changeKey old new) = some o) (hok : o.res = .ok)
    (hi : q.find old = some i) :
    o.q.find new = some i ∧ o.q.find old = none ∧ (∀ k, k ≠ old → k ≠ new → o.q.find k = q.find k) ∧
    (∀ s j, inSub o.q s j ↔ inSub q s j) ∧
    (∀ j, held q j → ∃ deps rem, o.q.store j = { (q.store j) with
        key := if j = i then new else (q.store j).key, dependencies := deps, remaining := rem } ∧
      (j = i → deps = (q.store j).dependencies ∧ rem = (q.store j).remaining) ∧
      (j ≠ i → ∀ k, k ∈ rem ↔ (if k = new then old ∈ (q.store j).remaining ∨ new ∈ (q.store j).remaining
        else k ≠ old ∧ k ∈ (q.store j).remaining))) := by
  obtain ⟨hinv, ht⟩ := run_inv h inv_new timed_new hs hr
  have ef := (step_eff (now := t) (op := .changeKey old new) hinv ht trivial).1 o ho
  cases ef with
  | fail => simp at hok
  | move _ m _ => cases m
  | @changeKey _ _ i' q' hc hnn hold r =>
    rw [hi] at hold; injection hold with hold; subst hold
    have hne : old ≠ new := by intro e; subst e; rw [hnn] at hi; simp at hi
    have hst : ∀ j, live q j → q'.store j = (q.store j).changedKey old new := by
      intro j hl
      rcases r.store j with ⟨_, e⟩ | ⟨_, e⟩
      · exact absurd hl e
      · exact e
    refine ⟨by simp only; rw [r.find, if_pos rfl], by simp only; rw [r.find, if_neg hne, if_pos rfl],
      fun k h1 h2 => by simp only; rw [r.find, if_neg h2, if_neg h1], ?_, ?_⟩
    · intro s j
      simp only
      rw [inSub_iff r.inv, inSub_iff hinv, r.live]
      constructor
      · rintro ⟨a, b⟩; rw [hst j a, changedKey_state] at b; exact ⟨a, b⟩
      · rintro ⟨a, b⟩; exact ⟨a, by rw [hst j a, changedKey_state]; exact b⟩
    · intro j hj
      have hl := (held_iff hinv j).1 hj
      simp only
      rw [hst j hl]
      by_cases hji : j = i
      · subst hji
        refine ⟨(q.store j).dependencies, (q.store j).remaining, ?_, fun _ => ⟨rfl, rfl⟩, fun h => absurd rfl h⟩
        unfold Item.changedKey; rw [if_pos (hinv.keyOf _ _ hi).1, if_pos rfl]
      · have hkne : (q.store j).key ≠ old := by
          intro e; have h2 : q.find (q.store j).key = some j := hl
          rw [e, hi] at h2; injection h2 with h2; exact hji h2.symm
        refine ⟨((q.store j).changedKey old new).dependencies, ((q.store j).changedKey old new).remaining, ?_,
          fun h => absurd h hji, ?_⟩
        · unfold Item.changedKey; rw [if_neg hkne, if_neg hji]
        · intro _ k
          rw [changedKey_remaining _ _ _ hkne]
          by_cases hko : old ∈ (q.store j).remaining
          · rw [if_pos hko]
            by_cases hk : k = new
            · simp [hk, hko]
            · simp only [List.mem_cons, hk, false_or, List.mem_filter, decide_eq_true_eq, if_false]
              constructor
              · rintro ⟨a, b, _⟩; exact ⟨b, a⟩
              · rintro ⟨a, b⟩; exact ⟨b, a, hk⟩
          · rw [if_neg hko]
            by_cases hk : k = new
            · simp [hk, hko]
            · simp only [hk, if_false]
              constructor
              · intro a; exact ⟨fun e => hko (e ▸ a), a⟩
              · exact fun a => a.2

/-- C10, the consequence for the dependants, for histories as in C05: an item that waited only for `old` becomes ready
when `new` is removed. (This is C05 for the history with the rename in it; stated here for the direct case.) -/
theorem C10_dependants_partial (h : List (Int × Op)) (q : Q) (hs : Along Safe new h) (hc : Along CleanRename new h)
    (hr : runFrom new h = some q) (t t' : Int) (old new : String) (o o' : Out) (i j : Nat) (order : List Nat)
    (hcl : CleanRename q (.changeKey old new)) (ho : step q t (.changeKey old new) = some o) (hok : o.res = .ok)
    (hi : q.find old = some i) (hij : j ≠ i) (hj : inSub q .dependent j) (hw : ∀ k, k ∈ (q.store j).remaining ↔ k = old)
    (ho' : step o.q t' (.remove new order) = some o') : inSub o'.q .ready j := by
  obtain ⟨hinv, ht⟩ := run_inv h inv_new timed_new hs hr
  have hdeps := run_deps h inv_new timed_new deps_new hs hc hr
  have ef := (step_eff (now := t) (op := .changeKey old new) hinv ht trivial).1 o ho
  have hio := ef.inv hinv
  have hto := ef.timed hinv ht
  have hdo := step_deps hinv ho ef hcl hdeps
  obtain ⟨hl, hst⟩ := (inSub_iff hinv _ _).1 hj
  obtain ⟨c1, c2, c3, c4, c5⟩ := C10_partial h q hs hr t old new o i ho hok hi
  obtain ⟨deps, rem, e1, -, e3⟩ := c5 j ((held_iff hinv j).2 hl)
  have hj' := (c4 .dependent j).2 hj
  obtain ⟨hl', hst'⟩ := (inSub_iff hio _ _).1 hj'
  have hkey : (q.store j).key ≠ old := by
    intro e; have h2 : q.find (q.store j).key = some j := hl
    rw [e, hi] at h2; injection h2 with h2; exact hij h2.symm
  have hkk : (o.q.store j).key = (q.store j).key := by rw [e1]; simp [hij]
  have hkn : (q.store j).key ≠ new := by
    intro e; have h2 : o.q.find (o.q.store j).key = some j := hl'
    rw [hkk, e, c1] at h2; injection h2 with h2; exact hij h2.symm
  have hrem : ∀ k, k ∈ (o.q.store j).remaining ↔ k = new := by
    intro k
    have : (o.q.store j).remaining = rem := by rw [e1]
    rw [this, e3 hij k]
    by_cases hk : k = new
    · subst hk; simp [(hw old).2 rfl]
    · simp only [hk, if_false, iff_false]; rintro ⟨a, b⟩; exact a ((hw k).1 b)
  have ef' := (step_eff (now := t') (op := .remove new order) hio hto trivial).1 o' ho'
  cases ef' with
  | fail he =>
    exfalso
    have hclosed : o.q.closed = false := by
      cases ef with
      | fail => simp at hok
      | move _ m _ => cases m
      | changeKey hc _ _ r => rw [r.closed]; exact hc
    simp [expectErr, hclosed, c1] at he
  | move _ m _ => cases m
  | @remove _ _ i' added s' q' hclo hf r =>
    rw [c1] at hf; injection hf with hf; subst hf
    have hv : j ∈ o.q.visit new order := by
      rw [mem_visit]
      have hreg := hdo j hl' new ((hrem new).2 rfl)
      unfold reg at hreg
      exact List.mem_map.2 ⟨_, mget_mem _ _ _ hreg, rfl⟩
    have hstore := r.other j hij
    rw [if_pos hv] at hstore
    show inSub q' .ready j
    rw [inSub_iff r.inv]
    have hfin : (o.q.store j).settleDep new = ((o.q.store j).resolve new).switchDependentReady := by
      unfold Item.settleDep
      rw [if_pos]
      refine ⟨hst', ?_⟩
      show (o.q.store j).remaining.filter _ = []
      rw [List.filter_eq_nil_iff]
      intro d hd; simp [(hrem d).1 hd]
    refine ⟨?_, by rw [hstore, hfin]; rfl⟩
    unfold live
    rw [hstore, settleDep_key, r.find, hkk, if_neg hkn, ← hkk]; exact hl'

example : ((runFrom new [(0, .add { key := "old" }), (1, .add { key := "v", deps := ["old"] })]).bind fun q =>
    (step q 2 (.changeKey "old" "new")).bind fun o => (step o.q 3 (.remove "new" [])).map fun o' =>
    (o.q.find "new", o.q.find "old", (o.q.store 1).remaining, (o'.q.store 1).state)) =
    some (some 0, none, ["new"], .ready) := by decide +kernel

/-- C10 fails for dependants if somebody already waits for the new name (see also `C05_violated`): after the rename "w"
still waits for "new", but the queue has forgotten it. -/
theorem C10_violated : ∃ q o, runFrom new [(0, .add { key := "w", deps := ["new"] }), (1, .add { key := "old" }),
      (2, .add { key := "v", deps := ["old"] })] = some q ∧ step q 3 (.changeKey "old" "new") = some o ∧
    (o.q.store 0).remaining = ["new"] ∧ mget o.q.dependants "new" = some [("v", 2)] := by
  have hq : ((runFrom new [(0, .add { key := "w", deps := ["new"] }), (1, .add { key := "old" }),
      (2, .add { key := "v", deps := ["old"] })]).bind fun q => (step q 3 (.changeKey "old" "new")).map fun o =>
      ((o.q.store 0).remaining, mget o.q.dependants "new")) = some (["new"], some [("v", 2)]) := by decide +kernel
  obtain ⟨q, e, hq⟩ := Option.bind_eq_some_iff.1 hq
  obtain ⟨o, ho, hq⟩ := Option.map_eq_some_iff.1 hq
  simp only [Prod.mk.injEq] at hq
  exact ⟨q, o, e, ho, hq.1, hq.2⟩

theorem replaceFirst_map (old new : String) (l : List String) (h : l.Nodup) : replaceFirst old new l = l.map fun d => if d = old then new else d := by
  induction l with
  | nil => rfl
  | cons d l ih =>
    rw [List.nodup_cons] at h
    simp only [replaceFirst, List.map_cons]
    split
    · rename_i e
      subst e
      congr 1
      refine (List.map_id l).symm.trans (List.map_congr_left fun x hx => ?_)
      have : x ≠ d := fun e => h.1 (e ▸ hx)
      simp [this]
    · rw [ih h.2]

/-- C10: the dependencies that another item lists (`Dependencies()`, by which Kick decides whether the item has to wait again) carry the new key in the place of the old, if none of them was given twice. -/
theorem C10_listed_partial (h : List (Int × Op)) (q : Q) (hs : Along Safe new h) (hr : runFrom new h = some q) (t : Int)
    (old new : String) (o : Out) (i : Nat) (ho : step q t (.changeKey old new) = some o) (hok : o.res = .ok)
    (hi : q.find old = some i) (j : Nat) (hj : held q j) (hij : j ≠ i) (hd : (q.store j).dependencies.Nodup) :
    (o.q.store j).dependencies = (q.store j).dependencies.map fun d => if d = old then new else d := by
  obtain ⟨hinv, ht⟩ := run_inv h inv_new timed_new hs hr
  have ef := (step_eff (now := t) (op := .changeKey old new) hinv ht trivial).1 o ho
  cases ef with
  | fail => simp at hok
  | move _ m _ => cases m
  | changeKey _ _ hf r =>
    have hl := (held_iff hinv j).1 hj
    rcases r.store j with ⟨_, e⟩ | ⟨_, e⟩
    · exact absurd hl e
    · have hk : (q.store j).key ≠ old := by
        intro e2
        unfold live at hl
        rw [e2, hi] at hl
        injection hl with hl
        exact hij hl.symm
      simp only [e, Item.changedKey, if_neg hk]
      exact replaceFirst_map _ _ _ hd

/-- the hypotheses are met, and a dependency given twice keeps the old key once -/
theorem C10_violated_repeated : ∃ q o, runFrom new [(0, .add { key := "old" }), (1, .add { key := "v", deps := ["x", "old"] }), (2, .add { key := "w", deps := ["old", "old"] })] = some q ∧
    step q 3 (.changeKey "old" "new") = some o ∧ (o.q.store 1).dependencies = ["x", "new"] ∧ (o.q.store 2).dependencies = ["new", "old"] := by
  have hq : ((runFrom new [(0, .add { key := "old" }), (1, .add { key := "v", deps := ["x", "old"] }), (2, .add { key := "w", deps := ["old", "old"] })]).bind fun q =>
      (step q 3 (.changeKey "old" "new")).map fun o => ((o.q.store 1).dependencies, (o.q.store 2).dependencies)) = some (["x", "new"], ["new", "old"]) := by decide +kernel
  obtain ⟨q, e, hq⟩ := Option.bind_eq_some_iff.1 hq
  obtain ⟨o, ho, hq⟩ := Option.map_eq_some_iff.1 hq
  simp only [Prod.mk.injEq] at hq
  exact ⟨q, o, e, ho, hq.1, hq.2⟩

end Verif.Queue
