import Verif.Queue.Fate
/-! The dependants lookup is complete: every outstanding dependency of an item in the queue is registered there. -/
namespace Verif.Queue
open Verif.Heap

/-- who is registered under name `x` as a dependant of `k` -/
def reg (m : List (String × List (String × Nat))) (k x : String) : Option Nat := mget ((mget m k).getD []) x

/-- every outstanding dependency of an item in the queue is registered -/
def DepsInv (q : Q) : Prop := ∀ j, live q j → ∀ k ∈ (q.store j).remaining, reg q.dependants k (q.store j).key = some j

theorem reg_mset (m : List (String × List (String × Nat))) (k k' x : String) (v) :
    reg (mset m k v) k' x = if k' = k then mget v x else reg m k' x := by
  unfold reg; rw [mget_mset]; split <;> rfl

theorem reg_mdel (m : List (String × List (String × Nat))) (k k' x : String) :
    reg (mdel m k) k' x = if k' = k then none else reg m k' x := by
  unfold reg; rw [mget_mdel]; split <;> rfl

theorem reg_setQueueDeps (key : String) (i : Nat) (deps : List String) : ∀ (m : List (String × List (String × Nat))) (k x : String),
    reg (setQueueDeps m key i deps) k x = if x = key ∧ k ∈ deps then some i else reg m k x := by
  induction deps with
  | nil => intro m k x; simp [setQueueDeps]
  | cons d ds ih =>
    intro m k x
    show reg (setQueueDeps (mset m d (mset ((mget m d).getD []) key i)) key i ds) k x = _
    rw [ih, reg_mset]
    by_cases hx : x = key
    · subst hx
      by_cases hk : k ∈ ds
      · simp [hk]
      · by_cases hd : k = d
        · subst hd; simp [hk, mget_mset]
        · simp [hk, hd]
    · simp only [hx, false_and, if_false]
      split
      · rename_i h; subst h; rw [mget_mset, if_neg hx]; rfl
      · rfl

theorem reg_unlinkParents (key : String) (ps : List String) : ∀ (m : List (String × List (String × Nat))) (k x : String), x ≠ key →
    reg (unlinkParents m key ps) k x = reg m k x := by
  induction ps with
  | nil => intro m k x _; rfl
  | cons p ps ih =>
    intro m k x hx
    unfold unlinkParents
    rw [List.foldl_cons]
    cases hm : mget m p with
    | none => exact ih m k x hx
    | some inner =>
      simp only
      have hin : ∀ {y}, y ≠ key → mget (mdel inner key) y = mget inner y := by
        intro y hy; rw [mget_mdel, if_neg hy]
      split
      · rename_i he
        refine (ih _ k x hx).trans ?_
        rw [reg_mdel]
        split
        · rename_i hk; subst hk
          unfold reg; rw [hm]
          show none = mget inner x
          rw [← hin hx, he]; rfl
        · rfl
      · refine (ih _ k x hx).trans ?_
        rw [reg_mset]
        split
        · rename_i hk; subst hk
          unfold reg; rw [hm, hin hx]; rfl
        · rfl

theorem reg_dropDependants (q : Q) (key : String) (l : List String) (k x : String) (hx : x ≠ key) :
    reg (dropDependants q key l) k x = reg q.dependants k x := by
  unfold dropDependants
  generalize q.dependants = m
  induction l generalizing m with
  | nil => rfl
  | cons d l ih =>
    rw [List.foldl_cons, ih]
    split
    · simp only
      have hin : mget (mdel ((mget m d).getD []) key) x = mget ((mget m d).getD []) x := by rw [mget_mdel, if_neg hx]
      split
      · rename_i he
        rw [reg_mdel]
        split
        · rename_i hk; subst hk
          unfold reg; rw [← hin, he]; rfl
        · rfl
      · split
        · rw [reg_mset]
          split
          · rename_i hk; subst hk; rw [hin]; rfl
          · rfl
        · rfl
    · rfl

theorem mget_map_snd {β : Type} (f : β → β) (m : List (String × β)) (k : String) :
    mget (m.map fun p => (p.1, f p.2)) k = (mget m k).map f := by
  unfold mget
  induction m with
  | nil => rfl
  | cons p m ih =>
    rw [List.map_cons, List.lookup_cons, List.lookup_cons]
    by_cases h : k = p.1
    · simp [h]
    · have hb : (k == p.1) = false := by simpa using h
      simp only [hb]; exact ih

/-- the two halves of `renameDependants` -/
def outerRen (m : List (String × List (String × Nat))) (old new : String) : List (String × List (String × Nat)) :=
  match mget m old with
  | none => m
  | some v => mset (mdel m old) new v

def innerRen (old new : String) (l : List (String × Nat)) : List (String × Nat) :=
  match mget l old with
  | none => l
  | some v => mset (mdel l old) new v

theorem rename_eq (m : List (String × List (String × Nat))) (old new : String) :
    renameDependants m old new = (outerRen m old new).map fun p => (p.1, innerRen old new p.2) := rfl

theorem reg_rename (m : List (String × List (String × Nat))) (old new k x : String) (hx : x ≠ old) (hx' : x ≠ new) :
    reg (renameDependants m old new) k x = reg (outerRen m old new) k x := by
  rw [rename_eq]; unfold reg; rw [mget_map_snd]
  cases hk : mget (outerRen m old new) k with
  | none => rfl
  | some v =>
    simp only [Option.map_some, Option.getD_some]
    unfold innerRen
    split
    · rfl
    · rw [mget_mset, if_neg hx', mget_mdel, if_neg hx]

theorem reg_rename_new (m : List (String × List (String × Nat))) (old new k : String) (j : Nat)
    (h : reg (outerRen m old new) k old = some j) : reg (renameDependants m old new) k new = some j := by
  rw [rename_eq]; unfold reg at *; rw [mget_map_snd]
  cases hk : mget (outerRen m old new) k with
  | none => rw [hk] at h; simp [mget] at h
  | some v =>
    rw [hk] at h
    simp only [Option.map_some, Option.getD_some] at h ⊢
    unfold innerRen
    rw [h]; simp only; rw [mget_mset, if_pos rfl]

/-- the renaming is harmless: nobody waits on the new name, and the renamed item does not wait on itself -/
def CleanRename (q : Q) : Op → Prop
  | .changeKey old new => (∀ j, live q j → new ∉ (q.store j).remaining) ∧
      (∀ i, q.find old = some i → old ∉ (q.store i).remaining)
  | _ => True

theorem eraseDups_mem (l : List String) (k : String) : k ∈ l.eraseDups ↔ k ∈ l := List.mem_eraseDups

theorem placed_remaining (d : Def) (now : Int) (many : Bool) : (placed d now many (mkItem d now)).remaining =
    d.deps.eraseDups := by
  unfold placed
  split
  · rfl
  · rename_i h
    have h : d.deps = [] := by simpa using h
    rw [h]
    repeat' split
    all_goals simp [Item.switchReadyRun, Item.touch, Item.switchDelayReady, Item.switchRunBury, mkItem]

theorem placed_key (d : Def) (now : Int) (many : Bool) : (placed d now many (mkItem d now)).key = d.key := by
  unfold placed; repeat' split
  all_goals rfl

theorem added_deps {q q' : Q} {d : Def} {now many} (a : Added q q' d now many) (h : DepsInv q) :
    DepsInv q' := by
  intro j hl k hk
  by_cases hj : j = q.next
  · subst hj
    have hs : q'.store q.next = placed d now many (mkItem d now) := by rw [a.store, if_pos rfl]
    rw [hs, placed_remaining, eraseDups_mem] at hk
    rw [hs, placed_key, a.dependants, if_pos (by intro e; rw [e] at hk; simp at hk), reg_setQueueDeps, if_pos ⟨rfl, hk⟩]
  · have hs : q'.store j = q.store j := by rw [a.store, if_neg hj]
    have hne : (q.store j).key ≠ d.key := by
      intro e
      have h2 : q'.find (q'.store j).key = some j := hl
      rw [hs, a.find, if_pos e] at h2; injection h2 with h2; exact hj h2.symm
    have hlq : live q j := by
      have h2 : q'.find (q'.store j).key = some j := hl
      rw [hs, a.find, if_neg hne] at h2; exact h2
    rw [hs] at hk ⊢
    rw [a.dependants]
    split
    · rw [reg_setQueueDeps, if_neg (fun e => hne e.1)]; exact h j hlq k hk
    · exact h j hlq k hk

theorem addLoop_deps (now : Int) (ds : List Def) : ∀ (q : Q) (a u : Nat) (l), Inv q → DepsInv q →
    DepsInv (Q.addLoop now q ds a u l).1 := by
  induction ds with
  | nil => intro q a u l _ h; exact h
  | cons d ds ih =>
    intro q a u l hi h
    unfold Q.addLoop
    split
    · exact ih _ _ _ _ hi h
    · rename_i hf
      have hf : q.find d.key = none := by simpa using hf
      have had := (add_core hi d now true hf).1
      exact ih _ _ _ _ had.inv (added_deps had h)

theorem withDeps_remaining (ds) (it : Item) : (it.withDeps ds).remaining = ds.eraseDups := by
  unfold Item.withDeps; repeat' split
  all_goals rfl

theorem withFields_remaining (g p d t a n) (it : Item) : (it.withFields g p d t a n).remaining = it.remaining := by
  unfold Item.withFields; repeat (first | split | rfl)

theorem Move.remaining {q : Q} {now op i f evs ra res} (m : Move q now op i f evs ra res) (it : Item) :
    (f it).remaining = it.remaining := by
  cases m
  case touch => rfl
  case releaseReady => rfl
  case releaseDelay => rfl
  case bury => rfl
  case kickDep => rfl
  case kickReady => rfl
  case reserve => rfl
  case setDelay => simp only; split; rfl; split <;> rfl
  case setReserveGroup => rfl

theorem timeout_remaining (now t) (it : Item) : (it.timeout now t).remaining = it.remaining := by
  unfold Item.timeout; split <;> rfl

theorem settleDep_remaining (k) (it : Item) : (it.settleDep k).remaining = it.remaining.filter (· ≠ k) := by
  unfold Item.settleDep; split <;> rfl

theorem changedKey_remaining (o n) (it : Item) (h : it.key ≠ o) : (it.changedKey o n).remaining =
    if o ∈ it.remaining then n :: it.remaining.filter (fun d => d ≠ o ∧ d ≠ n) else it.remaining := by
  unfold Item.changedKey; rw [if_neg h]

theorem step_deps {q : Q} {now op o} (hi : Inv q) (hs : step q now op = some o) (e : Eff q now op o) (hcl : CleanRename q op)
    (h : DepsInv q) : DepsInv o.q := by
  have hio := e.inv hi
  cases e with
  | fail _ => exact h
  | add _ hf a _ => exact added_deps a h
  | @addMany ds q' n l hc a =>
    have : (Q.addLoop now q (ds.map fun d => { d with size := 0 }) 0 0 []).1 = q' := by
      simp only [step, Q.addMany, hc] at hs
      simp at hs; exact hs.1
    show DepsInv q'
    rw [← this]; exact addLoop_deps _ _ _ _ _ _ hi h
  | @move _ i' f evs ra res q' hc m mv =>
    intro j hl k hk
    have hlq : live q j := (mod_live q i' f m.key j).1 ((mv.frame.live j).1 hl)
    have hkey : (q'.store j).key = (q.store j).key := by rw [mv.frame.store, mod_key q i' f m.key]
    have hrem : (q'.store j).remaining = (q.store j).remaining := by
      rw [mv.frame.store]
      by_cases e : j = i'
      · subst e; rw [mod_self, m.remaining]
      · rw [mod_other _ _ _ _ e]
    have hk : k ∈ (q'.store j).remaining := hk
    rw [hrem] at hk
    show reg q'.dependants k (q'.store j).key = some j
    rw [hkey, mv.frame.dependants]; exact h j hlq k hk
  | @update key group data priority delay ttr deps i' q' ra hc hf u _ _ hdep =>
    intro j hl k hk
    have hkey : (q'.store j).key = (q.store j).key := by
      rw [u.store, mod_key _ _ _ (fun it => updated_key _ _ _ _ _ _ _ it)]
    have hlq : live q j := by
      have h2 : q'.find (q'.store j).key = some j := hl
      unfold Q.find at h2; rw [u.items, hkey] at h2; exact h2
    have hk : k ∈ (q'.store j).remaining := hk
    show reg q'.dependants k (q'.store j).key = some j
    rw [hkey, hdep]
    rw [u.store] at hk
    by_cases e : j = i'
    · subst e
      rw [mod_self] at hk
      unfold Item.updated at hk
      unfold updDependants
      have hkk := (hi.keyOf _ _ hf).1
      cases deps with
      | none => simp only [withFields_remaining] at hk; exact h j hlq k hk
      | some ds =>
        simp only [withFields_remaining] at hk ⊢
        cases hd : (q.store j).depsChange ds with
        | false => rw [hd] at hk; simp at hk; simp; exact h j hlq k hk
        | true =>
          rw [hd] at hk; simp only [if_true, withDeps_remaining, eraseDups_mem] at hk ⊢
          rw [reg_setQueueDeps, if_pos ⟨hkk, hk⟩]
    · have hk2 : k ∈ (q.store j).remaining := by rw [mod_other _ _ _ _ e] at hk; exact hk
      have hne : (q.store j).key ≠ key := by
        intro e2; have h2 : q.find (q.store j).key = some j := hlq
        rw [e2, hf] at h2; injection h2 with h2; exact e h2.symm
      unfold updDependants
      cases deps with
      | none => exact h j hlq k hk2
      | some ds =>
        simp only
        split
        · rw [reg_setQueueDeps, if_neg (fun e => hne e.1), reg_dropDependants _ _ _ _ _ hne]; exact h j hlq k hk2
        · exact h j hlq k hk2
  | @changeKey old new i' q' hc hn ho r =>
    obtain ⟨hc1, hc2⟩ := hcl
    intro j hl k hk
    have hlq := (r.live j).1 hl
    have hst : q'.store j = (q.store j).changedKey old new := by
      rcases r.store j with ⟨_, e⟩ | ⟨_, e⟩
      · exact absurd hlq e
      · exact e
    have hk : k ∈ (q'.store j).remaining := hk
    show reg q'.dependants k (q'.store j).key = some j
    have hki := (hi.keyOf _ _ ho).1
    have hne : old ≠ new := by intro e; subst e; rw [hn] at ho; simp at ho
    have hnew : new ∉ (q.store j).remaining := hc1 j hlq
    have hkn : (q.store j).key ≠ new := by
      intro e; have h2 : q.find (q.store j).key = some j := hlq
      rw [e, hn] at h2; simp at h2
    -- the outer map after renaming, at a key other than old and new
    have outer : ∀ k x, k ≠ old → k ≠ new → reg (outerRen q.dependants old new) k x = reg q.dependants k x := by
      intro k x h1 h2
      unfold outerRen
      cases mget q.dependants old with
      | none => rfl
      | some v => simp only; rw [reg_mset, if_neg h2, reg_mdel, if_neg h1]
    rw [r.dependants, hst, changedKey_key]
    rw [hst] at hk
    by_cases hjk : (q.store j).key = old
    · -- the renamed item itself
      have hji : j = i' := by
        have h2 : q.find (q.store j).key = some j := hlq
        rw [hjk, ho] at h2; injection h2 with h2; exact h2.symm
      subst hji
      rw [if_pos hjk]
      have hk2 : k ∈ (q.store j).remaining := by
        unfold Item.changedKey at hk; rw [if_pos hjk] at hk; exact hk
      have hko : k ≠ old := by intro e; rw [e] at hk2; exact hc2 j ho hk2
      have hkne : k ≠ new := by intro e; rw [e] at hk2; exact hnew hk2
      have hreg := h j hlq k hk2
      rw [hjk, ← outer k old hko hkne] at hreg
      exact reg_rename_new _ _ _ _ _ hreg
    · rw [if_neg hjk]
      rw [changedKey_remaining _ _ _ hjk] at hk
      rw [reg_rename _ _ _ _ _ hjk hkn]
      by_cases hold : old ∈ (q.store j).remaining
      · rw [if_pos hold] at hk
        rcases List.mem_cons.1 hk with hk | hk
        · rw [hk]
          have hreg := h j hlq old hold
          unfold outerRen
          cases hm : mget q.dependants old with
          | none => unfold reg at hreg; rw [hm] at hreg; simp [mget] at hreg
          | some v =>
            simp only
            rw [reg_mset, if_pos rfl]
            unfold reg at hreg; rw [hm] at hreg; exact hreg
        · simp only [List.mem_filter, decide_eq_true_eq] at hk
          rw [outer k _ hk.2.1 hk.2.2]; exact h j hlq k hk.1
      · rw [if_neg hold] at hk
        have hko : k ≠ old := by intro e; rw [e] at hk; exact hold hk
        have hkne : k ≠ new := by intro e; rw [e] at hk; exact hnew hk
        rw [outer k _ hko hkne]; exact h j hlq k hk
  | @remove key order i' added s' q' hc hf r =>
    intro j hl k hk
    have hk : k ∈ (q'.store j).remaining := hk
    show reg q'.dependants k (q'.store j).key = some j
    have hl2 : q'.find (q'.store j).key = some j := hl
    have hkne : (q'.store j).key ≠ key := by
      intro e; rw [r.find, if_pos e] at hl2; simp at hl2
    rw [r.find, if_neg hkne] at hl2
    have hj := hi.keyOf _ _ hl2
    have hlq : live q j := hi.live hl2
    have hji : j ≠ i' := by
      intro e; subst e; exact hkne (by rw [← hj.1]; exact (hi.keyOf _ _ hf).1)
    have hst := r.other j hji
    have hkr : k ∈ (q.store j).remaining ∧ (j ∈ q.visit key order → k ≠ key) := by
      rw [hst] at hk
      split at hk
      · rw [settleDep_remaining] at hk; simp only [List.mem_filter, decide_eq_true_eq] at hk; exact ⟨hk.1, fun _ => hk.2⟩
      · rename_i hv; exact ⟨hk, fun h => absurd h hv⟩
    have hreg := h j hlq k hkr.1
    have hkk : k ≠ key := by
      intro e; subst e
      refine hkr.2 ?_ rfl
      rw [mem_visit]
      unfold reg at hreg
      exact List.mem_map.2 ⟨_, mget_mem _ _ _ hreg, rfl⟩
    rw [r.dependants, reg_unlinkParents _ _ _ _ _ hkne, reg_mdel, if_neg hkk, ← hj.1]
    exact hreg
  | @delayTick l q' b hm =>
    intro j hl k hk
    have hst := b.store j
    have h1 : (q'.store j).key = (q.store j).key ∧ (q'.store j).remaining = (q.store j).remaining := by
      rw [hst]; split <;> exact ⟨rfl, rfl⟩
    have hlq : live q j := by
      have h2 : q'.find (q'.store j).key = some j := hl
      unfold Q.find at h2; rw [b.items, h1.1] at h2; exact h2
    show reg q'.dependants k (q'.store j).key = some j
    have hk : k ∈ (q'.store j).remaining := hk
    rw [h1.2] at hk
    rw [h1.1, b.dependants]; exact h j hlq k hk
  | @ttrTick cb l q' b _ _ =>
    intro j hl k hk
    have hst := b.store j
    have h1 : (q'.store j).key = (q.store j).key ∧ (q'.store j).remaining = (q.store j).remaining := by
      rw [hst]; split
      · exact ⟨timeout_key _ _ _, timeout_remaining _ _ _⟩
      · exact ⟨rfl, rfl⟩
    have hlq : live q j := by
      have h2 : q'.find (q'.store j).key = some j := hl
      unfold Q.find at h2; rw [b.items, h1.1] at h2; exact h2
    show reg q'.dependants k (q'.store j).key = some j
    have hk : k ∈ (q'.store j).remaining := hk
    rw [h1.2] at hk
    rw [h1.1, b.dependants]; exact h j hlq k hk
  | destroy _ _ hit _ _ _ _ =>
    intro j hl
    exfalso; unfold live Q.find at hl; simp only [hit, mget] at hl; simp at hl

theorem run_deps (h : List (Int × Op)) : ∀ {q q' : Q}, Inv q → Timed q → DepsInv q → Along Safe q h → Along CleanRename q h →
    runFrom q h = some q' → DepsInv q' := by
  induction h with
  | nil => intro q q' hi ht ho _ _ e; simp [runFrom] at e; subst e; exact ho
  | cons a h ih =>
    obtain ⟨now, op⟩ := a
    intro q q' hi ht ho hs hf e
    simp only [runFrom] at e
    cases hst : step q now op with
    | none => rw [hst] at e; simp at e
    | some o =>
      rw [hst] at e
      have ef := (step_eff (now := now) hi ht hs.1).1 o hst
      exact ih (ef.inv hi) (ef.timed hi ht) (step_deps hi hst ef hf.1 ho) (hs.2 o hst) (hf.2 o hst) e

theorem deps_new : DepsInv new := by intro j hl; simp [live, new, Q.find, mget] at hl

end Verif.Queue
