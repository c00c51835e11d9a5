import Verif.Limiter.Lemmas
/-!
# Properties C14 - C17 of the limiter package

The specification side keeps, besides the limiter, the list of lists of group names that were successfully incremented
and not yet decremented (the holders), and the limits as the callback declares them.
-/
namespace Verif.Limiter

/-- The limiter together with its environment. -/
structure World where
  mem : Groups
  cb : Callback
  /-- holders: one entry for every successful `Increment` not yet undone by `Decrement` -/
  held : List (List String)

/-- what users of a limiter do -/
inductive LOp where
  /-- `Increment(names)` (or one attempt of the waiting variant) -/
  | acquire (c : Clock) (names : List String)
  /-- `Decrement(names)` by somebody who holds them -/
  | release (names : List String)
  /-- the limit of a group is set: stored where the callback finds it, then `SetLimit` -/
  | setLimit (name : String) (limit : Int)
  /-- the limit of a group is removed: the callback no longer finds it, then `RemoveLimit` -/
  | removeLimit (name : String)
  | getLimit (name : String)
  | getLowest (names : List String)
  | getCapacity (c : Clock) (names : List String)

def wstep (w : World) : LOp → World × Bool
  | .acquire c ns =>
    let r := increment c w.cb w.mem ns
    ({ w with mem := r.1, held := if r.2 then ns :: w.held else w.held }, r.2)
  | .release ns => ({ w with mem := decrement w.mem ns, held := w.held.erase ns }, true)
  | .setLimit n l => ({ w with cb := put w.cb n (some (newCount l)), mem := setLimit w.mem n (newCount l) }, true)
  | .removeLimit n => ({ w with cb := put w.cb n none, mem := removeLimit w.mem n }, true)
  | .getLimit n => ({ w with mem := (getLimit w.cb w.mem n).1 }, true)
  | .getLowest ns => ({ w with mem := (getLowestLimit w.cb w.mem ns).1 }, true)
  | .getCapacity c ns => ({ w with mem := (getRemainingCapacity c w.cb w.mem ns).1 }, true)

/-- specification: how many holders the group has -/
def holders (held : List (List String)) (n : String) : Nat := (held.filter (n ∈ ·)).length

/-- specification: the operations as callers are expected to make them: names without repetition, only what is held is
released, a limit is a natural number, and a limit is introduced for a group that had none (or was a time window) only
while nobody holds it (see `C14_violated_new_limit`). -/
def Proper (w : World) : LOp → Prop
  | .acquire _ ns => ns.Nodup
  | .release ns => ns ∈ w.held
  | .setLimit n l => 0 ≤ l ∧ ((∃ d, w.cb n = some d ∧ d.isCount) ∨ ((w.mem n).all (·.isCount) ∧ holders w.held n = 0))
  | _ => True

def ProperRun : World → List LOp → Prop
  | _, [] => True
  | w, op :: ops => Proper w op ∧ ProperRun (wstep w op).1 ops

def wrun (w : World) : List LOp → World
  | [] => w
  | op :: ops => wrun (wstep w op).1 ops

/-- A new limiter, with a callback that gives fresh group data. -/
def wnew (cb : Callback) : World := { mem := fun _ => none, cb := cb, held := [] }

/-- the callback never makes up a count, and has no negative limits -/
def FreshCb (cb : Callback) : Prop := ∀ n d, cb n = some d → d.isCount = true → d.current = 0 ∧ 0 ≤ d.limit

/-- the limit of a counted group, as the callback declares it -/
def limitOf (cb : Callback) (n : String) : Option Int :=
  match cb n with
  | some d => if d.isCount then some d.limit else none
  | none => none

/-- the invariant: what is in memory is what the callback says, with the number of holders as count -/
structure LInv (w : World) : Prop where
  fresh : FreshCb w.cb
  stored : ∀ n g, w.mem n = some g → ∃ d, w.cb n = some d ∧ d.isValid = true ∧
    g = if d.isCount then { d with current := holders w.held n } else d
  forgot : ∀ n d, w.mem n = none → w.cb n = some d → d.isCount = true → holders w.held n = 0
  nodup : ∀ ns ∈ w.held, ns.Nodup

/-- the effective data of a group in a good world -/
theorem LInv.eff {w : World} (h : LInv w) (n : String) : eff w.cb w.mem n =
    (w.cb n).bind fun d => if d.isCount then some { d with current := holders w.held n } else if d.isValid then some d else none := by
  unfold Limiter.eff
  cases hm : w.mem n with
  | some g =>
    obtain ⟨d, h1, h2, h3⟩ := h.stored n g hm
    simp only [h1, Option.bind_some]
    by_cases hc : d.isCount = true
    · rw [if_pos hc] at h3 ⊢; rw [h3]
    · rw [if_neg hc] at h3 ⊢; rw [if_pos h2, h3]
  | none =>
    cases hcb : w.cb n with
    | none => rfl
    | some d =>
      simp only [Option.bind_some]
      by_cases hc : d.isCount = true
      · have := h.forgot n d hm hcb hc
        have hcur := (h.fresh n d hcb hc).1
        have hv : d.isValid = true := by simp [GroupData.isValid, GroupData.isCount] at hc ⊢; rw [hc]; simp
        rw [if_pos hc]; simp only [Option.filter, hv, if_true]
        rw [this]; congr 1; cases d; simp only at hcur; rw [hcur]; rfl
      · rw [if_neg hc]; simp [Option.filter]

/-- the invariant says no more about the memory than its effective data, if that is known -/
theorem linv_of {w : World} (hf : FreshCb w.cb) (hn : ∀ ns ∈ w.held, ns.Nodup)
    (he : ∀ n, Limiter.eff w.cb w.mem n = (w.cb n).bind fun d => if d.isCount then some { d with current := holders w.held n } else if d.isValid then some d else none) :
    LInv w := by
  refine ⟨hf, ?_, ?_, hn⟩
  · intro n g hg
    have := he n
    unfold Limiter.eff at this; rw [hg] at this
    simp only at this
    cases hcb : w.cb n with
    | none => rw [hcb] at this; simp at this
    | some d =>
      rw [hcb] at this; simp only [Option.bind_some] at this
      refine ⟨d, rfl, ?_, ?_⟩
      · by_cases hc : d.isCount = true
        · simp [GroupData.isValid, GroupData.isCount] at hc ⊢; rw [hc]; simp
        · rw [if_neg hc] at this; split at this
          · assumption
          · simp at this
      · by_cases hc : d.isCount = true
        · rw [if_pos hc] at this ⊢; injection this
        · rw [if_neg hc] at this ⊢; split at this
          · injection this
          · simp at this
  · intro n d hm hcb hc
    have := he n
    unfold Limiter.eff at this; rw [hm] at this
    simp only [hcb, Option.bind_some, if_pos hc] at this
    have hv : d.isValid = true := by simp [GroupData.isValid, GroupData.isCount] at hc ⊢; rw [hc]; simp
    simp only [Option.filter, hv, if_true, Option.some.injEq] at this
    have h0 := (hf n d hcb hc).1
    rw [this] at h0; simp only at h0; omega

theorem lowestLoop_eff (cb) (ns : List String) : ∀ s l, eff cb (lowestLoop cb s l ns).1 = eff cb s := by
  induction ns with
  | nil => intro s l; rfl
  | cons n ns ih =>
    intro s l; unfold lowestLoop; rw [vivify_eq]
    cases eff cb s n <;> simp only <;> rw [ih, eff_vivify]

theorem capacityLoop_eff (c cb) (ns : List String) : ∀ s l, eff cb (capacityLoop c cb s l ns).1 = eff cb s := by
  induction ns with
  | nil => intro s l; rfl
  | cons n ns ih =>
    intro s l; unfold capacityLoop; rw [vivify_eq]
    cases eff cb s n <;> simp only <;> rw [ih, eff_vivify]

theorem holders_cons (held) (ns : List String) (n) : holders (ns :: held) n = holders held n + if n ∈ ns then 1 else 0 := by
  unfold holders; by_cases h : n ∈ ns <;> simp [h]

theorem holders_erase (held) (ns : List String) (n) (h : ns ∈ held) :
    holders held n = holders (held.erase ns) n + if n ∈ ns then 1 else 0 := by
  have := List.perm_cons_erase h
  have e : holders held n = holders (ns :: held.erase ns) n := by
    unfold holders; exact (this.filter _).length_eq
  rw [e, holders_cons]

theorem wstep_inv {w : World} (h : LInv w) {op} (hp : Proper w op) : LInv (wstep w op).1 := by
  cases op with
  | getLimit n =>
    refine linv_of (w := (wstep w (.getLimit n)).1) h.fresh h.nodup (fun m => ?_)
    simp only [wstep]
    rw [← h.eff m]
    have : (getLimit w.cb w.mem n).1 = (vivify w.cb w.mem n).1 := by
      unfold getLimit; rw [vivify_eq]; cases eff w.cb w.mem n <;> rfl
    rw [this, eff_vivify]
  | getLowest ns =>
    refine linv_of (w := (wstep w (.getLowest ns)).1) h.fresh h.nodup (fun m => ?_)
    simp only [wstep, getLowestLimit]; rw [← h.eff m, lowestLoop_eff]
  | getCapacity c ns =>
    refine linv_of (w := (wstep w (.getCapacity c ns)).1) h.fresh h.nodup (fun m => ?_)
    simp only [wstep, getRemainingCapacity]; rw [← h.eff m, capacityLoop_eff]
  | acquire c ns =>
    have sp := increment_spec c w.cb w.mem ns
    have hnd : ns.Nodup := hp
    refine linv_of (w := (wstep w (.acquire c ns)).1) h.fresh ?_ (fun m => ?_)
    · simp only [wstep]; split
      · intro x hx; rcases List.mem_cons.1 hx with rfl | hx
        · exact hnd
        · exact h.nodup x hx
      · exact h.nodup
    · simp only [wstep]
      rw [sp.2 m]
      by_cases hr : (increment c w.cb w.mem ns).2 = true
      · rw [if_pos hr, if_pos hr, h.eff m]
        cases hcb : w.cb m with
        | none => rfl
        | some d =>
          simp only [Option.bind_some]
          by_cases hc : d.isCount = true
          · rw [if_pos hc, if_pos hc]
            simp only [Option.map_some, bump]
            rw [if_pos (by simpa [GroupData.isCount] using hc)]
            simp only [holders_cons]
            congr 2
            by_cases hm : m ∈ ns
            · rw [hnd.count, if_pos hm]; omega
            · rw [List.count_eq_zero_of_not_mem hm, if_neg hm]; omega
          · rw [if_neg hc, if_neg hc]
            split
            · simp only [Option.map_some, bump]; rw [if_neg hc]
            · rfl
      · rw [if_neg hr, if_neg hr]; exact h.eff m
  | release ns =>
    have hin : ns ∈ w.held := hp
    have hnd := h.nodup ns hin
    refine ⟨h.fresh, ?_, ?_, fun x hx => h.nodup x (List.mem_of_mem_erase hx)⟩
    · intro n g hg
      simp only [wstep] at hg ⊢
      have he := holders_erase w.held ns n hin
      by_cases hn : n ∈ ns
      · rw [decrement_mem ns _ n hnd hn] at hg
        obtain ⟨g0, h0, hg⟩ := Option.bind_eq_some_iff.1 hg
        obtain ⟨d, h1, h2, h3⟩ := h.stored n g0 h0
        refine ⟨d, h1, h2, ?_⟩
        unfold dec1 at hg
        split at hg
        · simp at hg
        · rename_i hd
          injection hg with hg
          rw [if_pos hn] at he
          by_cases hc : d.isCount = true
          · rw [if_pos hc] at h3 ⊢
            have hcg : g0.isCount = true := by rw [h3]; simpa [GroupData.isCount] using hc
            unfold GroupData.decrement at hg hd
            simp only [hcg, not_true_eq_false, if_false] at hg hd
            split at hg
            · rename_i hz; simp [hz] at hd
            · subst hg; subst h3; simp only; congr 1; omega
          · rw [if_neg hc] at h3 ⊢
            subst h3
            unfold GroupData.decrement at hg
            rw [if_pos (by simpa using hc)] at hg; exact hg.symm
      · rw [decrement_other ns _ n hn] at hg
        rw [if_neg hn, Nat.add_zero] at he
        rw [← he]; exact h.stored n g hg
    · intro n d hm hcb hc
      simp only [wstep] at hm ⊢
      have he := holders_erase w.held ns n hin
      by_cases hn : n ∈ ns
      · rw [decrement_mem ns _ n hnd hn] at hm
        cases h0 : w.mem n with
        | none => have := h.forgot n d h0 hcb hc; omega
        | some g0 =>
          rw [h0] at hm; simp only [Option.bind_some, dec1] at hm
          split at hm
          · rename_i hd
            obtain ⟨d', h1, h2, h3⟩ := h.stored n g0 h0
            have hcb' : w.cb n = some d := hcb
            rw [hcb'] at h1; injection h1 with h1; subst h1
            rw [if_pos hc] at h3
            rw [if_pos hn] at he
            have hcg : g0.isCount = true := by rw [h3]; simpa [GroupData.isCount] using hc
            unfold GroupData.decrement at hd
            simp only [hcg, not_true_eq_false, if_false] at hd
            split at hd
            · rename_i hz; rw [h3] at hz; simp only at hz; omega
            · rw [h3] at hd; simp only [decide_eq_true_eq] at hd; omega
          · simp at hm
      · rw [decrement_other ns _ n hn] at hm
        rw [if_neg hn, Nat.add_zero] at he
        rw [← he]; exact h.forgot n d hm hcb hc
  | removeLimit n =>
    refine ⟨?_, ?_, ?_, h.nodup⟩
    · intro m d hd
      simp only [wstep, put] at hd
      split at hd
      · simp at hd
      · exact h.fresh m d hd
    · intro m g hg
      simp only [wstep, removeLimit, put] at hg ⊢
      split at hg
      · simp at hg
      · rename_i hne; rw [if_neg hne]; exact h.stored m g hg
    · intro m d hm hd
      simp only [wstep, removeLimit, put] at hm hd
      split at hd
      · simp at hd
      · rename_i hne; rw [if_neg hne] at hm; exact h.forgot m d hm hd
  | setLimit n l =>
    obtain ⟨hl, hk⟩ := hp
    have hnc : newCount l = { mode := .count, limit := l } := by unfold newCount; rw [if_neg (by omega)]
    refine ⟨?_, ?_, ?_, h.nodup⟩
    · intro m d hd hc
      simp only [wstep, put] at hd
      split at hd
      · injection hd with hd; subst hd; rw [hnc]; exact ⟨rfl, hl⟩
      · exact h.fresh m d hd hc
    · intro m g hg
      simp only [wstep, setLimit] at hg ⊢
      by_cases hmn : m = n
      · subst hmn
        refine ⟨newCount l, by simp [put], by rw [hnc]; rfl, ?_⟩
        rw [hnc]; simp only [GroupData.isCount, decide_true, if_true]
        cases h0 : w.mem m with
        | none =>
          rw [h0] at hg; simp only [put, if_true, Option.some.injEq] at hg
          rw [← hg, hnc]
          congr 1
          rcases hk with ⟨d, hd, hdc⟩ | ⟨_, hk⟩
          · rw [h.forgot m d h0 hd hdc]; rfl
          · rw [hk]; rfl
        | some g0 =>
          rw [h0] at hg; simp only [put, if_true, Option.some.injEq] at hg
          obtain ⟨d', h1, h2, h3⟩ := h.stored m g0 h0
          rcases hk with ⟨d, hd, hdc⟩ | ⟨hk1, hk2⟩
          · rw [hd] at h1; injection h1 with h1; subst h1
            rw [if_pos hdc] at h3
            rw [← hg, h3, hnc]
            cases d; simp only [GroupData.isCount, decide_eq_true_eq] at hdc; subst hdc; rfl
          · rw [h0] at hk1; simp only [Option.all_some] at hk1
            have hdc : d'.isCount = true := by
              by_cases hc : d'.isCount = true
              · exact hc
              · rw [if_neg hc] at h3; rw [h3] at hk1; exact absurd hk1 hc
            rw [if_pos hdc] at h3
            rw [← hg, h3, hnc]
            cases d'; simp only [GroupData.isCount, decide_eq_true_eq] at hdc; subst hdc; rfl
      · have hg' : w.mem m = some g := by
          revert hg; cases w.mem n <;> simp [put, hmn]
        simp only [put, if_neg hmn]; exact h.stored m g hg'
    · intro m d hm hd
      simp only [wstep, setLimit] at hm hd
      by_cases hmn : m = n
      · subst hmn; revert hm; cases w.mem m <;> simp [put]
      · have hm' : w.mem m = none := by
          revert hm; cases w.mem n <;> simp [put, hmn]
        simp only [put, if_neg hmn] at hd
        exact h.forgot m d hm' hd

theorem wrun_inv (ops : List LOp) : ∀ {w : World}, LInv w → ProperRun w ops → LInv (wrun w ops) := by
  induction ops with
  | nil => intro w h _; exact h
  | cons op ops ih => intro w h hp; exact ih (wstep_inv h hp.1) hp.2

theorem linv_new {cb} (hf : FreshCb cb) : LInv (wnew cb) :=
  ⟨hf, by intro n g h; simp [wnew] at h, by intro n d _ _ _; rfl, by intro ns h; simp [wnew] at h⟩

/-- C14. After any proper history on a new limiter, `Increment(names)` succeeds exactly if every counted group in the
list has fewer holders than its limit and every window group in the list admits (`canIncrement`; see C17 for the
windows); if it succeeds then every counted group in the list has at most `limit` holders, the caller included; if it
fails, nothing changes (same effective data for every group, same holders). -/
theorem C14_partial (cb : Callback) (hf : FreshCb cb) (ops : List LOp) (hp : ProperRun (wnew cb) ops) (c : Clock)
    (names : List String) :
    let w := wrun (wnew cb) ops
    let r := wstep w (.acquire c names)
    (r.2 = true ↔ (∀ n ∈ names, ∀ l, limitOf w.cb n = some l → (holders w.held n : Int) < l) ∧
      (∀ n ∈ names, ∀ d, w.cb n = some d → d.isValid = true → d.isCount = false → d.canIncrement c = true)) ∧
    (r.2 = true → r.1.held = names :: w.held ∧ ∀ n ∈ names, ∀ l, limitOf w.cb n = some l → (holders r.1.held n : Int) ≤ l) ∧
    (r.2 = false → r.1.held = w.held ∧ ∀ n, eff r.1.cb r.1.mem n = eff w.cb w.mem n) := by
  intro w r
  have hi : LInv w := wrun_inv ops (linv_new hf) hp
  have sp := increment_spec c w.cb w.mem names
  have hiff : r.2 = true ↔ (∀ n ∈ names, ∀ l, limitOf w.cb n = some l → (holders w.held n : Int) < l) ∧
      (∀ n ∈ names, ∀ d, w.cb n = some d → d.isValid = true → d.isCount = false → d.canIncrement c = true) := by
    show (increment c w.cb w.mem names).2 = true ↔ _
    rw [sp.1]
    constructor
    · intro h
      constructor
      · intro n hn l hl
        unfold limitOf at hl
        cases hcb : w.cb n with
        | none => rw [hcb] at hl; simp at hl
        | some d =>
          rw [hcb] at hl; simp only at hl
          split at hl
          · rename_i hc
            injection hl with hl
            have he := hi.eff n
            rw [hcb] at he; simp only [Option.bind_some, if_pos hc] at he
            have := h n hn _ he
            unfold GroupData.canIncrement at this
            have hm : d.mode = .count := by simpa [GroupData.isCount] using hc
            simp only [hm, decide_eq_true_eq] at this
            rw [← hl]; exact this
          · simp at hl
      · intro n hn d hcb hv hc
        have he := hi.eff n
        rw [hcb] at he; simp only [Option.bind_some, hc, hv] at he
        exact h n hn d he
    · rintro ⟨h1, h2⟩ n hn g hg
      have he := hi.eff n
      rw [hg] at he
      obtain ⟨d, hd, he⟩ := Option.bind_eq_some_iff.1 he.symm
      by_cases hc : d.isCount = true
      · rw [if_pos hc] at he; injection he with he
        have := h1 n hn d.limit (by unfold limitOf; rw [hd]; simp [hc])
        have hm : d.mode = .count := by simpa [GroupData.isCount] using hc
        rw [← he]; unfold GroupData.canIncrement; simp only [hm, decide_eq_true_eq]; exact this
      · rw [if_neg hc] at he; split at he
        · injection he with he; subst he
          exact h2 n hn d hd (by assumption) (by simpa using hc)
        · simp at he
  refine ⟨hiff, ?_, ?_⟩
  · intro hr
    have hr' : (increment c w.cb w.mem names).2 = true := hr
    have hheld : r.1.held = names :: w.held := by
      show (if (increment c w.cb w.mem names).2 then names :: w.held else w.held) = _
      rw [if_pos hr']
    refine ⟨hheld, ?_⟩
    intro n hn l hl
    rw [hheld, holders_cons, if_pos hn]
    have := (hiff.1 hr).1 n hn l hl
    omega
  · intro hr
    have hr' : (increment c w.cb w.mem names).2 = false := hr
    refine ⟨?_, fun n => ?_⟩
    · show (if (increment c w.cb w.mem names).2 then names :: w.held else w.held) = _
      rw [hr']; rfl
    · show eff w.cb (increment c w.cb w.mem names).1 n = _
      rw [sp.2 n, hr']; rfl

/-- the operation leaves the limits alone -/
def keepsLimits : LOp → Bool
  | .setLimit .. => false
  | .removeLimit .. => false
  | _ => true

theorem keeps_cb (ops : List LOp) : ∀ (w : World), (∀ op ∈ ops, keepsLimits op = true) → (wrun w ops).cb = w.cb := by
  induction ops with
  | nil => intro w _; rfl
  | cons op ops ih =>
    intro w h
    rw [wrun, ih _ (fun o ho => h o (List.mem_cons_of_mem _ ho))]
    have := h op (by simp)
    cases op <;> simp [wstep, keepsLimits] at this ⊢

/-- C14, the consequence: while limits are not changed, no group ever has more holders than its limit. -/
theorem C14_holders_partial (cb : Callback) (hf : FreshCb cb) (ops : List LOp) (hp : ProperRun (wnew cb) ops)
    (hk : ∀ op ∈ ops, keepsLimits op = true) (n : String) (l : Int) (hl : limitOf cb n = some l) :
    (holders (wrun (wnew cb) ops).held n : Int) ≤ l := by
  have key : ∀ (ops : List LOp) (w : World), LInv w → ProperRun w ops → (∀ op ∈ ops, keepsLimits op = true) → w.cb = cb →
      (holders w.held n : Int) ≤ l → (holders (wrun w ops).held n : Int) ≤ l := by
    intro ops
    induction ops with
    | nil => intro w _ _ _ _ h; exact h
    | cons op ops ih =>
      intro w hi hp hk hcb h
      have hk1 := hk op (by simp)
      refine ih _ (wstep_inv hi hp.1) hp.2 (fun o ho => hk o (List.mem_cons_of_mem _ ho)) ?_ ?_
      · rw [← hcb]; cases op <;> simp [wstep, keepsLimits] at hk1 ⊢
      · cases op with
        | acquire c ns =>
          simp only [wstep]
          split
          · rename_i hr
            rw [holders_cons]
            by_cases hn : n ∈ ns
            · have sp := (increment_spec c w.cb w.mem ns).1.1 hr n hn
              unfold limitOf at hl
              rw [← hcb] at hl
              cases hcbn : w.cb n with
              | none => rw [hcbn] at hl; simp at hl
              | some d =>
                rw [hcbn] at hl; simp only at hl
                split at hl
                · rename_i hc
                  injection hl with hl
                  have he := hi.eff n
                  rw [hcbn] at he; simp only [Option.bind_some, if_pos hc] at he
                  have := sp _ he
                  unfold GroupData.canIncrement at this
                  have hm : d.mode = .count := by simpa [GroupData.isCount] using hc
                  simp only [hm, decide_eq_true_eq] at this
                  rw [if_pos hn]; omega
                · simp at hl
            · rw [if_neg hn]; exact h
          · exact h
        | release ns =>
          simp only [wstep]
          have := holders_erase w.held ns n hp.1
          omega
        | setLimit => simp [keepsLimits] at hk1
        | removeLimit => simp [keepsLimits] at hk1
        | getLimit => exact h
        | getLowest => exact h
        | getCapacity => exact h
  refine key ops _ (linv_new hf) hp hk rfl ?_
  unfold limitOf at hl
  cases hcb : cb n with
  | none => rw [hcb] at hl; simp at hl
  | some d =>
    rw [hcb] at hl; simp only at hl
    split at hl
    · injection hl with hl
      have := (hf n d hcb (by assumption)).2
      show ((holders [] n : Nat) : Int) ≤ l
      simp [holders]; omega
    · simp at hl

/-- the callback of the examples: group "a" has limit 2, "b" has limit 1, "w" is the window 10 < time < 20 -/
def demoCb : Callback := fun n =>
  if n = "a" then some (newCount 2) else if n = "b" then some (newCount 1)
  else if n = "w" then some { mode := .betweenTimes, current := 10, limit := 20 } else none

theorem demoCb_fresh : FreshCb demoCb := by
  intro n d h hc
  unfold demoCb newCount at h
  split at h
  · simp at h; subst h; simp
  · split at h
    · simp at h; subst h; simp
    · split at h
      · simp at h; subst h; simp [GroupData.isCount] at hc
      · simp at h

def demoOps : List LOp :=
  [.acquire ⟨15, 0⟩ ["a", "b"], .acquire ⟨15, 0⟩ ["a", "w", "free"], .acquire ⟨15, 0⟩ ["a"], .release ["a", "b"],
   .setLimit "b" 3, .acquire ⟨15, 0⟩ ["b", "a"]]

example : ProperRun (wnew demoCb) demoOps := by
  simp only [demoOps, ProperRun, Proper]
  refine ⟨by decide, by decide, by decide, by decide, ⟨by decide, ?_⟩, by decide, trivial⟩
  exact Or.inl ⟨newCount 1, rfl, rfl⟩

example : let w := wrun (wnew demoCb) demoOps
    holders w.held "a" = 2 ∧ holders w.held "b" = 1 ∧ (w.mem "b").map (fun g => (g.current, g.limit)) = some (1, 3) ∧
      (wstep w (.acquire ⟨15, 0⟩ ["b", "a"])).2 = false ∧ (wstep w (.acquire ⟨15, 0⟩ ["b", "w"])).2 = true ∧
      (wstep w (.acquire ⟨25, 0⟩ ["w"])).2 = false := by decide +kernel

/-- C14 fails when a name is repeated in the list: the limit is 1 and a single `Increment` counts 2. -/
theorem C14_violated_duplicate : (increment ⟨0, 0⟩ demoCb (fun _ => none) ["b", "b"]).2 = true ∧
    (increment ⟨0, 0⟩ demoCb (fun _ => none) ["b", "b"]).1 "b" = some { mode := .count, limit := 1, current := 2 } := by
  decide +kernel

/-- C14 fails when a limit is given to a group that has holders from the time it had none: two `Increment`s made while
the limit is 1 are both held. -/
theorem C14_violated_new_limit :
    let w := wrun (wnew fun _ => none) [.acquire ⟨0, 0⟩ ["g", "x"], .setLimit "g" 1, .acquire ⟨0, 0⟩ ["g"], .release ["g", "x"],
      .acquire ⟨0, 0⟩ ["g", "y"]]
    w.held = [["g", "y"], ["g"]] ∧ holders w.held "g" = 2 ∧ limitOf w.cb "g" = some 1 := by
  decide +kernel

/-! ## C15 -/

/-- the count of a group: how often it was incremented, as far as the limiter knows -/
def countOf (cb : Callback) (s : Groups) (n : String) : Int :=
  match eff cb s n with
  | some g => if g.isCount then g.current else 0
  | none => 0

theorem eff_isCount_mem {cb : Callback} (hf : FreshCb cb) {s : Groups} {n g} (h : eff cb s n = some g) (hc : g.isCount = true)
    (hne : g.current ≠ 0) : s n = some g := by
  unfold eff at h
  cases hs : s n with
  | some g' => rw [hs] at h; exact h
  | none =>
    rw [hs] at h; simp only at h
    cases hcb : cb n with
    | none => rw [hcb] at h; simp at h
    | some d =>
      rw [hcb] at h
      by_cases hv : d.isValid = true
      · simp [Option.filter, hv] at h; subst h; exact absurd (hf n d hcb hc).1 hne
      · simp [Option.filter, hv] at h

/-- C15: `Decrement(names)` right after a successful `Increment(names)` restores the count of every group, in any state
whose counts are not negative. -/
theorem C15_undo (c : Clock) (cb : Callback) (hf : FreshCb cb) (s : Groups) (names : List String) (hn : names.Nodup)
    (hpos : ∀ n g, s n = some g → g.isCount = true → 0 ≤ g.current) (hok : (increment c cb s names).2 = true) (n : String) :
    countOf cb (decrement (increment c cb s names).1 names) n = countOf cb s n := by
  have sp := (increment_spec c cb s names).2 n
  rw [if_pos hok] at sp
  generalize hs' : (increment c cb s names).1 = s' at sp
  unfold countOf
  by_cases hin : n ∈ names
  · have hd := decrement_mem names s' n hn hin
    cases he : eff cb s n with
    | none =>
      rw [he] at sp
      have h1 : s' n = none := by
        unfold eff at sp; cases h : s' n with
        | none => rfl
        | some g => rw [h] at sp; simp at sp
      rw [h1] at hd
      have : eff cb (decrement s' names) n = eff cb s' n := by unfold eff; rw [hd, h1]; rfl
      rw [this, sp]; rfl
    | some g =>
      rw [he] at sp
      simp only [Option.map_some] at sp
      by_cases hc : g.isCount = true
      · have hb : bump names n g = { g with current := g.current + 1 } := by
          unfold bump; rw [if_pos hc, hn.count, if_pos hin]; rfl
        rw [hb] at sp
        have hcur : 0 ≤ g.current := by
          unfold eff at he
          cases h0 : s n with
          | some g0 => rw [h0] at he; injection he with he; subst he; exact hpos n g0 h0 hc
          | none =>
            rw [h0] at he; simp only at he
            cases hcb : cb n with
            | none => rw [hcb] at he; simp at he
            | some d =>
              rw [hcb] at he
              by_cases hv : d.isValid = true
              · simp [Option.filter, hv] at he; subst he; rw [(hf n d hcb hc).1]; omega
              · simp [Option.filter, hv] at he
        have hm := eff_isCount_mem hf sp (by simpa [GroupData.isCount] using hc) (by simp only; omega)
        rw [hm] at hd
        simp only [Option.bind_some, dec1, GroupData.decrement, GroupData.isCount] at hd
        simp only [GroupData.isCount] at hc
        simp only [hc, not_true_eq_false, if_false] at hd
        rw [if_neg (show ¬ g.current + 1 = 0 by omega)] at hd
        simp only [decide_eq_true_eq] at hd
        simp only [GroupData.isCount, hc, if_true]
        split at hd
        · -- forgotten: the count was zero
          have hz : g.current = 0 := by omega
          unfold eff; rw [hd]; simp only
          cases hcb : cb n with
          | none => simp [hz]
          | some d =>
            by_cases hv : d.isValid = true
            · simp only [Option.filter, hv, if_true]
              by_cases hdc : decide (d.mode = .count) = true
              · have := (hf n d hcb (by simpa [GroupData.isCount] using hdc)).1
                simp [this, hz]
              · simp [hdc, hz]
            · simp [Option.filter, hv, hz]
        · unfold eff; rw [hd]; simp only [hc, if_true]; omega
      · have hb : bump names n g = g := by unfold bump; rw [if_neg hc]
        rw [hb] at sp
        have : eff cb (decrement s' names) n = eff cb s' n := by
          unfold eff; rw [hd]
          cases h : s' n with
          | none => rfl
          | some g' =>
            have : g' = g := by unfold eff at sp; rw [h] at sp; simpa using sp
            subst this
            simp only [Option.bind_some, dec1, GroupData.decrement]
            simp [hc]
        rw [this, sp]
  · have hd := decrement_other names s' n hin
    have : eff cb (decrement s' names) n = eff cb s' n := by unfold eff; rw [hd]
    rw [this, sp]
    cases he : eff cb s n with
    | none => rfl
    | some g =>
      simp only [Option.map_some]
      unfold bump
      split
      · rename_i hc
        rw [List.count_eq_zero_of_not_mem hin]
        simp only [GroupData.isCount] at hc ⊢
        simp [hc]
      · rfl

/-- C15: no sequence of calls whatever (repeated names, unheld releases, any limits, any callback that has no negative
counts) makes a count negative. -/
theorem C15_nonneg (cb : Callback) (hcb : ∀ n d, cb n = some d → d.isCount = true → 0 ≤ d.current) (s : Groups)
    (hs : ∀ n g, s n = some g → g.isCount = true → 0 ≤ g.current) (names : List String) (c : Clock) :
    (∀ n g, decrement s names n = some g → g.isCount = true → 0 ≤ g.current) ∧
    (∀ n g, (increment c cb s names).1 n = some g → g.isCount = true → 0 ≤ g.current) := by
  constructor
  · induction names generalizing s with
    | nil => exact hs
    | cons m ms ih =>
      unfold decrement
      cases h : s m with
      | none => exact ih s hs
      | some g0 =>
        apply ih
        intro n g hg hc
        simp only [put] at hg
        split at hg
        · split at hg
          · simp at hg
          · injection hg with hg
            have h0 := hs m g0 h
            subst hg
            unfold GroupData.decrement at hc ⊢
            by_cases hcc : g0.isCount = true
            · have := h0 hcc
              simp only [hcc, not_true_eq_false, if_false]
              split <;> simp only <;> omega
            · rw [if_pos hcc] at hc
              exact absurd hc hcc
        · exact hs n g hg hc
  · have heff : ∀ n g, eff cb s n = some g → g.isCount = true → 0 ≤ g.current := by
      intro n g h hc
      unfold eff at h
      cases h0 : s n with
      | some g0 => rw [h0] at h; injection h with h; subst h; exact hs n g0 h0 hc
      | none =>
        rw [h0] at h; simp only at h
        cases hcb' : cb n with
        | none => rw [hcb'] at h; simp at h
        | some d =>
          rw [hcb'] at h
          by_cases hv : d.isValid = true
          · simp [Option.filter, hv] at h; subst h; exact hcb n d hcb' hc
          · simp [Option.filter, hv] at h
    intro n g hg hc
    have he : eff cb (increment c cb s names).1 n = some g := by unfold eff; rw [hg]
    have sp := (increment_spec c cb s names).2 n
    rw [he] at sp
    split at sp
    · obtain ⟨g0, h0, hb⟩ := Option.map_eq_some_iff.1 sp.symm
      unfold bump at hb
      split at hb
      · rename_i hc0
        have := heff n g0 h0 hc0
        rw [← hb]; simp only; omega
      · rename_i hc0; rw [← hb] at hc; exact absurd hc hc0
    · exact heff n g sp.symm hc

/-- C15: groups that are not known are ignored. -/
theorem C15_unknown (s : Groups) (names : List String) (h : ∀ n ∈ names, s n = none) : decrement s names = s := by
  induction names with
  | nil => rfl
  | cons m ms ih =>
    unfold decrement; rw [h m (by simp)]; exact ih (fun n hn => h n (List.mem_cons_of_mem _ hn))

example : (increment ⟨15, 0⟩ demoCb (fun _ => none) ["a", "b", "w", "zzz"]).2 = true := by decide +kernel

/-! ## C16 -/

/-- `Increment(names)` `k` times, all of which must succeed -/
def incrementTimes (c : Clock) (cb : Callback) (s : Groups) (names : List String) : Nat → Option Groups
  | 0 => some s
  | k + 1 => if (increment c cb s names).2 then incrementTimes c cb (increment c cb s names).1 names k else none

/-- the smallest capacity, as the loop computes it when no group reports -1 -/
theorem capacityLoop_spec (c cb) (names : List String) : ∀ (s : Groups) (l : Int),
    (∀ n ∈ names, ∀ g, eff cb s n = some g → 0 ≤ g.capacity c) →
    let r := (capacityLoop c cb s l names).2
    (r = -1 → l = -1 ∧ ∀ n ∈ names, eff cb s n = none) ∧
    (-1 ≤ l → r ≠ -1 → 0 ≤ r ∧ (l ≠ -1 → r ≤ l) ∧ (∀ n ∈ names, ∀ g, eff cb s n = some g → r ≤ g.capacity c) ∧
      ((l ≠ -1 ∧ r = l) ∨ ∃ n ∈ names, ∃ g, eff cb s n = some g ∧ r = g.capacity c)) := by
  induction names with
  | nil => intro s l _; exact ⟨fun h => ⟨h, by simp⟩, fun h1 h2 => ⟨by simp only [capacityLoop] at h2 ⊢; omega, by simp [capacityLoop], by simp, Or.inl ⟨h2, rfl⟩⟩⟩
  | cons m ms ih =>
    intro s l hcap
    simp only
    unfold capacityLoop
    rw [vivify_eq]
    have hv := eff_vivify cb s m
    cases he : eff cb s m with
    | none =>
      simp only
      have := ih (vivify cb s m).1 l (by rw [hv]; exact fun n hn => hcap n (List.mem_cons_of_mem _ hn))
      rw [hv] at this
      simp only at this
      refine ⟨fun h => ⟨(this.1 h).1, ?_⟩, fun h1 h2 => ?_⟩
      · intro n hn; rcases List.mem_cons.1 hn with rfl | hn
        · exact he
        · exact (this.1 h).2 n hn
      · obtain ⟨a, b, c', d⟩ := this.2 h1 h2
        refine ⟨a, b, ?_, ?_⟩
        · intro n hn g hg; rcases List.mem_cons.1 hn with rfl | hn
          · rw [he] at hg; simp at hg
          · exact c' n hn g hg
        · rcases d with d | ⟨n, hn, g, hg, e⟩
          · exact Or.inl d
          · exact Or.inr ⟨n, List.mem_cons_of_mem _ hn, g, hg, e⟩
    | some g =>
      have h0 := hcap m (by simp) g he
      simp only
      generalize hl' : (if l = -1 ∨ g.capacity c < l then g.capacity c else l) = l'
      have hl'0 : -1 ≤ l → 0 ≤ l' := by intro h; rw [← hl']; split <;> omega
      have hl'n : l' ≠ -1 := by rw [← hl']; split <;> omega
      have hlm : l' ≤ g.capacity c := by rw [← hl']; split <;> omega
      have := ih (vivify cb s m).1 l' (by rw [hv]; exact fun n hn => hcap n (List.mem_cons_of_mem _ hn))
      rw [hv] at this
      simp only at this
      refine ⟨fun h => absurd (this.1 h).1 hl'n, fun h1 h2 => ?_⟩
      obtain ⟨a, b, c', d⟩ := this.2 (by have := hl'0 h1; omega) h2
      have b' := b hl'n
      refine ⟨a, ?_, ?_, ?_⟩
      · intro hl
        have : l' ≤ l := by rw [← hl']; split <;> omega
        exact Int.le_trans b' this
      · intro n hn g' hg; rcases List.mem_cons.1 hn with rfl | hn
        · rw [he] at hg; injection hg with hg; subst hg; omega
        · exact c' n hn g' hg
      · rcases d with ⟨_, d⟩ | ⟨n, hn, g', hg, e⟩
        · by_cases hx : l = -1 ∨ g.capacity c < l
          · rw [if_pos hx] at hl'; exact Or.inr ⟨m, by simp, g, he, d.trans hl'.symm⟩
          · rw [if_neg hx] at hl'; exact Or.inl ⟨by omega, d.trans hl'.symm⟩
        · exact Or.inr ⟨n, List.mem_cons_of_mem _ hn, g', hg, e⟩

theorem bump_capacity {c names n g} (hn : names.Nodup) (hin : n ∈ names) (hcap : 1 ≤ g.capacity c) :
    (bump names n g).capacity c = g.capacity c - 1 := by
  unfold GroupData.capacity at hcap
  split at hcap
  · rename_i hci
    split at hcap
    · rename_i hc
      have hm : g.mode = .count := by simpa [GroupData.isCount] using hc
      unfold bump GroupData.capacity GroupData.canIncrement
      simp only [hn.count, if_pos hin, GroupData.isCount, hm, decide_true, if_true]
      simp only [decide_eq_true_eq]
      split <;> split <;> omega
    · omega
  · omega

theorem capacity_pos_can {c} {g : GroupData} (h : 0 ≤ g.capacity c) : g.canIncrement c = true ↔ 1 ≤ g.capacity c := by
  unfold GroupData.capacity at *
  by_cases hci : g.canIncrement c = true
  · rw [if_pos hci] at h ⊢
    simp only [hci, true_iff]
    split at h
    · rename_i hc
      have hm : g.mode = .count := by simpa [GroupData.isCount] using hc
      unfold GroupData.canIncrement at hci
      simp only [hm, decide_eq_true_eq] at hci
      simp only [hc, if_true]; omega
    · omega
  · simp [hci]

/-- C16, for lists of names without repetition and without an open time window (an open window reports capacity -1,
which the loop confuses with "no limit seen yet": `C16_violated`). The clock is the same for all calls. -/
theorem C16_partial (c : Clock) (cb : Callback) (s : Groups) (names : List String) (hn : names.Nodup)
    (hw : ∀ n ∈ names, ∀ g, eff cb s n = some g → g.isCount = true ∨ g.canIncrement c = false) :
    let r := (getRemainingCapacity c cb s names).2
    (r = -1 → ∀ k, (incrementTimes c cb (getRemainingCapacity c cb s names).1 names k).isSome) ∧
    (r ≠ -1 → 0 ≤ r ∧ (incrementTimes c cb (getRemainingCapacity c cb s names).1 names r.toNat).isSome ∧
      incrementTimes c cb (getRemainingCapacity c cb s names).1 names (r.toNat + 1) = none) := by
  have hcap : ∀ n ∈ names, ∀ g, eff cb s n = some g → 0 ≤ g.capacity c := by
    intro n hin g hg
    unfold GroupData.capacity
    rcases hw n hin g hg with hc | hc
    · simp only [hc, if_true]
      split
      · rename_i hci
        have hm : g.mode = .count := by simpa [GroupData.isCount] using hc
        unfold GroupData.canIncrement at hci
        simp only [hm, decide_eq_true_eq] at hci; omega
      · omega
    · simp [hc]
  have sp := capacityLoop_spec c cb names s (-1) hcap
  have hee : eff cb (getRemainingCapacity c cb s names).1 = eff cb s := capacityLoop_eff c cb names s (-1)
  intro r
  have hr : r = (capacityLoop c cb s (-1) names).2 := rfl
  clear_value r
  constructor
  · intro h
    have hnone := (sp.1 (hr ▸ h)).2
    intro k
    generalize hs' : (getRemainingCapacity c cb s names).1 = s' at hee
    have key : ∀ (k : Nat) (s' : Groups), eff cb s' = eff cb s → (incrementTimes c cb s' names k).isSome := by
      intro k
      induction k with
      | zero => intro s' _; rfl
      | succ k ih =>
        intro s' he
        have hi := increment_spec c cb s' names
        have ht : (increment c cb s' names).2 = true := by
          rw [hi.1]; intro n hn' g hg; rw [he, hnone n hn'] at hg; simp at hg
        simp only [incrementTimes, ht, if_true]
        apply ih
        funext n
        rw [hi.2 n, if_pos ht, he]
        by_cases hin : n ∈ names
        · rw [hnone n hin]; rfl
        · cases eff cb s n with
          | none => rfl
          | some g =>
            simp only [Option.map_some]; congr 1
            unfold bump; rw [List.count_eq_zero_of_not_mem hin]; split <;> simp
    exact key k s' hee
  · intro h
    obtain ⟨a, -, lb, hex⟩ := sp.2 (by omega) (hr ▸ h)
    rw [← hr] at a lb hex
    refine ⟨a, ?_⟩
    have hex : ∃ n ∈ names, ∃ g, eff cb s n = some g ∧ r = g.capacity c := by
      rcases hex with ⟨hx, _⟩ | hx
      · exact absurd rfl hx
      · exact hx
    obtain ⟨m, hm, gm, hgm, hrm⟩ := hex
    generalize (getRemainingCapacity c cb s names).1 = s' at hee
    have key : ∀ (k : Nat) (s' : Groups) (gm : GroupData), (∀ n ∈ names, ∀ g, eff cb s' n = some g → (k : Int) ≤ g.capacity c) →
        eff cb s' m = some gm → (k : Int) = gm.capacity c →
        (incrementTimes c cb s' names k).isSome ∧ incrementTimes c cb s' names (k + 1) = none := by
      intro k
      induction k with
      | zero =>
        intro s' gm hall hgm hk
        refine ⟨rfl, ?_⟩
        have : (increment c cb s' names).2 = false := by
          rw [← Bool.not_eq_true, (increment_spec c cb s' names).1]
          intro hh
          have := (capacity_pos_can (by omega)).1 (hh m hm gm hgm)
          omega
        simp [incrementTimes, this]
      | succ k ih =>
        intro s' gm hall hgm hk
        have hi := increment_spec c cb s' names
        have ht : (increment c cb s' names).2 = true := by
          rw [hi.1]; intro n hn' g hg
          have := hall n hn' g hg
          exact (capacity_pos_can (by omega)).2 (by omega)
        have e1 : incrementTimes c cb s' names (k + 1) = incrementTimes c cb (increment c cb s' names).1 names k := by
          simp only [incrementTimes, ht, if_true]
        have e2 : incrementTimes c cb s' names (k + 1 + 1) = incrementTimes c cb (increment c cb s' names).1 names (k + 1) := by
          simp only [incrementTimes, ht, if_true]
        rw [e1, e2]
        refine ih _ (bump names m gm) ?_ ?_ ?_
        · intro n hn' g hg
          rw [hi.2 n, if_pos ht] at hg
          obtain ⟨g0, h0, rfl⟩ := Option.map_eq_some_iff.1 hg
          have := hall n hn' g0 h0
          rw [bump_capacity hn hn' (by omega)]; omega
        · rw [hi.2 m, if_pos ht, hgm]; rfl
        · rw [bump_capacity hn hm (by omega)]; omega
    have := key r.toNat s' gm (by rw [hee]; intro n hn' g hg; have := lb n hn' g hg; omega) (by rw [hee]; exact hgm) (by omega)
    exact this

example : (getRemainingCapacity ⟨15, 0⟩ demoCb (fun _ => none) ["a", "zzz"]).2 = 2 ∧
    (getRemainingCapacity ⟨25, 0⟩ demoCb (fun _ => none) ["w", "a"]).2 = 0 ∧
    (getRemainingCapacity ⟨25, 0⟩ demoCb (fun _ => none) ["zzz"]).2 = -1 := by decide +kernel

/-- C16 fails with an open time window: capacity -1 ("no limit") is reported although only one `Increment` is possible;
and the answer depends on the order of the names. -/
theorem C16_violated : (getRemainingCapacity ⟨15, 0⟩ demoCb (fun _ => none) ["b", "w"]).2 = -1 ∧
    incrementTimes ⟨15, 0⟩ demoCb (fun _ => none) ["b", "w"] 2 = none ∧
    (getRemainingCapacity ⟨15, 0⟩ demoCb (fun _ => none) ["w", "b"]).2 = 1 := by
  refine ⟨by decide +kernel, ?_, by decide +kernel⟩
  rw [← Option.isNone_iff_eq_none]; decide +kernel

/-! ## C17 -/

/-- specification: second-of-day `t` is strictly inside the daily window from `a` to `b`, which passes midnight if
`b < a` -/
def insideDaily (a b t : Int) : Prop := (a ≤ b → a < t ∧ t < b) ∧ (b < a → a < t ∨ t < b)

/-- C17, for windows that do not pass midnight. -/
theorem C17_partial (c : Clock) (a b : Int) :
    (a ≤ b → (GroupData.canIncrement c ⟨.betweenTimes, b, a⟩ = true ↔ insideDaily a b c.secs)) ∧
    (GroupData.canIncrement c ⟨.beforeTime, b, 0⟩ = true ↔ c.secs < b) ∧
    (GroupData.canIncrement c ⟨.afterTime, 0, a⟩ = true ↔ a < c.secs) ∧
    (GroupData.canIncrement c ⟨.beforeDateTime, b, 0⟩ = true ↔ c.unix < b) ∧
    (GroupData.canIncrement c ⟨.afterDateTime, 0, a⟩ = true ↔ a < c.unix) ∧
    (GroupData.canIncrement c ⟨.betweenDateTimes, b, a⟩ = true ↔ a < c.unix ∧ c.unix < b) := by
  refine ⟨fun h => ?_, by simp [GroupData.canIncrement], by simp [GroupData.canIncrement], by simp [GroupData.canIncrement],
    by simp [GroupData.canIncrement], by simp [GroupData.canIncrement]⟩
  unfold insideDaily GroupData.canIncrement
  simp only [if_neg (show ¬ a > b by omega), decide_eq_true_eq]; omega

/-- C17 fails for every window that passes midnight, at every moment except its end points: the group is open exactly
when it should be closed. -/
theorem C17_violated (c : Clock) (a b : Int) (h : b < a) (ha : c.secs ≠ a) (hb : c.secs ≠ b) :
    GroupData.canIncrement c ⟨.betweenTimes, b, a⟩ = true ↔ ¬ insideDaily a b c.secs := by
  unfold insideDaily GroupData.canIncrement
  simp only [if_pos (show a > b by omega), decide_eq_true_eq]
  omega

example : GroupData.canIncrement ⟨0, 0⟩ ⟨.betweenTimes, 6 * 3600, 22 * 3600⟩ = false ∧
    insideDaily (22 * 3600) (6 * 3600) 0 := ⟨by decide, by omega, by omega⟩

end Verif.Limiter
