import Verif.Limiter.Props
/-! # C15, C16: what is forgotten, and `GetLowestLimit` -/
namespace Verif.Limiter

/-- C15: whoever gives back the last slot of a group makes the limiter forget the group: nothing is kept of groups that nobody uses. -/
theorem C15_forgotten (cb : Callback) (hf : FreshCb cb) (ops : List LOp) (hp : ProperRun (wnew cb) ops) (names : List String)
    (hh : names ∈ (wrun (wnew cb) ops).held) (n : String) (hn : n ∈ names)
    (hc : ((wrun (wnew cb) ops).mem n).all (·.isCount) = true)
    (h0 : holders ((wrun (wnew cb) ops).held.erase names) n = 0) :
    (wstep (wrun (wnew cb) ops) (.release names)).1.mem n = none := by
  have i : LInv (wrun (wnew cb) ops) := wrun_inv ops (linv_new hf) hp
  generalize wrun (wnew cb) ops = w at *
  simp only [wstep]
  rw [decrement_mem _ _ _ (i.nodup _ hh) hn]
  cases hm : w.mem n with
  | none => rfl
  | some g =>
    rw [hm] at hc
    simp only [Option.all_some] at hc
    obtain ⟨d, h1, h2, h3⟩ := i.stored n g hm
    have hone : holders w.held n = 1 := by
      unfold holders at h0 ⊢
      rw [((List.perm_cons_erase hh).filter _).length_eq]
      simp only [List.filter_cons, decide_eq_true_eq, hn, if_true, List.length_cons]
      omega
    have hdc : d.isCount = true := by
      by_cases hd : d.isCount = true
      · exact hd
      · rw [if_neg hd] at h3; rw [← h3]; exact hc
    rw [if_pos hdc, hone] at h3
    subst h3
    simp only [Option.bind_some, dec1, GroupData.decrement, hc]
    simp

example : ProperRun (wnew fun n => if n = "a" then some (newCount 3) else none) [.acquire ⟨0, 0⟩ ["a"], .acquire ⟨0, 0⟩ ["a", "b"], .release ["a"]] ∧
    (let w := wrun (wnew fun n => if n = "a" then some (newCount 3) else none) [.acquire ⟨0, 0⟩ ["a"], .acquire ⟨0, 0⟩ ["a", "b"], .release ["a"]]
     ["a", "b"] ∈ w.held ∧ (w.mem "a").map (·.current) = some 1 ∧ holders (w.held.erase ["a", "b"]) "a" = 0) := by
  refine ⟨⟨by simp [Proper], by simp [Proper], ?_, trivial⟩, by decide +kernel⟩
  simp only [Proper]; decide +kernel

/-- specification: `v` is the lowest of the limits in the list -/
def Lowest (v : Int) (l : List Int) : Prop := v ∈ l ∧ ∀ x ∈ l, v ≤ x

/-- the limits of those of the groups that have one -/
def limits (cb : Callback) (s : Groups) (names : List String) : List Int := names.filterMap fun n => (eff cb s n).map (·.limit)

theorem lowestLoop_spec (cb) (ns : List String) : ∀ s l, (∀ n g, eff cb s n = some g → 0 ≤ g.limit) →
    (l = -1 → (limits cb s ns = [] ∧ (lowestLoop cb s l ns).2 = -1) ∨ Lowest (lowestLoop cb s l ns).2 (limits cb s ns)) ∧
    (0 ≤ l → Lowest (lowestLoop cb s l ns).2 (l :: limits cb s ns)) := by
  induction ns with
  | nil => intro s l _; simp [lowestLoop, limits, Lowest]
  | cons n ns ih =>
    intro s l h
    unfold lowestLoop
    rw [vivify_eq]
    have hv := eff_vivify cb s n
    have hl : limits cb (vivify cb s n).1 ns = limits cb s ns := by unfold limits; rw [hv]
    have h' : ∀ n' g, eff cb (vivify cb s n).1 n' = some g → 0 ≤ g.limit := by rw [hv]; exact h
    cases he : eff cb s n with
    | none =>
      have hc : limits cb s (n :: ns) = limits cb s ns := by simp [limits, he]
      simp only
      rw [hc]
      have := ih (vivify cb s n).1 l h'
      rw [hl] at this
      exact this
    | some g =>
      have hc : limits cb s (n :: ns) = g.limit :: limits cb s ns := by simp [limits, he]
      simp only
      rw [hc]
      have hg := h n g he
      constructor
      · intro e
        rw [if_pos (Or.inl e)]
        have := (ih (vivify cb s n).1 g.limit h').2 hg
        rw [hl] at this
        exact Or.inr this
      · intro e
        by_cases hlt : g.limit < l
        · rw [if_pos (Or.inr hlt)]
          have := (ih (vivify cb s n).1 g.limit h').2 hg
          rw [hl] at this
          refine ⟨by have := this.1; simp only [List.mem_cons] at this ⊢; grind, ?_⟩
          intro x hx
          rcases List.mem_cons.1 hx with rfl | hx
          · have := this.2 g.limit (by simp); omega
          · exact this.2 x hx
        · rw [if_neg (by omega)]
          have := (ih (vivify cb s n).1 l h').2 e
          rw [hl] at this
          refine ⟨by have := this.1; simp only [List.mem_cons] at this ⊢; grind, ?_⟩
          intro x hx
          rcases List.mem_cons.1 hx with rfl | hx
          · exact this.2 x (by simp)
          · rcases List.mem_cons.1 hx with rfl | hx
            · have := this.2 l (by simp); omega
            · exact this.2 x (by simp [hx])

/-- C16: `GetLowestLimit` is the lowest limit of those of the groups that have one, and -1 if none has. Missing: groups that are time
windows. -/
theorem C16_lowest_partial (cb : Callback) (s : Groups) (names : List String) (h : ∀ n g, eff cb s n = some g → g.isCount = true ∧ 0 ≤ g.limit) :
    ((∀ n ∈ names, eff cb s n = none) → (getLowestLimit cb s names).2 = -1) ∧
    ((∃ n ∈ names, eff cb s n ≠ none) → Lowest (getLowestLimit cb s names).2 (limits cb s names)) := by
  have hs := (lowestLoop_spec cb names s (-1) (fun n g hg => (h n g hg).2)).1 rfl
  constructor
  · intro hn
    have : limits cb s names = [] := by simp only [limits, List.filterMap_eq_nil_iff]; intro n h; simp [hn n h]
    rcases hs with hs | hs
    · exact hs.2
    · rw [this] at hs; exact absurd hs.1 (by simp)
  · rintro ⟨n, hn, he⟩
    rcases hs with hs | hs
    · have := hs.1
      simp only [limits, List.filterMap_eq_nil_iff] at this
      have := this n hn
      cases hh : eff cb s n with
      | none => exact absurd hh he
      | some g => rw [hh] at this; simp at this
    · exact hs

example : (getLowestLimit (fun n => if n = "a" then some (newCount 3) else if n = "b" then some (newCount 2) else none) (fun _ => none) ["x", "a", "b", "a"]).2 = 2 := by
  decide +kernel

/-- C16 is false of time windows: their limit is said to be the end of the window in seconds, so the lowest limit of a group of 100000
and the window up to 10:00 is said to be 36000. -/
theorem C16_violated_lowest : ∃ cb : Callback, cb = (fun n => if n = "a" then some (newCount 100000) else some { mode := .beforeTime, limit := 36000 }) ∧
    (getLowestLimit cb (fun _ => none) ["a", "time<10:00:00"]).2 = 36000 := ⟨_, rfl, by decide +kernel⟩

end Verif.Limiter
