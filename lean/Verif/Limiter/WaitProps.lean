import Verif.Limiter.Wait
/-! # C143: a call of `Increment` that waits gets its slots when there is room -/
namespace Verif.Limiter.Wait
open Verif.Limiter

/-! ### Specification -/

/-- no group of the list is full: `GetRemainingCapacity` of each is not 0 -/
def Room (cb : Callback) (mem : Groups) (c : Clock) (names : List String) : Prop :=
  ∀ n ∈ names, (getRemainingCapacity c cb mem [n]).2 ≠ 0

/-- What the partial theorem needs: limits do not change … -/
def Steady : WOp → Prop
  | .setLimit _ _ | .removeLimit _ => False
  | _ => True

/-- … and are numbers, not time windows. -/
def Counted (cb : Callback) : Prop := ∀ n d, cb n = some d → d.isValid = true → d.isCount = true ∧ d.current = 0

/-! ### Proof -/

def MemOk (cb : Callback) (mem : Groups) : Prop :=
  ∀ n g, eff cb mem n = some g → g.isCount = true ∧ 0 ≤ g.current ∧ ∃ d, cb n = some d ∧ d.isValid = true ∧ d.limit = g.limit

/-- the group is full, and the channel will be told when it is not -/
def Blocked (cb : Callback) (mem : Groups) (notes : String → List Nat) (ch : Nat) (names : List String) : Prop :=
  ∃ n ∈ names, ∃ g, eff cb mem n = some g ∧ g.limit ≤ g.current ∧ (ch ∈ notes n ∨ g.limit ≤ 0)

structure WInv (cb : Callback) (s : WS) : Prop where
  mem : MemOk cb s.mem
  told : ∀ w ∈ s.waiting, s.msg w.ch = false → Blocked cb s.mem s.notes w.ch w.names

theorem can_count {g : GroupData} (h : g.isCount = true) (c : Clock) : g.canIncrement c = true ↔ g.current < g.limit := by
  simp only [GroupData.isCount, decide_eq_true_eq] at h
  simp [GroupData.canIncrement, h]

theorem cap_one (c cb mem n) : (getRemainingCapacity c cb mem [n]).2 ≠ 0 ↔ ∀ g, eff cb mem n = some g → g.capacity c ≠ 0 := by
  unfold getRemainingCapacity
  simp only [capacityLoop]
  rw [vivify_eq]
  cases eff cb mem n with
  | none => simp
  | some g => simp

theorem cap_count {g : GroupData} (h : g.isCount = true) (c : Clock) : g.capacity c ≠ 0 ↔ g.current < g.limit := by
  unfold GroupData.capacity
  by_cases hc : g.current < g.limit
  · rw [if_pos ((can_count h c).2 hc), if_pos h]; constructor
    · intro _; exact hc
    · intro _; omega
  · rw [if_neg (fun hk => hc ((can_count h c).1 hk))]; simp [hc]

theorem bump_cur (ns n) (g : GroupData) : g.current ≤ (bump ns n g).current ∧ (bump ns n g).limit = g.limit ∧ (bump ns n g).isCount = g.isCount := by
  unfold bump; split
  · simp [GroupData.isCount]; omega
  · simp

theorem inc_memok {cb mem} (h : MemOk cb mem) (c names) : MemOk cb (increment c cb mem names).1 := by
  intro n g hg
  rw [(increment_spec c cb mem names).2] at hg
  split at hg
  · obtain ⟨g', h1, h2⟩ := Option.map_eq_some_iff.1 hg
    obtain ⟨a, b, c⟩ := h n g' h1
    have := bump_cur names n g'
    rw [h2] at this
    refine ⟨by rw [this.2.2, a], by omega, ?_⟩
    rw [this.2.1]; exact c
  · exact h n g hg

theorem inc_blocked {cb mem notes ch names} (h : Blocked cb mem notes ch names) (c ns) : Blocked cb (increment c cb mem ns).1 notes ch names := by
  obtain ⟨n, hn, g, h1, h2, h3⟩ := h
  have := (increment_spec c cb mem ns).2 n
  rw [h1] at this
  split at this
  · have hb := bump_cur ns n g
    exact ⟨n, hn, bump ns n g, this, by rw [hb.2.1]; omega, by rw [hb.2.1]; exact h3⟩
  · exact ⟨n, hn, g, this, h2, h3⟩

theorem register_spec {cb ch} (ns : List String) : ∀ {mem notes}, eff cb (register cb ch mem notes ns).1 = eff cb mem ∧
    (∀ n c, c ∈ notes n → c ∈ (register cb ch mem notes ns).2 n) ∧
    (∀ n ∈ ns, ∀ g, eff cb mem n = some g → g.isCount = true → ch ∈ (register cb ch mem notes ns).2 n) := by
  induction ns with
  | nil => intro mem notes; exact ⟨rfl, fun _ _ h => h, by simp⟩
  | cons m ns ih =>
    intro mem notes
    unfold register
    rw [vivify_eq]
    have hv := eff_vivify cb mem m
    cases he : eff cb mem m with
    | none =>
      simp only
      obtain ⟨a, b, c⟩ := ih (mem := (vivify cb mem m).1) (notes := notes)
      refine ⟨by rw [a, hv], b, ?_⟩
      intro n hn g hg hc
      rcases List.mem_cons.1 hn with rfl | hn
      · rw [he] at hg; simp at hg
      · exact c n hn g (by rw [hv]; exact hg) hc
    | some g0 =>
      simp only
      obtain ⟨a, b, c⟩ := ih (mem := (vivify cb mem m).1) (notes := if g0.isCount then upd notes m (notes m ++ [ch]) else notes)
      refine ⟨by rw [a, hv], ?_, ?_⟩
      · intro n x hx
        refine b n x ?_
        split
        · unfold upd; split
          · rename_i e; subst e; simp [hx]
          · exact hx
        · exact hx
      · intro n hn g hg hc
        rcases List.mem_cons.1 hn with rfl | hn
        · rw [he] at hg; injection hg with hg; subst hg
          refine b n ch ?_
          rw [if_pos hc]; simp [upd]
        · exact c n hn g (by rw [hv]; exact hg) hc

theorem eff_put' (cb s n v m) : eff cb (put s n v) m = if m = n then (match v with | some g => some g | none => (cb n).filter (·.isValid)) else eff cb s m := by
  unfold eff put; by_cases h : m = n
  · subst h; cases v <;> simp
  · simp [h]

theorem decW_spec {cb} (hC : Counted cb) (ns : List String) : ∀ {mem notes msg}, MemOk cb mem →
    MemOk cb (decW mem notes msg ns).1 ∧
    (∀ ch, msg ch = true → (decW mem notes msg ns).2.2 ch = true) ∧
    (∀ ch names, Blocked cb mem notes ch names → (decW mem notes msg ns).2.2 ch = false →
      Blocked cb (decW mem notes msg ns).1 (decW mem notes msg ns).2.1 ch names) := by
  induction ns with
  | nil => intro mem notes msg h; exact ⟨h, fun _ h => h, fun _ _ h _ => h⟩
  | cons m ns ih =>
    intro mem notes msg h
    unfold decW
    cases hm : mem m with
    | none => simp only; exact ih h
    | some g =>
      simp only
      have hg := h m g (by unfold eff; rw [hm])
      obtain ⟨hc, h0, d, hd1, hd2, hd3⟩ := hg
      obtain ⟨hdc, hd0⟩ := hC m d hd1 hd2
      have heff : eff cb mem m = some g := by unfold eff; rw [hm]
      -- what the group is afterwards
      have hafter : ∃ g', eff cb (put mem m (if g.decrement.2 then none else some g.decrement.1)) m = some g' ∧ g'.isCount = true ∧
          g'.limit = g.limit ∧ 0 ≤ g'.current ∧ (g.current = 0 → g'.current = 0) := by
        rw [eff_put', if_pos rfl]
        unfold GroupData.decrement
        simp only [hc, not_true, if_false]
        by_cases hz : g.current = 0
        · simp only [hz, if_true]
          refine ⟨d, by simp [hd1, Option.filter, hd2], hdc, hd3, by omega, fun _ => hd0⟩
        · simp only [hz, if_false]
          by_cases hl : g.current - 1 < 1
          · simp only [hl, decide_true, if_true]
            refine ⟨d, by simp [hd1, Option.filter, hd2], hdc, hd3, by omega, fun h => absurd h id⟩
          · simp only [hl, decide_false, Bool.false_eq_true, if_false]
            refine ⟨_, rfl, hc, rfl, by simp only; omega, fun h => absurd h id⟩
      obtain ⟨g', hg1, hg2, hg3, hg4, hg5⟩ := hafter
      have hother : ∀ n, n ≠ m → eff cb (put mem m (if g.decrement.2 then none else some g.decrement.1)) n = eff cb mem n := by
        intro n hn; rw [eff_put', if_neg hn]
      have hmok : MemOk cb (put mem m (if g.decrement.2 then none else some g.decrement.1)) := by
        intro n x hx
        by_cases hn : n = m
        · subst hn
          rw [hg1] at hx; injection hx with hx; subst hx
          exact ⟨hg2, hg4, d, hd1, hd2, by rw [hd3, hg3]⟩
        · rw [hother n hn] at hx; exact h n x hx
      by_cases hz : g.isCount = true ∧ g.current ≠ 0
      · rw [if_pos hz]
        obtain ⟨a, b, c⟩ := ih (notes := upd notes m []) (msg := fun ch => msg ch || (notes m).contains ch) hmok
        refine ⟨a, fun ch hch => b ch (by simp [hch]), ?_⟩
        intro ch names hb hf
        refine c ch names ?_ hf
        obtain ⟨n, hn, x, h1, h2, h3⟩ := hb
        by_cases hnm : n = m
        · subst hnm
          rw [heff] at h1; injection h1 with h1; subst h1
          rcases h3 with h3 | h3
          · have := b ch (by simp [h3])
            rw [hf] at this; simp at this
          · exact ⟨n, hn, g', hg1, by omega, Or.inr (by omega)⟩
        · refine ⟨n, hn, x, by rw [hother n hnm]; exact h1, h2, ?_⟩
          simpa [upd, hnm] using h3
      · rw [if_neg hz]
        have hz : g.current = 0 := by
          by_cases h : g.current = 0
          · exact h
          · exact absurd ⟨hc, h⟩ hz
        obtain ⟨a, b, c⟩ := ih (notes := if g.decrement.2 then upd notes m [] else notes) (msg := msg) hmok
        refine ⟨a, b, ?_⟩
        intro ch names hb hf
        refine c ch names ?_ hf
        obtain ⟨n, hn, x, h1, h2, h3⟩ := hb
        by_cases hnm : n = m
        · subst hnm
          rw [heff] at h1; injection h1 with h1; subst h1
          have := hg5 hz
          exact ⟨n, hn, g', hg1, by omega, Or.inr (by omega)⟩
        · refine ⟨n, hn, x, by rw [hother n hnm]; exact h1, h2, ?_⟩
          split
          · simpa [upd, hnm] using h3
          · exact h3

theorem attempt_inv {cb s} (i : WInv cb s) (c id names) : WInv cb (attempt cb s c id names).1 := by
  unfold attempt
  have h1 := (increment_spec c cb s.mem names).1
  have h2 := (increment_spec c cb s.mem names).2
  have hm := inc_memok i.mem c names
  have hb : ∀ w ∈ s.waiting, s.msg w.ch = false → Blocked cb (increment c cb s.mem names).1 s.notes w.ch w.names :=
    fun w hw hf => inc_blocked (i.told w hw hf) c names
  generalize increment c cb s.mem names = r at *
  obtain ⟨mem, ok⟩ := r
  cases ok
  · obtain ⟨a, b, d⟩ := register_spec (cb := cb) (ch := s.next) names (mem := mem) (notes := s.notes)
    refine ⟨?_, ?_⟩
    · intro n g hg
      exact hm n g (by rw [← a]; exact hg)
    · intro w hw hf
      rcases List.mem_cons.1 hw with rfl | hw
      · have : ¬ ∀ n ∈ names, ∀ g, eff cb s.mem n = some g → g.canIncrement c = true := by
          intro h; exact absurd (h1.2 h) (by simp)
        have ⟨n, hn⟩ := Classical.not_forall.1 this
        have ⟨hn, hg⟩ := Classical.not_imp.1 hn
        have ⟨g, hg⟩ := Classical.not_forall.1 hg
        have ⟨hg, hcan⟩ := Classical.not_imp.1 hg
        have hcount := (i.mem n g hg).1
        have hfull : g.limit ≤ g.current := by
          have := mt (can_count hcount c).2 hcan; omega
        have he : eff cb mem n = some g := by
          have := h2 n; simp only [Bool.false_eq_true, if_false] at this; rw [this]; exact hg
        exact ⟨n, hn, g, by simp only; rw [a]; exact he, hfull, Or.inl (d n hn g he hcount)⟩
      · obtain ⟨n, hn, g, x, y, z⟩ := hb w hw hf
        exact ⟨n, hn, g, by simp only; rw [a]; exact x, y, z.imp (b n _) (fun h => h)⟩
  · exact ⟨hm, hb⟩

theorem wstep_inv {cb} (hC : Counted cb) {s} (i : WInv cb s) (o : WOp) (ho : Steady o) : WInv cb (wstep cb s o).1 := by
  cases o with
  | tryInc c names => exact ⟨inc_memok i.mem c names, fun w hw hf => inc_blocked (i.told w hw hf) c names⟩
  | inc c id names =>
    simp only [wstep]
    split
    · exact i
    · exact attempt_inv i c id names
  | wake c id =>
    simp only [wstep]
    split
    · exact i
    · rename_i v _
      split
      · exact attempt_inv (s := { s with waiting := s.waiting.erase v }) ⟨i.mem, fun w hw hf => i.told w (List.mem_of_mem_erase hw) hf⟩ c id _
      · exact i
  | timeout id => exact ⟨i.mem, fun w hw hf => i.told w (by simp only [wstep, List.mem_filter] at hw; exact hw.1) hf⟩
  | dec names =>
    obtain ⟨a, b, c⟩ := decW_spec (notes := s.notes) (msg := s.msg) hC names i.mem
    refine ⟨a, fun w hw hf => c _ _ (i.told w hw ?_) hf⟩
    cases hm : s.msg w.ch with
    | false => rfl
    | true => exact absurd (b _ hm) (by simp only [wstep] at hf; rw [hf]; simp)
  | setLimit _ _ => exact absurd ho id
  | removeLimit _ => exact absurd ho id

theorem wrun_inv {cb} (hC : Counted cb) (os : List WOp) : ∀ {s}, WInv cb s → (∀ o ∈ os, Steady o) → WInv cb (wrun cb s os) := by
  induction os with
  | nil => intro s i _; exact i
  | cons o os ih => intro s i h; exact ih (wstep_inv hC i o (h o (by simp))) (fun o ho => h o (by simp [ho]))

theorem winit {cb} (hC : Counted cb) : WInv cb {} := by
  refine ⟨?_, by intro w h; simp at h⟩
  intro n g hg
  unfold eff at hg
  simp only at hg
  cases hd : cb n with
  | none => rw [hd] at hg; simp at hg
  | some d =>
    rw [hd] at hg
    by_cases hv : d.isValid = true
    · simp [Option.filter, hv] at hg; subst hg
      have := hC n d hd hv
      exact ⟨this.1, by omega, d, rfl, hv, rfl⟩
    · simp [Option.filter, hv] at hg

/-! ### Properties -/

/-- C143: in every history in which limits do not change: whenever no group of a waiting call is full, the call has a message, and when
it gets it the call takes its slots and waits no longer. -/
theorem C143_room_partial {cb} (hC : Counted cb) (os : List WOp) (ho : ∀ o ∈ os, Steady o) (c : Clock) (w : Waiter)
    (hw : (wrun cb {} os).waiting.find? (·.id = w.id) = some w) (hr : Room cb (wrun cb {} os).mem c w.names) :
    (wrun cb {} os).msg w.ch = true ∧ (wstep cb (wrun cb {} os) (.wake c w.id)).2 = true ∧
    (wstep cb (wrun cb {} os) (.wake c w.id)).1.waiting = (wrun cb {} os).waiting.erase w := by
  have i := wrun_inv hC os (winit hC) ho
  generalize wrun cb {} os = s at *
  have hwm := List.mem_of_find?_eq_some hw
  have hcan : ∀ n ∈ w.names, ∀ g, eff cb s.mem n = some g → g.canIncrement c = true := by
    intro n hn g hg
    have h1 := (i.mem n g hg).1
    exact (can_count h1 c).2 ((cap_count h1 c).1 ((cap_one c cb s.mem n).1 (hr n hn) g hg))
  have hmsg : s.msg w.ch = true := by
    cases hm : s.msg w.ch with
    | true => rfl
    | false =>
      obtain ⟨n, hn, g, hg, hfull, _⟩ := i.told w hwm hm
      have h1 := (i.mem n g hg).1
      have := (can_count h1 c).1 (hcan n hn g hg)
      omega
  have hok : (increment c cb s.mem w.names).2 = true := (increment_spec c cb s.mem w.names).1.2 hcan
  refine ⟨hmsg, ?_⟩
  simp only [wstep, hw, hmsg, if_true, attempt]
  generalize increment c cb s.mem w.names = r at *
  obtain ⟨mem, ok⟩ := r
  simp only at hok
  subst hok
  exact ⟨rfl, rfl⟩

/-- C143: a waiting call never takes slots that are not there: it takes them exactly if it has a message and no group is full, and stays
as it is if not. -/
theorem C143_taken_partial {cb} (hC : Counted cb) (os : List WOp) (ho : ∀ o ∈ os, Steady o) (c : Clock) (id : Nat) :
    (wstep cb (wrun cb {} os) (.wake c id)).2 = true →
      ∃ w ∈ (wrun cb {} os).waiting, w.id = id ∧ Room cb (wrun cb {} os).mem c w.names := by
  have i := wrun_inv hC os (winit hC) ho
  generalize wrun cb {} os = s at *
  intro h
  simp only [wstep] at h
  split at h
  · simp at h
  · rename_i w hw
    split at h
    · refine ⟨w, List.mem_of_find?_eq_some hw, by have := List.find?_some hw; simpa using this, ?_⟩
      intro n hn
      rw [cap_one]
      intro g hg
      have hi : (increment c cb s.mem w.names).2 = true := by
        unfold attempt at h
        simp only at h
        generalize increment c cb s.mem w.names = r at *
        obtain ⟨mem, ok⟩ := r
        cases ok
        · simp at h
        · rfl
      have := (increment_spec c cb s.mem w.names).1.1 hi n hn g hg
      have h1 := (i.mem n g hg).1
      rw [cap_count h1]
      exact (can_count h1 c).1 this
    · simp at h

/-- "a" has a limit of 1, "b" of 2, "z" of 0 -/
def demoCb : Callback := fun n => if n = "a" then some (newCount 1) else if n = "b" then some (newCount 2) else if n = "z" then some (newCount 0) else none

theorem demoCb_ok : Counted demoCb := by
  intro n d h _
  unfold demoCb at h
  split at h
  · injection h with h; subst h; decide
  split at h
  · injection h with h; subst h; decide
  split at h
  · injection h with h; subst h; decide
  · simp at h

/-- one call has the slots of "a" and "b", two wait, and the first gives back its slots -/
def demo : List WOp := [.tryInc ⟨0, 0⟩ ["a", "b"], .inc ⟨0, 0⟩ 1 ["a"], .inc ⟨0, 0⟩ 2 ["b", "a", "x"], .dec ["a", "b"]]

example : (∀ o ∈ demo, Steady o) ∧ (wrun demoCb {} demo).waiting.find? (·.id = 1) = some ⟨1, ["a"], 0⟩ ∧
    (wrun demoCb {} (demo.take 3)).msg 0 = false ∧ (wrun demoCb {} demo).msg 0 = true ∧ (wrun demoCb {} demo).msg 1 = true ∧
    (getRemainingCapacity ⟨0, 0⟩ demoCb (wrun demoCb {} demo).mem ["a"]).2 = 1 ∧
    (wstep demoCb (wrun demoCb {} demo) (.wake ⟨0, 0⟩ 1)).2 = true ∧
    (wstep demoCb (wrun demoCb {} (demo ++ [.wake ⟨0, 0⟩ 1])) (.wake ⟨0, 0⟩ 2)).2 = false := by
  refine ⟨?_, by decide +kernel⟩
  intro o ho
  simp only [demo, List.mem_cons, List.not_mem_nil, or_false] at ho
  rcases ho with rfl | rfl | rfl | rfl <;> trivial

/-- C143 is false if a limit is raised: a call that waits is not told, and waits until its time is up although there is room. -/
theorem C143_violated_raised : ∃ os : List WOp, os = [.tryInc ⟨0, 0⟩ ["a"], .inc ⟨0, 0⟩ 1 ["a"], .setLimit "a" (newCount 5)] ∧
    (wrun demoCb {} os).waiting = [⟨1, ["a"], 0⟩] ∧ (getRemainingCapacity ⟨0, 0⟩ demoCb (wrun demoCb {} os).mem ["a"]).2 = 4 ∧
    (wrun demoCb {} os).msg 0 = false :=
  ⟨_, rfl, by decide +kernel, by decide +kernel, by decide +kernel⟩

/-- C143 is false if a limit is removed: the group forgets who waits, and even the end of the other user of the group tells nobody. -/
theorem C143_violated_removed : ∃ os : List WOp, os = [.tryInc ⟨0, 0⟩ ["a"], .inc ⟨0, 0⟩ 1 ["a"], .removeLimit "a", .dec ["a"]] ∧
    (wrun demoCb {} os).waiting = [⟨1, ["a"], 0⟩] ∧ (getRemainingCapacity ⟨0, 0⟩ demoCb (wrun demoCb {} os).mem ["a"]).2 = 1 ∧
    (wrun demoCb {} os).msg 0 = false :=
  ⟨_, rfl, by decide +kernel, by decide +kernel, by decide +kernel⟩

/-- C143 is false of time windows: a call that waits for a window is not told when it opens. -/
theorem C143_violated_window : ∃ cb os, cb = (fun _ => some { mode := .afterTime, current := 100 }) ∧ os = [WOp.inc ⟨50, 0⟩ 1 ["100<time"]] ∧
    (wrun cb {} os).waiting = [⟨1, ["100<time"], 0⟩] ∧ (getRemainingCapacity ⟨101, 0⟩ cb (wrun cb {} os).mem ["100<time"]).2 ≠ 0 ∧
    (wrun cb {} os).msg 0 = false ∧ (wstep cb (wrun cb {} os) (.wake ⟨101, 0⟩ 1)).2 = false :=
  ⟨_, _, rfl, rfl, by decide +kernel, by decide +kernel, by decide +kernel, by decide +kernel⟩

end Verif.Limiter.Wait
