import Verif.Server.Sgroup

/-! # C32, C62: counts of scheduler groups -/

namespace Verif.Server.Sgroup

/-- A group that can occur: nothing is negative. -/
def Ok (g : Group) : Prop := 0 ≤ g.count ∧ 0 ≤ g.skipped

/-- Specification: take `n` jobs off, from those skipped first, never more than there are. -/
def takeOff (g : Group) (n : Int) : Group :=
  { skipped := g.skipped - min n g.skipped,
    count := g.count - min (n - min n g.skipped) g.count }

/-- **C32, one call.** A drop of `d > 0` takes skipped jobs first, then counted ones, never goes
below zero, and answers the new count, or -1 if the count did not change. Other drops do
nothing. -/
theorem C32_decrement (g : Group) (h : Ok g) (d : Int) :
    (decrement g d).1 = takeOff g (max d 0) ∧ Ok (decrement g d).1 ∧
    (decrement g d).2 = if (decrement g d).1.count = g.count then -1 else (decrement g d).1.count := by
  obtain ⟨c, s⟩ := g
  unfold decrement takeOff Ok at *
  dsimp only at h ⊢
  split
  · rename_i h1
    refine ⟨?_, h, by simp⟩
    rw [Group.mk.injEq]; constructor <;> omega
  · split
    · refine ⟨?_, ?_, by simp⟩
      · rw [Group.mk.injEq]; constructor <;> omega
      · dsimp only; omega
    · refine ⟨?_, ?_, rfl⟩
      · rw [Group.mk.injEq]; constructor <;> (repeat' split) <;> omega
      · dsimp only; constructor <;> (repeat' split) <;> omega

/-- **C32, totals.** The jobs the group has left after a drop: what there was, less the drop, and
never less than none. -/
theorem C32_total (g : Group) (h : Ok g) (d : Int) (hd : 0 ≤ d) :
    (decrement g d).1.count + (decrement g d).1.skipped =
      g.count + g.skipped - min d (g.count + g.skipped) := by
  rw [(C32_decrement g h d).1]
  obtain ⟨c, s⟩ := g
  unfold takeOff Ok at *
  dsimp only at h ⊢
  omega

theorem decrements_ok {g : Group} (h : Ok g) : ∀ ds, Ok (decrements g ds) := by
  intro ds
  induction ds generalizing g with
  | nil => exact h
  | cons d ds ih => exact ih (C32_decrement g h d).2.1

/-- **C32, histories.** Any sequence of drops is the same as one drop of their sum. -/
theorem C32_sum (g : Group) (h : Ok g) (ds : List Int) (hd : ∀ d ∈ ds, 0 ≤ d) :
    decrements g ds = takeOff g ds.sum ∧ Ok (decrements g ds) := by
  refine ⟨?_, decrements_ok h ds⟩
  induction ds generalizing g with
  | nil =>
    obtain ⟨c, s⟩ := g
    simp only [decrements, takeOff, List.sum_nil, Ok] at *
    rw [Group.mk.injEq]; constructor <;> omega
  | cons d ds ih =>
    have h1 := C32_decrement g h d
    have hs : 0 ≤ ds.sum := by
      clear ih h1
      induction ds with
      | nil => simp
      | cons x ds ih =>
        have := ih (fun y hy => hd y (by
          rcases List.mem_cons.mp hy with e | hy
          · simp [e]
          · simp [hy]))
        have := hd x (by simp)
        rw [List.sum_cons]; omega
    have h0 := hd d (by simp)
    simp only [decrements]
    rw [ih _ h1.2.1 (fun x hx => hd x (List.mem_cons_of_mem _ hx)), h1.1, List.sum_cons]
    obtain ⟨c, s⟩ := g
    unfold takeOff Ok at *
    dsimp only at h ⊢
    rw [Group.mk.injEq]; constructor <;> omega

example : Ok ⟨5, 3⟩ ∧ decrement ⟨5, 3⟩ 4 = (⟨4, 0⟩, 4) ∧ decrement ⟨5, 3⟩ 2 = (⟨5, 1⟩, -1) ∧
    decrements ⟨5, 3⟩ [2, 0, 7] = ⟨0, 0⟩ :=
  ⟨by unfold Ok; decide, by decide, by decide, by decide⟩

/-! ## C62: the scheduler ends up with the group's count -/

/-- Specification: requests one after the other: each tells the scheduler before the next begins. -/
def Serial : List GOp → Prop
  | [] => True
  | .drop _ :: .tell 0 :: os => Serial os
  | _ => False

/-- **C62 (partial: requests that do not overlap).** Once the requests are done, the scheduler was
told the group's count last. Missing: requests that overlap, see `C62_violated`. -/
theorem C62_partial (s : GSt) (hg : Ok s.g) (ht : s.told = s.g.count) (hf : s.inFlight = [])
    (os : List GOp) (h : Serial os) :
    (grun s os).told = (grun s os).g.count ∧ (grun s os).inFlight = [] := by
  induction os using Serial.induct generalizing s with
  | case1 => exact ⟨ht, hf⟩
  | case2 n os ih =>
    simp only [Serial] at h
    simp only [grun]
    have h1 := C32_decrement s.g hg n
    have hc := h1.2.1.1
    apply ih _ _ _ _ h
    · show Ok (gstep (gstep s (.drop n)) (.tell 0)).g
      simp only [gstep, hf]
      split <;> exact h1.2.1
    · simp only [gstep, hf]
      rw [h1.2.2]
      by_cases he : (decrement s.g n).1.count = s.g.count
      · simp [he, ht]
      · simp [he, hc]
    · simp only [gstep, hf]
      rw [h1.2.2]
      by_cases he : (decrement s.g n).1.count = s.g.count
      · rw [he]; simp
      · simp [he, hc]
  | case3 os h1 h2 =>
    exact absurd h (by unfold Serial; split <;> simp_all)

example : Serial [.drop 2, .tell 0, .drop 1, .tell 0] ∧
    (grun ⟨⟨5, 1⟩, 5, []⟩ [.drop 2, .tell 0, .drop 1, .tell 0]).told = 3 :=
  ⟨by simp [Serial], by decide⟩

/-- **C62 is violated**: two requests that overlap, of which the first tells the scheduler last:
the scheduler is left with one runner more than the group needs. -/
theorem C62_violated :
    let s := grun ⟨⟨5, 0⟩, 5, []⟩ [.drop 1, .drop 1, .tell 1, .tell 0]
    s.inFlight = [] ∧ s.told = 4 ∧ s.g.count = 3 := by decide

end Verif.Server.Sgroup
