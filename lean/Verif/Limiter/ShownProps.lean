import Verif.Limiter.Shown
/-! # C142: `wr limit` tells the limits that are in place -/
namespace Verif.Limiter.Shown
open Verif.Limiter Verif.Limiter.Restart

/-- C142: what is listed is right: in every history without negative limits, a listed limit is the last one set. -/
theorem C142_right (win : String → Option GroupData) (os : List SOp) (h : ∀ o ∈ os, Lim o) (n : String) (hw : win n = none) (v : Int)
    (hl : listed (srun win {} os).mem n = some v) : lastSet (fun _ => none) os n = some v := by
  have i : SInv win {} := ⟨by intro n v h; simp at h, by intro n g _ h; simp at h⟩
  obtain ⟨a, b⟩ := srun_spec os i h
  rw [← b n]
  unfold listed at hl
  split at hl
  · rename_i g hg
    obtain ⟨h1, h2⟩ := a.agree n g hw hg
    rw [h1, if_pos rfl] at hl
    rw [h2, ← hl]
  · simp at hl

example : listed (srun (fun _ => none) {} [.set "a" 3, .set "b" 4, .set "a" 2]).mem "a" = some 2 := by decide +kernel

/-- C142: time windows are not listed. -/
theorem C142_windows_partial {win} (hW : Windows win) (os : List ROp) (hp : ProperRun win {} os) (n : String) (g : GroupData)
    (hw : win n = some g) : listed (rrun win {} os).st.mem n = none := by
  have i := rrun_ok hW os (rinit win) hp
  unfold listed
  split
  · rename_i g' hg
    rw [i.window n g g' hw hg, (hW n g hw).1]; rfl
  · rfl

/-- C142: the limit of a group is listed while jobs of the group run. -/
theorem C142_used_partial {win} (hW : Windows win) (os : List ROp) (hp : ProperRun win {} os) (n : String) (hw : win n = none) (v : Int)
    (hv : inForce win (rrun win {} os).st n = some v) (hr : 0 < inGroup (rrun win {} os).jobs n) :
    listed (rrun win {} os).st.mem n = some v := by
  have i := rrun_ok hW os (rinit win) hp
  rw [inForce_db' i hw] at hv
  have hc := i.count n v hw hv
  unfold cnt at hc
  unfold listed
  cases hm : (rrun win {} os).st.mem n with
  | none => rw [hm] at hc; simp only at hc; omega
  | some g =>
    obtain ⟨h1, h2⟩ := i.sinv.agree n g hw hm
    rw [hv] at h2
    simp only [h1, if_true]
    exact h2.symm

example : inForce demoWin (rrun demoWin {} demo).st "a" = some 1 ∧ 0 < inGroup (rrun demoWin {} demo).jobs "a" ∧
    listed (rrun demoWin {} demo).st.mem "a" = some 1 ∧ listed (rrun demoWin {} demo).st.mem "w" = none := by decide +kernel

/-- C142: once somebody asked for the limit of a group it is listed, until its last job ends or the manager is restarted. -/
theorem C142_asked_partial {win} (hW : Windows win) (os : List ROp) (hp : ProperRun win {} os) (n : String) (hw : win n = none) (v : Int)
    (hv : inForce win (rrun win {} os).st n = some v) : listed (rrun win {} (os ++ [.ask n])).st.mem n = some v := by
  have i := rrun_ok hW os (rinit win) hp
  have happ : ∀ (s : RS) (os : List ROp), rrun win s (os ++ [.ask n]) = rstep win (rrun win s os) (.ask n) := by
    intro s os
    induction os generalizing s with
    | nil => rfl
    | cons o os ih => exact ih _
  rw [happ]
  rw [inForce_db' i hw] at hv
  generalize rrun win {} os = s at *
  have he : (getLimit (retrieve win s.st.db) s.st.mem n).1 = (vivify (retrieve win s.st.db) s.st.mem n).1 := by
    unfold getLimit; split <;> simp_all
  simp only [rstep, listed]
  rw [he, vivify_at, eff_some i.m hw hv]
  rfl

/-- C142: `wr limit -g name` prints the limit in force, for every history without negative limits. -/
theorem C142_shown (win : String → Option GroupData) (os : List SOp) (h : ∀ o ∈ os, Lim o) (n : String) (hw : win n = none) (v : Int)
    (hs : lastSet (fun _ => none) os n = some v) : answer win (srun win {} os) n = v := by
  have i : SInv win {} := ⟨by intro n v h; simp at h, by intro n g _ h; simp at h⟩
  obtain ⟨a, b⟩ := srun_spec os i h
  rw [← b n] at hs
  unfold answer getLimit
  rw [vivify_eq]
  rcases eff_spec a hw with ⟨h1, _⟩ | ⟨v', g, h1, h2, h3, h4⟩
  · rw [hs] at h1; simp at h1
  · rw [h2]
    rw [hs] at h1; injection h1 with h1
    simp only [GroupData.limit', h3, if_true, h4, h1]

/-- C142: `wr limit -g name:k` prints the limit it sets, for one that is not negative. -/
theorem C142_set_partial (k : Int) (h : 0 ≤ k) : answerSet k = k := by
  unfold answerSet GroupData.limit'
  rw [(newCount_count h).1, if_pos rfl, (newCount_count h).2.1]

example : answer (fun _ => none) (srun (fun _ => none) {} demoStore) "a" = 2 := by decide +kernel

/-- C142 is false of groups that have no limit: the documentation says that -1 is printed, for unknown groups and after setting -1; the
greatest number there is is printed instead. -/
theorem C142_violated_unknown (win : String → Option GroupData) (os : List SOp) (h : ∀ o ∈ os, Lim o) (n : String) (hw : win n = none)
    (hs : lastSet (fun _ => none) os n = none) : answer win (srun win {} os) n = 9223372036854775807 ∧ answerSet (-1) = 9223372036854775807 := by
  have i : SInv win {} := ⟨by intro n v h; simp at h, by intro n g _ h; simp at h⟩
  obtain ⟨a, b⟩ := srun_spec os i h
  rw [← b n] at hs
  refine ⟨?_, by decide⟩
  unfold answer getLimit
  rw [vivify_eq]
  rcases eff_spec a hw with ⟨_, h2⟩ | ⟨v', g, h1, _⟩
  · rw [h2]; rfl
  · rw [hs] at h1; simp at h1

example : answer (fun _ => none) (srun (fun _ => none) {} demoStore) "nosuch" = 9223372036854775807 := by decide +kernel

/-- C142 is false: after a restart nothing is listed, though the limits are in force. -/
theorem C142_violated_restart : ∃ os : List ROp, os = [.set "a" 3, .set "b" 4, .restart ⟨0, 0⟩ id] ∧
    inForce (fun _ => none) (rrun (fun _ => none) {} os).st "a" = some 3 ∧ (∀ n, listed (rrun (fun _ => none) {} os).st.mem n = none) :=
  ⟨_, rfl, by decide +kernel, fun _ => rfl⟩

/-- C142 is false: when the last job of a group ends, its limit is no longer listed, though it is in force. -/
theorem C142_violated_idle : ∃ os : List ROp, os = [.set "a" 3, .reserve ⟨0, 0⟩ 1 ["a"], .started 1, .finish 1] ∧
    listed (rrun (fun _ => none) {} (os.take 3)).st.mem "a" = some 3 ∧
    inForce (fun _ => none) (rrun (fun _ => none) {} os).st "a" = some 3 ∧ listed (rrun (fun _ => none) {} os).st.mem "a" = none :=
  ⟨_, rfl, by decide +kernel, by decide +kernel, by decide +kernel⟩

end Verif.Limiter.Shown
