import Verif.Utils.Model

/-! # C36: bulk database writes store every record exactly once -/

namespace Verif.Utils

private theorem storer_cases {α : Type} (fails : Nat → Bool) (d : Disk α) (b : List α) :
    (fails d.calls = true ∧ storer fails d b = ({ d with calls := d.calls + 1 }, .err)) ∨
    (fails d.calls = false ∧ storer fails d b = (⟨d.stored ++ [b], d.calls + 1⟩, .ok)) := by
  unfold storer
  cases h : fails d.calls <;> simp

private theorem loop_spec {α : Type} (fails : Nat → Bool) (data : List α) (bs : Nat) : ∀ (k i : Nat) (d : Disk α),
    (i + k) * bs ≤ data.length → d.stored.flatten = data.take (i * bs) →
    ∃ d' r, batchLoop fails data bs i k d = some (d', r) ∧
      (r = .ok → d'.stored.flatten = data.take ((i + k) * bs)) ∧
      (r = .err → d'.stored.flatten <+: data ∧ ∃ n, fails n = true) := by
  intro k
  induction k with
  | zero => intro i d _ hd; exact ⟨d, .ok, rfl, fun _ => by simpa using hd, fun h => by cases h⟩
  | succ k ih =>
    intro i d hb hd
    have h1 : (i + 1) * bs ≤ data.length := Nat.le_trans (Nat.mul_le_mul_right _ (by omega)) hb
    have h2 : i * bs ≤ (i + 1) * bs := Nat.mul_le_mul_right _ (by omega)
    have hs : slice data (i * bs) ((i + 1) * bs) = some ((data.drop (i * bs)).take bs) := by
      unfold slice; rw [if_pos ⟨h2, h1⟩]
      rw [show (i + 1) * bs - i * bs = bs by rw [Nat.succ_mul]; omega]
    unfold batchLoop
    rw [hs]
    simp only [Option.bind_some]
    rcases storer_cases fails d ((data.drop (i * bs)).take bs) with ⟨hf, e⟩ | ⟨-, e⟩
    · rw [e]
      exact ⟨_, _, rfl, (fun h => by cases h), fun _ => ⟨by simp only; rw [hd]; exact List.take_prefix _ _, _, hf⟩⟩
    · rw [e]
      have hd' : (d.stored ++ [(data.drop (i * bs)).take bs]).flatten = data.take ((i + 1) * bs) := by
        rw [List.flatten_append, hd, Nat.succ_mul, List.take_add]; simp
      have := ih (i + 1) ⟨d.stored ++ [(data.drop (i * bs)).take bs], d.calls + 1⟩
        (by rw [show i + 1 + k = i + (k + 1) by omega]; exact hb) hd'
      rw [show i + 1 + k = i + (k + 1) by omega] at this
      exact this

private theorem batchSize_pos (n : Nat) : 0 < batchSize n := by
  unfold batchSize; simp only; split <;> split <;> omega

/-- C36: whatever the number of records and whichever calls of the storer fail, storeBatched does not panic; if it
returns no error, then what the storer was given, in all its calls together, is every record once and in order; it
returns an error only if the storer did, and then a first part of the records has been stored, each once. -/
theorem C36_once {α : Type} (fails : Nat → Bool) (data : List α) :
    ∃ d r, storeBatched fails data = some (d, r) ∧
      (r = .ok → d.stored.flatten = data) ∧
      (r = .err → d.stored.flatten <+: data ∧ ∃ n, fails n = true) := by
  unfold storeBatched
  simp only
  split
  · rcases storer_cases fails ({} : Disk α) data with ⟨hf, e⟩ | ⟨-, e⟩
    · exact ⟨_, _, (by rw [e]), (fun h => by cases h), fun _ => ⟨by simp, _, hf⟩⟩
    · exact ⟨_, _, (by rw [e]), (fun _ => by simp), fun h => by cases h⟩
  · have hp := batchSize_pos data.length
    have hdm := Nat.div_add_mod data.length (batchSize data.length)
    have hb : (0 + data.length / batchSize data.length) * batchSize data.length ≤ data.length := by
      rw [Nat.zero_add]; exact Nat.div_mul_le_self _ _
    obtain ⟨d, r, e, h1, h2⟩ := loop_spec fails data (batchSize data.length) (data.length / batchSize data.length) 0 {}
      hb (by simp)
    rw [e]
    simp only [Option.bind_some]
    cases r with
    | err => exact ⟨_, _, rfl, (fun h => by cases h), h2⟩
    | ok =>
      have h1 := h1 rfl
      have ho : data.length - data.length % batchSize data.length =
          (0 + data.length / batchSize data.length) * batchSize data.length := by
        rw [Nat.zero_add, Nat.mul_comm]; omega
      rw [← ho] at h1
      have hle : data.length - data.length % batchSize data.length ≤ data.length := by omega
      simp only
      split
      · have hs : slice data (data.length - data.length % batchSize data.length) data.length =
            some (data.drop (data.length - data.length % batchSize data.length)) := by
          unfold slice; rw [if_pos ⟨hle, Nat.le_refl _⟩]
          congr 1
          apply List.take_of_length_le; simp
        rw [hs]
        simp only [Option.bind_some]
        rcases storer_cases fails d (data.drop (data.length - data.length % batchSize data.length)) with ⟨hf, e⟩ | ⟨-, e⟩
        · rw [e]
          exact ⟨_, _, rfl, (fun h => by cases h), fun _ => ⟨by simp only; rw [h1]; exact List.take_prefix _ _, _, hf⟩⟩
        · rw [e]
          refine ⟨_, _, rfl, fun _ => ?_, fun h => by cases h⟩
          rw [List.flatten_append, h1]; simp
      · rename_i h0
        exfalso
        have : data.length < batchSize data.length := by
          have := Nat.mod_lt data.length hp; omega
        contradiction

/-- Without failures of the storer there is no error. -/
theorem C36_ok {α : Type} (data : List α) :
    ∃ d, storeBatched (fun _ => false) data = some (d, .ok) ∧ d.stored.flatten = data := by
  obtain ⟨d, r, e, h1, h2⟩ := C36_once (fun _ => false) data
  cases r with
  | ok => exact ⟨d, e, h1 rfl⟩
  | err => obtain ⟨-, n, h⟩ := h2 rfl; cases h

/-- 16000 records are written in eight batches (and, harmlessly, an empty one). -/
example : batchSize 16000 = 2000 := by decide

/-- A failing second call. -/
example : (storeBatched (fun n => n == 1) (List.range 2500)).map (fun r => (r.1.stored.map List.length, r.2)) =
    some ([1000], .err) := by decide +kernel

example : (storeBatched (fun _ => false) (List.range 2500)).map (fun r => (r.1.stored.map List.length, r.2)) =
    some ([1000, 1000, 500], .ok) := by decide +kernel

end Verif.Utils
