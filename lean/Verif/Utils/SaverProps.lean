import Verif.Utils.Model

/-! # C37: stored output keeps the exact head and tail -/

namespace Verif.Utils

variable {α : Type}

/-- The last `n` elements. -/
def lastN (n : Nat) (l : List α) : List α := l.drop (l.length - n)

private def rot (w : Saver α) : List α := w.suf.drop w.off ++ w.suf.take w.off

private theorem rot_len (w : Saver α) : (rot w).length = w.suf.length := by
  simp [rot]; omega

private theorem lastN_append (n : Nat) (a b : List α) : lastN n (lastN n a ++ b) = lastN n (a ++ b) := by
  unfold lastN
  simp only [List.length_append, List.length_drop]
  by_cases h : n ≤ a.length
  · rw [show a.length - (a.length - n) = n by omega, show n + b.length - n = b.length by omega]
    rw [show a.length + b.length - n = (a.length - n) + b.length by omega]
    rw [← List.drop_drop, List.drop_append_of_le_length (l₁ := a) (by omega)]
  · rw [show a.length - n = 0 by omega]; simp

private theorem lastN_right (n : Nat) (a b : List α) (h : n ≤ b.length) : lastN n (a ++ b) = lastN n b := by
  unfold lastN
  rw [List.length_append, show a.length + b.length - n = a.length + (b.length - n) by omega, ← List.drop_drop,
    List.drop_left]

private theorem lastN_drop (n k : Nat) (b : List α) (h : k ≤ b.length - n) : lastN n (b.drop k) = lastN n b := by
  unfold lastN
  rw [List.drop_drop, List.length_drop]; congr 1; omega

/-- The ring loop on a full suffix. -/
private theorem ring_spec : ∀ (fuel : Nat) (w : Saver α) (p : List α), p.length ≤ fuel → 0 < w.N →
    w.suf.length = w.N → w.off < w.N →
    ∃ w', ring fuel w p = some w' ∧ w'.N = w.N ∧ w'.pre = w.pre ∧ w'.suf.length = w.N ∧ w'.off < w.N ∧
      w'.skipped = w.skipped + p.length ∧ rot w' = (rot w ++ p).drop p.length := by
  intro fuel
  induction fuel with
  | zero =>
    intro w p h hN hs ho
    cases p with
    | nil => exact ⟨w, by simp [ring], rfl, rfl, hs, ho, by simp, by simp⟩
    | cons x p => simp at h
  | succ fuel ih =>
    intro w p h hN hs ho
    cases p with
    | nil => exact ⟨w, by simp [ring], rfl, rfl, hs, ho, by simp, by simp⟩
    | cons x t =>
      generalize hp : x :: t = p at h
      have hpl : 0 < p.length := by rw [← hp]; simp
      rw [show ring (fuel + 1) w p = ring fuel
        { w with suf := copyAt w.suf w.off p, skipped := w.skipped + min (w.suf.length - w.off) p.length,
                 off := if w.off + min (w.suf.length - w.off) p.length = w.N then 0
                        else w.off + min (w.suf.length - w.off) p.length }
        (p.drop (min (w.suf.length - w.off) p.length)) by rw [← hp]; rfl]
      generalize hn : min (w.suf.length - w.off) p.length = n
      have hn1 : 0 < n := by omega
      have hn2 : n ≤ p.length := by omega
      have hn3 : n ≤ w.N - w.off := by omega
      have hc : copyAt w.suf w.off p = w.suf.take w.off ++ p.take n ++ w.suf.drop (w.off + n) := by
        unfold copyAt; simp only [hn]
      have hcl : (copyAt w.suf w.off p).length = w.N := by
        rw [hc]; simp only [List.length_append, List.length_take, List.length_drop]; omega
      generalize hw1 : ({ w with suf := copyAt w.suf w.off p, skipped := w.skipped + n,
                                  off := if w.off + n = w.N then 0 else w.off + n } : Saver α) = w1
      have e1 : w1.suf = copyAt w.suf w.off p := by rw [← hw1]
      have e2 : w1.off = if w.off + n = w.N then 0 else w.off + n := by rw [← hw1]
      have e3 : w1.N = w.N := by rw [← hw1]
      have e4 : w1.pre = w.pre := by rw [← hw1]
      have e5 : w1.skipped = w.skipped + n := by rw [← hw1]
      have ho1 : w1.off < w1.N := by rw [e2, e3]; split <;> omega
      have hr1 : rot w1 = (rot w ++ p.take n).drop n := by
        unfold rot
        rw [e1, e2, hc]
        have la : (w.suf.take w.off).length = w.off := by rw [List.length_take]; omega
        have lb : (p.take n).length = n := by rw [List.length_take]; omega
        have lc : (w.suf.drop w.off).length = w.N - w.off := by rw [List.length_drop]; omega
        have rhs : (w.suf.drop w.off ++ w.suf.take w.off ++ p.take n).drop n =
            w.suf.drop (w.off + n) ++ w.suf.take w.off ++ p.take n := by
          rw [List.append_assoc, List.drop_append_of_le_length (by omega), List.drop_drop, List.append_assoc]
        rw [rhs]
        split
        · rename_i h1
          rw [List.drop_eq_nil_of_le (as := w.suf) (i := w.off + n) (by omega)]
          simp
        · have : (w.suf.take w.off ++ p.take n).length = w.off + n := by simp only [List.length_append]; omega
          rw [← this, List.drop_left, List.take_left, this, List.append_assoc]
      obtain ⟨w', h1, h2, h3, h4, h5, h6, h7⟩ := ih w1 (p.drop n) (by rw [List.length_drop]; omega)
        (by omega) (by rw [e1, hcl, e3]) ho1
      refine ⟨w', h1, by rw [h2, e3], by rw [h3, e4], by rw [h4, e3], by rw [← e3]; exact h5, ?_, ?_⟩
      · rw [h6, e5, List.length_drop]; omega
      · rw [h7, hr1]
        have lr : (rot w).length = w.N := by rw [rot_len, hs]
        have : (rot w ++ p.take n).drop n ++ p.drop n = (rot w ++ p).drop n := by
          rw [List.drop_append_of_le_length (by omega), List.drop_append_of_le_length (by omega), List.append_assoc,
            List.take_append_drop]
        rw [this, List.drop_drop, List.length_drop]
        congr 1; omega

/-- What the saver remembers of the input. -/
private structure Inv (N : Nat) (inp : List α) (w : Saver α) : Prop where
  n : w.N = N
  pre : w.pre = inp.take N
  len : w.suf.length = min N (inp.drop N).length
  skip : w.skipped = (inp.drop N).length - N
  off : w.off < N
  off0 : (inp.drop N).length ≤ N → w.off = 0
  rot : rot w = lastN N (inp.drop N)

private theorem fill_eq (N : Nat) (dst p : List α) :
    fill N dst p = (dst ++ p.take (N - dst.length), p.drop (N - dst.length)) := by
  unfold fill
  split
  · simp only
    rcases Nat.le_total p.length (N - dst.length) with h | h
    · rw [Nat.min_eq_left h, List.take_of_length_le h, List.drop_eq_nil_of_le h]; simp
    · rw [Nat.min_eq_right h]
  · rw [show N - dst.length = 0 by omega]; simp

private theorem inv_write {N : Nat} (hN : 0 < N) {inp : List α} {w : Saver α} (h : Inv N inp w) (p : List α) :
    ∃ w', w.write p = some w' ∧ Inv N (inp ++ p) w' := by
  have hpl : w.pre.length = min N inp.length := by rw [h.pre, List.length_take]
  unfold Saver.write
  simp only [fill_eq, h.n]
  generalize hp1 : p.drop (N - w.pre.length) = p1
  have hrest : (inp ++ p).drop N = inp.drop N ++ p1 := by
    rw [← hp1, List.drop_append, hpl]; congr 2; omega
  have hpre : w.pre ++ p.take (N - w.pre.length) = (inp ++ p).take N := by
    rw [List.take_append, hpl, h.pre]; congr 2; omega
  rw [hpre]
  generalize hp2 : p1.drop (p1.length - N) = p2
  have hp2l : p2.length = p1.length - (p1.length - N) := by rw [← hp2, List.length_drop]
  have hlast : lastN N (rot w ++ p2) = lastN N ((inp ++ p).drop N) := by
    rw [hrest, h.rot, lastN_append]
    by_cases e : N ≤ p1.length
    · rw [lastN_right _ _ _ (by omega), lastN_right _ _ _ e, ← hp2, lastN_drop _ _ _ (Nat.le_refl _)]
    · rw [← hp2, show p1.length - N = 0 by omega]; simp
  have hlen : ((inp ++ p).drop N).length = (inp.drop N).length + p1.length := by rw [hrest]; simp
  have hl := h.len
  have hs := h.skip
  by_cases hfull : w.suf.length < N
  · have hoff := h.off0 (by omega)
    have hrw : rot w = w.suf := by simp [rot, hoff]
    generalize hg : p2.drop (N - w.suf.length) = p3
    have hg3 : p3.length = p2.length - (N - w.suf.length) := by rw [← hg, List.length_drop]
    by_cases h3 : p3 = []
    · subst h3
      simp only [ring]
      refine ⟨_, rfl, ?_⟩
      have ht : p2.take (N - w.suf.length) = p2 := List.take_of_length_le (by simp at hg3; omega)
      simp at hg3
      refine ⟨rfl, rfl, ?_, ?_, h.off, fun _ => hoff, ?_⟩
      · simp only [List.length_append, ht, hlen]; omega
      · simp only [hlen]; omega
      · rw [← hlast, hrw]; unfold Utils.rot; simp only [hoff, ht]; simp
        unfold lastN
        rw [show (w.suf ++ p2).length - N = 0 by rw [List.length_append]; omega]; rfl
    · have h3p : 0 < p3.length := List.length_pos_iff.mpr h3
      have hfl : (w.suf ++ p2.take (N - w.suf.length)).length = N := by
        simp only [List.length_append, List.length_take]; omega
      obtain ⟨w', e1, e2, e3, e4, e5, e6, e7⟩ := ring_spec (p3.length + 1)
        { w with pre := (inp ++ p).take N, skipped := w.skipped + (p1.length - N), suf := w.suf ++ p2.take (N - w.suf.length) } p3
        (by omega) (by simpa [h.n] using hN) (by simpa [h.n] using hfl) (by simpa [h.n] using h.off)
      simp only [h.n] at e1 e2 e3 e4 e5 e6 e7
      refine ⟨w', e1, ⟨e2, e3, by rw [e4, hlen]; omega, by rw [e6, hlen]; omega, e5, fun h => absurd h (by omega), ?_⟩⟩
      rw [e7, ← hlast]
      unfold Utils.rot
      simp only [hoff, List.drop_zero, List.take_zero, List.append_nil]
      rw [List.append_assoc, ← hg, List.take_append_drop]
      unfold lastN
      congr 1
      rw [List.length_append, List.length_drop]; omega
  · have hfull' : w.suf.length = N := by omega
    rw [show N - w.suf.length = 0 by omega]
    simp only [List.take_zero, List.append_nil, List.drop_zero]
    by_cases h2 : p2 = []
    · subst h2
      have hp1 : p1 = [] := List.length_eq_zero_iff.1 (by simp at hp2l; omega)
      subst hp1
      simp only [ring]
      refine ⟨_, rfl, ⟨rfl, rfl, ?_, ?_, h.off, ?_, ?_⟩⟩
      · simp only [hlen, List.length_nil]; omega
      · simp only [hlen, List.length_nil]; omega
      · simpa [hrest] using h.off0
      · simpa [hrest, Utils.rot] using h.rot
    have h2p : 0 < p2.length := List.length_pos_iff.mpr h2
    obtain ⟨w', e1, e2, e3, e4, e5, e6, e7⟩ := ring_spec (p2.length + 1)
      { w with pre := (inp ++ p).take N, skipped := w.skipped + (p1.length - N), suf := w.suf } p2
      (by omega) (by simpa [h.n] using hN) (by simpa [h.n] using hfull') (by simpa [h.n] using h.off)
    simp only [h.n] at e1 e2 e3 e4 e5 e6 e7
    refine ⟨w', e1, ⟨e2, e3, by rw [e4, hlen]; omega, by rw [e6, hlen]; omega, e5, fun h => absurd h (by omega), ?_⟩⟩
    have e7 : Utils.rot w' = (Utils.rot w ++ p2).drop p2.length := e7
    rw [e7, ← hlast]
    unfold lastN
    congr 1
    rw [List.length_append, rot_len]; omega

private theorem inv_writes {N : Nat} (hN : 0 < N) : ∀ (ps : List (List α)) {inp : List α} {w : Saver α}, Inv N inp w →
    ∃ w', w.writes ps = some w' ∧ Inv N (inp ++ ps.flatten) w'
  | [], inp, w, h => ⟨w, rfl, by simpa using h⟩
  | p :: ps, inp, w, h => by
    obtain ⟨w1, e1, h1⟩ := inv_write hN h p
    obtain ⟨w2, e2, h2⟩ := inv_writes hN ps h1
    exact ⟨w2, by simp [Saver.writes, e1, e2], by simpa using h2⟩

/-- C37: however the output is cut into writes, writing ends, and what is kept is all of it if it is at most 2N bytes,
and otherwise its first N bytes, a note with the number of the other bytes, and its last N bytes. -/
theorem C37_saver (note : Nat → List α) (N : Nat) (hN : 0 < N) (ps : List (List α)) :
    ∃ w, Saver.writes ⟨N, [], [], 0, 0⟩ ps = some w ∧
      w.bytes note = if ps.flatten.length ≤ 2 * N then ps.flatten
        else ps.flatten.take N ++ note (ps.flatten.length - 2 * N) ++ ps.flatten.drop (ps.flatten.length - N) := by
  obtain ⟨w, e, h⟩ := inv_writes hN ps (inp := []) (w := ⟨N, [], [], 0, 0⟩)
    ⟨rfl, by simp, by simp, by simp, hN, fun _ => rfl, by simp [rot, lastN]⟩
  refine ⟨w, e, ?_⟩
  simp only [List.nil_append] at h
  generalize ps.flatten = inp at h
  have hl := h.len; have hs := h.skip; have hr := h.rot; have ho := h.off0
  simp only [List.length_drop] at hl hs
  unfold Saver.bytes
  by_cases h0 : w.suf = []
  · rw [if_pos h0]
    have : inp.length ≤ N := by rw [h0] at hl; simp at hl; omega
    rw [if_pos (by omega), h.pre, List.take_of_length_le this]
  · rw [if_neg h0]
    by_cases h1 : w.skipped = 0
    · rw [if_pos h1, if_pos (by omega), h.pre]
      have : w.suf = inp.drop N := by
        have := ho (by simp; omega)
        unfold rot at hr; simp only [this, List.drop_zero, List.take_zero, List.append_nil] at hr
        rw [hr, lastN, List.length_drop, show inp.length - N - N = 0 by omega, List.drop_zero]
      rw [this, List.take_append_drop]
    · rw [if_neg h1, if_neg (by omega), h.pre]
      have : w.suf.drop w.off ++ w.suf.take w.off = inp.drop (inp.length - N) := by
        unfold rot at hr; rw [hr, lastN, List.length_drop, List.drop_drop]; congr 1; omega
      rw [show w.skipped = inp.length - 2 * N by omega, List.append_assoc _ (w.suf.drop _), this]

/-- Nine bytes in three writes, four kept at each end. -/
example : ((Saver.writes ⟨4, [], [], 0, 0⟩ ["ab".toList, "cdefg".toList, "hijkl".toList]).map
    (·.bytes fun n => ("…" ++ toString n ++ "…").toList)) = some "abcd…4…ijkl".toList := by decide +kernel

/-- With N = 0 nothing is kept and nothing is noted; the code only uses N = 4096 (client.go:607,613). -/
theorem C37_zero : (Saver.writes ⟨0, [], [], 0, 0⟩ ["ab".toList]).map (·.bytes fun n => (toString n).toList) = some [] := by
  decide +kernel

end Verif.Utils
