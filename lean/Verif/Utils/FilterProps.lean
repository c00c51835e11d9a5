import Verif.Utils.Model

/-! # C38: progress-bar filtering only drops carriage-return progress -/

namespace Verif.Utils

open Verif.Util

/-! ## Specification: a stream is a series of lines, each plain or a block of progress -/

/-- What a command writes: a line of plain text, or progress: pieces of text each ended by a carriage return, and then a
newline. -/
inductive Out
  | line (t : List Char)
  | progress (first : List Char) (others : List (List Char))

/-- The text contains neither carriage returns nor newlines. -/
def Plain (t : List Char) : Prop := '\r' ∉ t ∧ '\n' ∉ t

def Out.ok : Out → Prop
  | .line t => Plain t
  | .progress f os => Plain f ∧ os ≠ [] ∧ ∀ o ∈ os, Plain o

/-- The bytes the command writes. -/
def Out.text : Out → List Char
  | .line t => t ++ ['\n']
  | .progress f os => (f :: os).flatMap (· ++ ['\r']) ++ ['\n']

/-- What should be kept: plain lines, the first and the last piece of progress, each on a line of its own, with a mark
between them if others were left out. -/
def Out.kept : Out → List Char
  | .line t => t ++ ['\n']
  | .progress f os =>
    f ++ ['\n'] ++ (if os.length > 1 then "[...]\n".toList else []) ++ os.getLastD [] ++ ['\n']

/-! ## Lemmas -/

private theorem readLines_ne (l : List Char) : readLines l ≠ [] := by
  cases l with
  | nil => simp [readLines]
  | cons c cs =>
    simp only [readLines]; split
    · simp
    · split <;> simp

private theorem readLines_line : ∀ (t rest : List Char), '\n' ∉ t →
    readLines (t ++ '\n' :: rest) = (t ++ ['\n']) :: readLines rest
  | [], rest, _ => by simp [readLines]
  | c :: t, rest, h => by
    simp only [List.mem_cons, not_or] at h
    simp only [List.cons_append, readLines, if_neg (Ne.symm h.1), readLines_line t rest h.2]

private theorem readLines_last : ∀ (t : List Char), '\n' ∉ t → readLines t = [t]
  | [], _ => rfl
  | c :: t, h => by
    simp only [List.mem_cons, not_or] at h
    simp only [readLines, if_neg (Ne.symm h.1), readLines_last t h.2]

private theorem readLines_flatten (l : List Char) : (readLines l).flatten = l := by
  induction l with
  | nil => rfl
  | cons c cs ih =>
    simp only [readLines]
    split
    · rename_i h; simp [ih, h]
    · split
      · rename_i h; exact absurd h (readLines_ne cs)
      · rename_i l ls h; rw [h] at ih; simpa using ih

private theorem readLines_mem {l p : List Char} (h : p ∈ readLines l) {c : Char} (hc : c ∈ p) : c ∈ l := by
  rw [← readLines_flatten l]; exact List.mem_flatten.2 ⟨p, h, hc⟩

private theorem filterLine_plain (p : List Char) (h : '\r' ∉ p) : filterLine p = p := by
  simp [filterLine, split_none _ _ h]

private theorem split_pieces : ∀ (ps : List (List Char)) (l : List Char), (∀ p ∈ ps, '\r' ∉ p) → '\r' ∉ l →
    split '\r' (ps.flatMap (· ++ ['\r']) ++ l) = ps ++ [l]
  | [], l, _, hl => by simp [split_none _ _ hl]
  | p :: ps, l, hp, hl => by
    have := split_pieces ps l (fun q hq => hp q (by simp [hq])) hl
    simp only [List.flatMap_cons, List.append_assoc, List.cons_append, List.nil_append]
    rw [split_append _ _ _ (hp p (by simp)), this]

private theorem filterLine_progress (f : List Char) (os : List (List Char)) (tail : List Char) (hf : '\r' ∉ f)
    (hos : ∀ o ∈ os, '\r' ∉ o) (hne : os ≠ []) (ht : '\r' ∉ tail) :
    filterLine ((f :: os).flatMap (· ++ ['\r']) ++ tail) =
      f ++ ['\n'] ++ (if os.length > 1 then "[...]\n".toList else []) ++ os.getLastD [] ++ ['\n'] := by
  unfold filterLine
  rw [split_pieces (f :: os) tail (by
    intro p hp
    rcases List.mem_cons.1 hp with rfl | hp
    · exact hf
    · exact hos p hp) ht]
  have hl : 0 < os.length := List.length_pos_iff.2 hne
  have hlen : (f :: os ++ [tail]).length = os.length + 2 := by simp
  simp only [hlen]
  rw [if_pos (by omega)]
  have hlast : (f :: os ++ [tail])[os.length + 2 - 2]?.getD [] = os.getLastD [] := by
    rw [show os.length + 2 - 2 = os.length by omega]
    rw [List.getElem?_append_left (by simp)]
    obtain ⟨n, hn⟩ : ∃ n, os.length = n + 1 := ⟨os.length - 1, by omega⟩
    rw [hn]
    simp only [List.getElem?_cons_succ]
    rw [List.getLastD_eq_getLast?, List.getLast?_eq_getElem?, hn]; rfl
  rw [hlast]
  have : (os.length + 2 > 3) = (os.length > 1) := by apply propext; omega
  simp only [this]
  simp

/-! ## The theorems -/

/-- C38, text without carriage returns: it passes through unchanged, whatever its lines are and whether or not it ends
with a newline. -/
theorem C38_plain (inp : List Char) (h : '\r' ∉ inp) : stdFilter inp = inp := by
  unfold stdFilter
  have : ∀ ls : List (List Char), (∀ p ∈ ls, '\r' ∉ p) → ls.flatMap filterLine = ls.flatten := by
    intro ls
    induction ls with
    | nil => intro _; rfl
    | cons p ls ih =>
      intro h
      simp only [List.flatMap_cons, List.flatten_cons]
      rw [filterLine_plain p (h p (by simp)), ih fun q hq => h q (by simp [hq])]
  rw [this _ fun p hp hc => h (readLines_mem hp hc), readLines_flatten]

private theorem text_line (o : Out) (h : o.ok) : ∃ t, o.text = t ++ ['\n'] ∧ '\n' ∉ t := by
  cases o with
  | line t => exact ⟨t, rfl, h.2⟩
  | progress f os =>
    refine ⟨(f :: os).flatMap (· ++ ['\r']), rfl, ?_⟩
    intro hm
    obtain ⟨p, hp, hc⟩ := List.mem_flatMap.1 hm
    obtain ⟨hf, -, ho⟩ := h
    rcases List.mem_append.1 hc with hc | hc
    · rcases List.mem_cons.1 hp with rfl | hp
      · exact hf.2 hc
      · exact (ho p hp).2 hc
    · simp at hc

/-- C38 for a stream of plain lines and of progress of two or more pieces whose last piece is ended by a carriage return
too, followed by an unfinished plain line: exactly what should be kept is kept. -/
theorem C38_partial (outs : List Out) (rest : List Char) (h : ∀ o ∈ outs, o.ok) (hr : Plain rest) :
    stdFilter (outs.flatMap Out.text ++ rest) = outs.flatMap Out.kept ++ rest := by
  unfold stdFilter
  induction outs with
  | nil =>
    simp only [List.flatMap_nil, List.nil_append]
    rw [readLines_last _ hr.2]
    simp [filterLine_plain _ hr.1]
  | cons o outs ih =>
    have ho := h o (by simp)
    have ih := ih fun o ho => h o (by simp [ho])
    obtain ⟨t, ht, hn⟩ := text_line o ho
    simp only [List.flatMap_cons, ht, List.append_assoc, List.cons_append, List.nil_append]
    rw [readLines_line _ _ hn]
    simp only [List.flatMap_cons, ih]
    rw [← List.append_assoc, ← List.append_assoc]
    congr 2
    rw [← ht]
    cases o with
    | line t => exact filterLine_plain _ (by simp [Out.text]; exact ho.1)
    | progress f os =>
      obtain ⟨hf, hne, hos⟩ := ho
      exact filterLine_progress f os ['\n'] hf.1 (fun o h => (hos o h).1) hne (by decide)

/-- C38 fails: what follows the last carriage return of a line is dropped, even if it is the message the progress bar
was cleared for. -/
theorem C38_violated : stdFilter "10%\r20%\rERROR: disk full\n".toList = "10%\n20%\n".toList := by decide +kernel

/-- C38 fails: lines ended by carriage return and newline, without any progress, are run together. -/
theorem C38_violated_crlf : stdFilter "one\r\ntwo\r\n".toList = "onetwo".toList := by decide +kernel

example : (Out.progress "10%".toList ["20%".toList, "30%".toList]).ok := by
  refine ⟨?_, by simp, ?_⟩ <;> simp [Plain]

example : stdFilter "hi\n10%\r20%\r30%\r\nbye".toList = "hi\n10%\n[...]\n30%\nbye".toList := by decide +kernel

end Verif.Utils
