import Verif.Bsub.Args
import Verif.Bsub.Replace
import Verif.Util.Str

/-! # C78 and C79: the options a user gives for bsub -/
namespace Verif.Bsub

namespace Spec

/-- word number `i` is the value of an option -R, for a list of options that all have a value -/
def ValueOfR (ws : List Str) (i : Nat) : Prop := ∃ j, i = 2 * j + 1 ∧ ws[2 * j]? = some "-R".toList

/-- every second word is an option, and each -R has a value that can be parsed -/
def Readable (ws : List Str) : Prop :=
  ∀ j w, ws[2 * j]? = some w → w.head? = some '-' ∧
    (w = "-R".toList → ∃ v a, ws[2 * j + 1]? = some v ∧ parseBsubR v = some a)

end Spec

theorem isFlag_iff (w : Str) : isFlag w = true ↔ w.head? = some '-' := by
  cases w with
  | nil => simp [isFlag]
  | cons c w =>
    have h : isFlag (c :: w) = ('-' == c) := by
      show (('-' == c) && List.isPrefixOf [] w) = ('-' == c)
      simp
    rw [h, List.head?_cons, Option.some.injEq, beq_iff_eq]
    exact eq_comm

theorem argLoop_two (mb w v : Str) (rest ws' : List Str) (h : argLoop mb (w :: v :: rest) = .ok ws') :
    isFlag w = true ∧ ∃ v' r, argLoop mb rest = .ok r ∧ ws' = w :: v' :: r ∧
      ((w = "-R".toList ∧ rewriteR mb v = some v') ∨ (w ≠ "-R".toList ∧ v' = v)) := by
  rw [argLoop] at h
  by_cases hf : isFlag w = true
  · rw [if_pos hf] at h
    refine ⟨hf, ?_⟩
    by_cases hw : w = "-R".toList
    · rw [if_pos hw] at h
      cases hr : rewriteR mb v with
      | none => rw [hr] at h; cases h
      | some v' =>
        rw [hr] at h
        cases hl : argLoop mb rest with
        | ok r =>
          simp only [hl, ArgOut.map, ArgOut.ok.injEq] at h
          exact ⟨v', r, rfl, h.symm, .inl ⟨hw, rfl⟩⟩
        | err => simp [hl, ArgOut.map] at h
        | panic => simp [hl, ArgOut.map] at h
    · rw [if_neg hw] at h
      cases hl : argLoop mb rest with
      | ok r =>
        simp only [hl, ArgOut.map, ArgOut.ok.injEq] at h
        exact ⟨v, r, rfl, h.symm, .inr ⟨hw, rfl⟩⟩
      | err => simp [hl, ArgOut.map] at h
      | panic => simp [hl, ArgOut.map] at h
  · rw [if_neg hf] at h; cases h

theorem argLoop_one (mb w : Str) (ws' : List Str) (h : argLoop mb [w] = .ok ws') :
    isFlag w = true ∧ w ≠ "-R".toList ∧ ws' = [w] := by
  rw [argLoop] at h
  by_cases hf : isFlag w = true
  · rw [if_pos hf] at h
    by_cases hw : w = "-R".toList
    · rw [if_pos hw] at h; cases h
    · rw [if_neg hw] at h; cases h; exact ⟨hf, hw, rfl⟩
  · rw [if_neg hf] at h; cases h

theorem valueOfR_step (w v : Str) (rest : List Str) (i : Nat) :
    Spec.ValueOfR (w :: v :: rest) (i + 2) ↔ Spec.ValueOfR rest i := by
  constructor
  · rintro ⟨j, hj, hr⟩
    cases j with
    | zero => omega
    | succ j => exact ⟨j, by omega, by simpa [Nat.mul_succ] using hr⟩
  · rintro ⟨j, hj, hr⟩
    exact ⟨j + 1, by omega, by simpa [Nat.mul_succ] using hr⟩

/-- C78, what is passed on: as many words as the user gave, each as it was, but for the values of -R. Each of those is the printed text of
the value with memory and hosts replaced, of which C48 says what it means. -/
theorem C78_passed (mb : Str) : ∀ ws ws' : List Str, argLoop mb ws = .ok ws' →
    ws'.length = ws.length ∧ ∀ i w w', ws[i]? = some w → ws'[i]? = some w' →
      (¬ Spec.ValueOfR ws i → w' = w) ∧
      (Spec.ValueOfR ws i → ∃ a, parseBsubR w = some a ∧ w' = printReq (replaceMemoryAndHosts mb "1".toList a))
  | [], ws', h => by
    rw [argLoop] at h; cases h
    exact ⟨rfl, by simp⟩
  | [w], ws', h => by
    obtain ⟨-, hw, rfl⟩ := argLoop_one mb w ws' h
    refine ⟨rfl, ?_⟩
    intro i x x' hx hx'
    cases i with
    | zero =>
      simp only [List.getElem?_cons_zero, Option.some.injEq] at hx hx'
      refine ⟨fun _ => hx'.symm.trans hx, ?_⟩
      rintro ⟨j, hj, _⟩
      omega
    | succ i => simp at hx
  | w :: v :: rest, ws', h => by
    obtain ⟨-, v', r, hl, rfl, hv⟩ := argLoop_two mb w v rest ws' h
    obtain ⟨hlen, ih⟩ := C78_passed mb rest r hl
    refine ⟨by simp [hlen], ?_⟩
    intro i x x' hx hx'
    match i, hx, hx' with
    | 0, hx, hx' =>
      simp only [List.getElem?_cons_zero, Option.some.injEq] at hx hx'
      refine ⟨fun _ => hx'.symm.trans hx, ?_⟩
      rintro ⟨j, hj, _⟩
      omega
    | 1, hx, hx' =>
      simp only [List.getElem?_cons_succ, List.getElem?_cons_zero, Option.some.injEq] at hx hx'
      subst hx; subst hx'
      rcases hv with ⟨hw, hr⟩ | ⟨hw, hr⟩
      · refine ⟨fun hn => absurd ⟨0, rfl, by simp [hw]⟩ hn, fun _ => ?_⟩
        unfold rewriteR at hr
        cases hp : parseBsubR v with
        | none => simp [hp] at hr
        | some a => exact ⟨a, rfl, by simpa [hp] using hr.symm⟩
      · refine ⟨fun _ => hr, ?_⟩
        rintro ⟨j, hj, hr'⟩
        have : j = 0 := by omega
        subst this
        simp only [Nat.mul_zero, List.getElem?_cons_zero, Option.some.injEq] at hr'
        exact absurd hr' hw
    | i + 2, hx, hx' =>
      simp only [List.getElem?_cons_succ] at hx hx'
      have := ih i x x' hx hx'
      rw [valueOfR_step]
      exact this

theorem readable_step (w v : Str) (rest : List Str) :
    Spec.Readable (w :: v :: rest) ↔
      (w.head? = some '-' ∧ (w = "-R".toList → ∃ a, parseBsubR v = some a)) ∧ Spec.Readable rest := by
  constructor
  · intro h
    refine ⟨?_, ?_⟩
    · have := h 0 w (by simp)
      refine ⟨this.1, fun hw => ?_⟩
      obtain ⟨v', a, hv, ha⟩ := this.2 hw
      simp at hv
      exact ⟨a, hv ▸ ha⟩
    · intro j x hx
      have := h (j + 1) x (by simpa [Nat.mul_succ] using hx)
      refine ⟨this.1, fun hw => ?_⟩
      obtain ⟨v', a, hv, ha⟩ := this.2 hw
      exact ⟨v', a, by simpa [Nat.mul_succ] using hv, ha⟩
  · rintro ⟨⟨h1, h2⟩, h3⟩ j x hx
    cases j with
    | zero =>
      simp at hx; subst hx
      exact ⟨h1, fun hw => (h2 hw).elim fun a ha => ⟨v, a, by simp, ha⟩⟩
    | succ j =>
      have := h3 j x (by simpa [Nat.mul_succ] using hx)
      refine ⟨this.1, fun hw => ?_⟩
      obtain ⟨v', a, hv, ha⟩ := this.2 hw
      exact ⟨v', a, by simpa [Nat.mul_succ] using hv, ha⟩

/-- C78, when the options are passed on: exactly if every second word starts with a dash and each -R among these has a value that can be
parsed. -/
theorem C78_when (mb : Str) : ∀ ws : List Str, (∃ ws', argLoop mb ws = .ok ws') ↔ Spec.Readable ws
  | [] => by
    constructor
    · intro _ j w h; simp at h
    · intro _; exact ⟨[], rfl⟩
  | [w] => by
    constructor
    · rintro ⟨ws', h⟩ j x hx
      obtain ⟨hf, hw, -⟩ := argLoop_one mb w ws' h
      cases j with
      | zero =>
        simp only [Nat.mul_zero, List.getElem?_cons_zero, Option.some.injEq] at hx
        subst hx
        exact ⟨(isFlag_iff _).1 hf, fun e => absurd e hw⟩
      | succ j => simp [Nat.mul_succ] at hx
    · intro h
      obtain ⟨h1, h2⟩ := h 0 w (by simp)
      refine ⟨[w], ?_⟩
      rw [argLoop, if_pos ((isFlag_iff _).2 h1), if_neg]
      intro e
      obtain ⟨v, a, hv, -⟩ := h2 e
      simp at hv
  | w :: v :: rest => by
    rw [readable_step, ← C78_when mb rest]
    constructor
    · rintro ⟨ws', h⟩
      obtain ⟨hf, v', r, hl, -, hv⟩ := argLoop_two mb w v rest ws' h
      refine ⟨⟨(isFlag_iff _).1 hf, fun hw => ?_⟩, r, hl⟩
      rcases hv with ⟨-, hr⟩ | ⟨hn, -⟩
      · unfold rewriteR at hr
        cases hp : parseBsubR v with
        | none => simp [hp] at hr
        | some a => exact ⟨a, rfl⟩
      · exact absurd hw hn
    · rintro ⟨⟨hf, hw⟩, r, hl⟩
      rw [argLoop, if_pos ((isFlag_iff _).2 hf)]
      by_cases e : w = "-R".toList
      · obtain ⟨a, ha⟩ := hw e
        rw [if_pos e]
        exact ⟨w :: printReq (replaceMemoryAndHosts mb "1".toList a) :: r, by simp only [rewriteR, ha, hl, ArgOut.map, Option.map_some]⟩
      · rw [if_neg e]
        exact ⟨_, by rw [hl]; rfl⟩

/-- C78, no resource string is passed on as it is: a word -R that is followed by a word that is no option is at an even place, so what follows it
is rewritten. -/
theorem C78_none_missed (mb : Str) (ws ws' : List Str) (h : argLoop mb ws = .ok ws') (i : Nat) (v : Str)
    (hr : ws[i]? = some "-R".toList) (hv : ws[i + 1]? = some v) (hn : v.head? ≠ some '-') : Spec.ValueOfR ws (i + 1) := by
  have hread := (C78_when mb ws).1 ⟨ws', h⟩
  rcases Nat.mod_two_eq_zero_or_one i with e | e
  · exact ⟨i / 2, by omega, by rw [show 2 * (i / 2) = i by omega]; exact hr⟩
  · exact absurd (hread ((i + 1) / 2) v (by rw [show 2 * ((i + 1) / 2) = i + 1 by omega]; exact hv)).1 hn

/-- C78, the arguments of bsub: the scheduler's own, which ask for and reserve the job's memory on one host, come first and last, the very last is the command, and between them are the user's, if they
can be passed on. If they cannot, the job is submitted without them, and the error is reported. -/
theorem C78_args_partial (words : Str → Option (List Str)) (a : Ask) (args : List Str) (e : Bool)
    (h : generateBsubArgs words a = some (args, e)) :
    args.take 6 = ["-q".toList, a.queue, "-M".toList, a.memLimit, "-R".toList,
      "select[mem>".toList ++ a.ram ++ "] rusage[mem=".toList ++ a.ram ++ "] span[hosts=1]".toList] ∧ args.getLast? = some a.cmd ∧
    (a.cores ≤ 1000 ∨ ∃ pre n, args = pre ++ ["-n".toList, (toString n).toList, "-J".toList, a.name, "-o".toList, "/dev/null".toList,
        "-e".toList, "/dev/null".toList, a.cmd] ∧ 1000 * (n - 1) < a.cores ∧ a.cores ≤ 1000 * n) ∧
    (∀ o ws, a.misc = some o → words o = some ws →
      (e = false → ∃ ws', argLoop a.ram ws = .ok ws' ∧ (args.drop 6).take ws'.length = ws') ∧
      (e = true ↔ ¬ Spec.Readable ws)) ∧
    (e = true → args = (ownFirst a ++ ownLast a)) := by
  have hlast : ∀ l : List Str, (l ++ ownLast a).getLast? = some a.cmd := by
    intro l
    rw [List.getLast?_append]
    unfold ownLast
    rw [List.getLast?_append]
    simp
  have hn : ∀ l : List Str, a.cores ≤ 1000 ∨ ∃ pre n, l ++ ownLast a = pre ++ ["-n".toList, (toString n).toList, "-J".toList, a.name, "-o".toList, "/dev/null".toList,
        "-e".toList, "/dev/null".toList, a.cmd] ∧ 1000 * (n - 1) < a.cores ∧ a.cores ≤ 1000 * n := by
    intro l
    by_cases hc : a.cores > 1000
    · refine .inr ⟨l, ceilCores a.cores, by simp [ownLast, hc], ?_, ?_⟩
      · unfold ceilCores; rw [Int.fdiv_eq_ediv_of_nonneg _ (by omega)]; omega
      · unfold ceilCores; rw [Int.fdiv_eq_ediv_of_nonneg _ (by omega)]; omega
    · exact .inl (by omega)
  unfold generateBsubArgs at h
  cases hu : userPart words a with
  | panic => rw [hu] at h; cases h
  | ok ws =>
    rw [hu] at h
    cases h
    refine ⟨rfl, hlast _, hn _, ?_, by simp⟩
    intro o ws0 ho hw
    simp only [userPart, ho, parseUserArgs, hw] at hu
    refine ⟨fun _ => ⟨ws, hu, ?_⟩, ?_⟩
    · simp [ownFirst]
    · simp only [Bool.false_eq_true, false_iff, Classical.not_not]
      exact (C78_when _ _).1 ⟨ws, hu⟩
  | err =>
    rw [hu] at h
    cases h
    refine ⟨rfl, hlast _, hn _, ?_, by simp⟩
    intro o ws0 ho hw
    simp only [userPart, ho, parseUserArgs, hw] at hu
    refine ⟨by simp, ?_⟩
    simp only [true_iff]
    intro hr
    obtain ⟨ws', h'⟩ := (C78_when a.ram _).2 hr
    rw [hu] at h'
    cases h'

/-- a last word -R is followed by a read beyond the end of the words, which ends the manager (or the client that validates the options) -/
theorem C78_violated_panic (words : Str → Option (List Str)) (a : Ask) (o : Str) (pre : List Str) (hp : pre.length = 2 * k)
    (ho : a.misc = some o) (hw : words o = some (pre ++ ["-R".toList])) (hpre : Spec.Readable pre) :
    generateBsubArgs words a = none := by
  have key : ∀ (k : Nat) (pre : List Str), pre.length = 2 * k → Spec.Readable pre → argLoop a.ram (pre ++ ["-R".toList]) = .panic := by
    intro k
    induction k with
    | zero =>
      intro pre hl _
      have : pre = [] := List.eq_nil_of_length_eq_zero (by omega)
      subst this
      rfl
    | succ k ih =>
      intro pre hl hr
      match pre, hl, hr with
      | w :: v :: rest, hl, hr =>
        obtain ⟨⟨h1, h2⟩, h3⟩ := (readable_step w v rest).1 hr
        have := ih rest (by simp at hl; omega) h3
        simp only [List.cons_append]
        rw [argLoop, if_pos ((isFlag_iff _).2 h1)]
        by_cases e : w = "-R".toList
        · obtain ⟨x, hx⟩ := h2 e
          rw [if_pos e]
          simp only [rewriteR, hx, this, ArgOut.map, Option.map_some]
        · rw [if_neg e, this]; rfl
      | [_], hl, _ => simp at hl; omega
      | [], hl, _ => simp at hl
  simp only [generateBsubArgs, userPart, ho, parseUserArgs, hw, key k pre hp hpre]

/-- an option of bsub without a value, such as -x, makes all the options be ignored, if an odd number of these precede a value -/
theorem C78_violated_flag : argLoop "1".toList ["-x".toList, "-R".toList, "select[mem>5]".toList] = .err ∧
    argLoop "1".toList ["-x".toList, "-r".toList, "-R".toList, "select[mem>5]".toList] =
      .ok ["-x".toList, "-r".toList, "-R".toList, "select[mem > 1]".toList] := by decide +kernel

/-- the hypotheses are met -/
example : argLoop "200".toList ["-P".toList, "proj".toList, "-R".toList, "rusage[mem=5:tmp=7]".toList, "-x".toList] =
    .ok ["-P".toList, "proj".toList, "-R".toList, "rusage[mem=200:tmp=7]".toList, "-x".toList] := by decide +kernel

example : Spec.Readable ["-P".toList, "proj".toList] := by
  intro j w h
  match j, h with
  | 0, h => simp at h; subst h; exact ⟨rfl, fun e => by simp at e⟩
  | j + 1, h => simp [Nat.mul_succ] at h

/-! ## C79 -/

namespace Spec

/-- bsub accepts the options together with this queue -/
def Accepted (words : Str → Option (List Str)) (bsub : List Str → Bool) (opts queue name : Str) : Prop :=
  ∃ args, generateBsubArgs words (trial queue opts name) = some (args, false) ∧ bsub args = true

/-- LSF does not care about the name of a job -/
def NameFree (words : Str → Option (List Str)) (bsub : List Str → Bool) : Prop :=
  ∀ opts queue n n', Accepted words bsub opts queue n → Accepted words bsub opts queue n'

end Spec

/-- what is in the cache is right for the queues that are asked for with these options -/
def Right (words : Str → Option (List Str)) (bsub : List Str → Bool) (q : Str → Str) (c : Cache) : Prop :=
  ∀ o v, c.lookup o = some v → ∀ n, (v = true ↔ Spec.Accepted words bsub o (q o) n)

theorem validate_right (words : Str → Option (List Str)) (bsub : List Str → Bool) (hn : Spec.NameFree words bsub) (q : Str → Str)
    (c : Cache) (hc : Right words bsub q c) (name opts : Str) (c' : Cache) (v : Bool)
    (h : validate words bsub name c opts (q opts) = some (c', v)) :
    Right words bsub q c' ∧ (v = true ↔ Spec.Accepted words bsub opts (q opts) name) := by
  have add : ∀ b : Bool, (b = true ↔ Spec.Accepted words bsub opts (q opts) name) → Right words bsub q ((opts, b) :: c) := by
    intro b hb o v' hl n
    rw [List.lookup_cons] at hl
    by_cases e : o = opts
    · subst e
      simp only [beq_self_eq_true, Option.some.injEq] at hl
      subst hl
      rw [hb]
      exact ⟨hn _ _ _ _, hn _ _ _ _⟩
    · have : (o == opts) = false := by simpa using e
      rw [this] at hl
      exact hc o v' hl n
  unfold validate at h
  cases hl : c.lookup opts with
  | some w =>
    simp only [hl, Option.some.injEq, Prod.mk.injEq] at h
    obtain ⟨rfl, rfl⟩ := h
    exact ⟨hc, hc opts w hl name⟩
  | none =>
    simp only [hl] at h
    cases hg : generateBsubArgs words (trial (q opts) opts name) with
    | none => simp [hg] at h
    | some x =>
      obtain ⟨args, e⟩ := x
      cases e with
      | true =>
        simp only [hg, Option.some.injEq, Prod.mk.injEq] at h
        obtain ⟨rfl, rfl⟩ := h
        have : (false = true ↔ Spec.Accepted words bsub opts (q opts) name) := by
          simp only [Bool.false_eq_true, false_iff]
          rintro ⟨a, ha, -⟩
          rw [hg] at ha; cases ha
        exact ⟨add _ this, this⟩
      | false =>
        simp only [hg, Option.some.injEq, Prod.mk.injEq] at h
        obtain ⟨rfl, rfl⟩ := h
        have : (bsub args = true ↔ Spec.Accepted words bsub opts (q opts) name) := by
          constructor
          · exact fun hb => ⟨args, hg, hb⟩
          · rintro ⟨a, ha, hb⟩
            rw [hg] at ha; cases ha; exact hb
        exact ⟨add _ this, this⟩

theorem validateAll_right (words : Str → Option (List Str)) (bsub : List Str → Bool) (hn : Spec.NameFree words bsub) (q : Str → Str) :
    ∀ (calls : List (Str × Str × Str)) (c : Cache), Right words bsub q c → (∀ x ∈ calls, x.2.1 = q x.1) →
      ∀ vs, validateAll words bsub c calls = some vs → vs.length = calls.length ∧
        ∀ (i : Nat) (x : Str × Str × Str) (v : Bool), calls[i]? = some x → vs[i]? = some v →
          (v = true ↔ Spec.Accepted words bsub x.1 x.2.1 x.2.2)
  | [], c, _, _, vs, h => by
    rw [validateAll] at h; cases h
    exact ⟨rfl, by simp⟩
  | (opts, queue, name) :: rest, c, hc, hq, vs, h => by
    have hqq : queue = q opts := hq (opts, queue, name) (by simp)
    subst hqq
    rw [validateAll] at h
    cases hv : validate words bsub name c opts (q opts) with
    | none => simp [hv] at h
    | some x =>
      obtain ⟨c', v0⟩ := x
      obtain ⟨hc', hv0⟩ := validate_right words bsub hn q c hc name opts c' v0 hv
      simp only [hv] at h
      cases hr : validateAll words bsub c' rest with
      | none => simp [hr] at h
      | some vs' =>
        simp only [hr, Option.map_some, Option.some.injEq] at h
        subst h
        have ih := validateAll_right words bsub hn q rest c' hc' (fun x hx => hq x (List.mem_cons_of_mem _ hx)) vs' hr
        refine ⟨by simp [ih.1], ?_⟩
        intro i x v hx hvx
        cases i with
        | zero =>
          simp only [List.getElem?_cons_zero, Option.some.injEq] at hx hvx
          subst hx; subst hvx
          exact hv0
        | succ i =>
          simp only [List.getElem?_cons_succ] at hx hvx
          exact ih.2 i x v hx hvx

/-- C79: if the same options always come with the same queue, every answer is that of LSF for these options and this queue. -/
theorem C79_partial (words : Str → Option (List Str)) (bsub : List Str → Bool) (hn : Spec.NameFree words bsub) (q : Str → Str)
    (calls : List (Str × Str × Str)) (hq : ∀ x ∈ calls, x.2.1 = q x.1) (vs : List Bool)
    (h : validateAll words bsub [] calls = some vs) :
    vs.length = calls.length ∧ ∀ (i : Nat) (x : Str × Str × Str) (v : Bool), calls[i]? = some x → vs[i]? = some v →
      (v = true ↔ Spec.Accepted words bsub x.1 x.2.1 x.2.2) :=
  validateAll_right words bsub hn q calls [] (fun o v hl => by simp at hl) hq vs h

/-- an LSF with one queue, which takes any options -/
def oneQueue : List Str → Bool := fun args => args[1]? = some "normal".toList

/-- the words of the options of the examples -/
def plainWords : Str → Option (List Str) := fun s => some (Verif.Util.split ' ' s)

/-- With two queues the answer for the first is given for the second: options for a queue that does not exist are said to be accepted, and those for one that
does to be refused. -/
theorem C79_violated :
    validateAll plainWords oneQueue [] [("-P p".toList, "normal".toList, "a".toList), ("-P p".toList, "nosuch".toList, "b".toList)] = some [true, true] ∧
    validateAll plainWords oneQueue [] [("-P p".toList, "nosuch".toList, "a".toList), ("-P p".toList, "normal".toList, "b".toList)] = some [false, false] ∧
    ¬ Spec.Accepted plainWords oneQueue "-P p".toList "nosuch".toList "b".toList ∧
    Spec.Accepted plainWords oneQueue "-P p".toList "normal".toList "b".toList := by
  refine ⟨by decide +kernel, by decide +kernel, ?_, ?_⟩
  · rintro ⟨args, h, hb⟩
    have : (generateBsubArgs plainWords (trial "nosuch".toList "-P p".toList "b".toList)).map (fun x => oneQueue x.1) = some false := by decide +kernel
    rw [h] at this
    simp [hb] at this
  · refine ⟨ownFirst (trial "normal".toList "-P p".toList "b".toList) ++ ["-P".toList, "p".toList] ++
      ownLast (trial "normal".toList "-P p".toList "b".toList), by decide +kernel, by decide +kernel⟩

/-- the hypotheses of `C79_partial` are met by calls with two kinds of options -/
example : validateAll plainWords oneQueue [] [("-P p".toList, "normal".toList, "a".toList), ("nonsense".toList, "normal".toList, "b".toList),
    ("-P p".toList, "normal".toList, "c".toList)] = some [true, false, true] := by decide +kernel

example : Spec.NameFree plainWords oneQueue := by
  rintro o q n n' ⟨args, h, hb⟩
  unfold generateBsubArgs at h
  have hu : userPart plainWords (trial q o n) = userPart plainWords (trial q o n') := rfl
  cases h' : userPart plainWords (trial q o n) with
  | panic => rw [h'] at h; cases h
  | err => rw [h'] at h; cases h
  | ok ws =>
    rw [h'] at h; cases h
    refine ⟨ownFirst (trial q o n') ++ ws ++ ownLast (trial q o n'), ?_, ?_⟩
    · unfold generateBsubArgs
      rw [← hu, h']
    · have : ∀ m, oneQueue (ownFirst (trial q o m) ++ ws ++ ownLast (trial q o m)) = decide (some q = some "normal".toList) := fun _ => rfl
      rw [this] at hb ⊢
      exact hb

end Verif.Bsub
