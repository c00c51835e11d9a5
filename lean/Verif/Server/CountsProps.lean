import Verif.Server.Counts

/-! # C93: the state counts that web pages show -/

namespace Verif.Server.Counts

/-! ## Specification -/

/-- A job is counted for "+all+" and for its report group. -/
def Counted (t : Option Nat) (j : Job) : Prop := t = none ∨ t = some j.group

instance (t : Option Nat) (j : Job) : Decidable (Counted t j) := inferInstanceAs (Decidable (_ ∨ _))

/-- The number of jobs that a listing shows in a state. -/
def number (t : Option Nat) (st : State) (js : List Job) : Nat := js.countP fun j => Counted t j ∧ shown j = st

/-- What a page that adds up what it is sent has for a state (static/status.js): what came in less what went out. -/
def view (t : Option Nat) (st : State) : List Push → Int
  | [] => 0
  | p :: ps => (if p.target = t then (if p.to = st then (p.n : Int) else 0) - (if p.frm = st then (p.n : Int) else 0) else 0) +
      view t st ps

/-- The job is running for a client, has the mark of a run that was lost, and was not started since. -/
def Stale (j : Job) : Prop := j.sub = .run ∧ j.lost = true ∧ j.started = false

/-- The event leaves the counts right: no stale job leaves the run sub-queue or is touched, no job is started twice or
lost twice, and none gets another report group. -/
def Fine (js : List Job) : Ev → Prop
  | .move _ _ is => ∀ i ∈ is, ∀ j, js[i]? = some j → ¬ Stale j
  | .touch i => ∀ j, js[i]? = some j → ¬ Stale j
  | .ttr i => ∀ j, js[i]? = some j → ¬ Stale j ∧ (j.started = true → j.lost = false)
  | .start i => ∀ j, js[i]? = some j → j.sub = .run → j.started = true → j.lost = false
  | .finish i => ∀ j, js[i]? = some j → ¬ Stale j
  | .regroup i g => ∀ j, js[i]? = some j → j.group = g
  | _ => True

/-- All events of a history are. -/
def AllFine : List Job → List Ev → Prop
  | _, [] => True
  | js, e :: es => Fine js e ∧ AllFine (step js e).1 es

/-! ## Lemmas -/

/-- What the page has been told of a job. -/
def seen (j : Job) : State :=
  match j.sub with
  | .run => if j.lost && j.started then .lost else .running
  | .removed => if j.complete then .complete else .deleted
  | s => ofSub s

theorem seen_shown {j : Job} (h : ¬ Stale j) : seen j = shown j := by
  obtain ⟨g, sub, lost, started, complete⟩ := j
  cases sub <;> simp [seen, shown]
  cases lost <;> cases started <;> simp [Stale] at h ⊢

private def ind (t : Option Nat) (st : State) (j : Job) : Int := if Counted t j ∧ seen j = st then 1 else 0

private def total (t : Option Nat) (st : State) (js : List Job) : Int := (js.map (ind t st)).sum

theorem view_append (t : Option Nat) (st : State) (a b : List Push) : view t st (a ++ b) = view t st a + view t st b := by
  induction a with
  | nil => simp [view]
  | cons p ps ih => simp only [List.cons_append, view, ih]; omega

private theorem total_append (t : Option Nat) (st : State) (a b : List Job) :
    total t st (a ++ b) = total t st a + total t st b := by
  unfold total; rw [List.map_append, List.sum_append]

private theorem total_cons (t : Option Nat) (st : State) (j : Job) (b : List Job) :
    total t st (j :: b) = ind t st j + total t st b := by
  simp [total]

private theorem total_modify (t : Option Nat) (st : State) (f : Job → Job) : ∀ (js : List Job) (i : Nat) (j : Job),
    js[i]? = some j → total t st (js.modify i f) = total t st js + (ind t st (f j) - ind t st j)
  | [], i, j, h => by simp at h
  | x :: xs, 0, j, h => by
    simp only [List.getElem?_cons_zero, Option.some.injEq] at h
    subst h
    simp only [List.modify_zero_cons, total_cons]; omega
  | x :: xs, i + 1, j, h => by
    simp only [List.getElem?_cons_succ] at h
    simp only [List.modify_succ_cons, total_cons, total_modify t st f xs i j h]; omega

private theorem filterMap_same {f g : Nat → Option Job} : ∀ {is : List Nat}, (∀ k ∈ is, f k = g k) →
    is.filterMap f = is.filterMap g
  | [], _ => rfl
  | k :: is, h => by
    rw [List.filterMap_cons, List.filterMap_cons, h k (by simp), filterMap_same fun x hx => h x (by simp [hx])]

private theorem total_shift (t : Option Nat) (st : State) (f : Job → Job) : ∀ (is : List Nat) (js : List Job), is.Nodup →
    (∀ i ∈ is, (js[i]?).isSome) → total t st (is.foldl (fun js i => js.modify i f) js) =
      total t st js + ((is.filterMap (js[·]?)).map fun j => ind t st (f j) - ind t st j).sum
  | [], js, _, _ => by simp
  | i :: is, js, hn, hs => by
    obtain ⟨hni, hn⟩ := List.nodup_cons.1 hn
    obtain ⟨j, hj⟩ := Option.isSome_iff_exists.1 (hs i (by simp))
    have hget : ∀ k ∈ is, (js.modify i f)[k]? = js[k]? := by
      intro k hk
      have : i ≠ k := fun e => hni (by rw [e]; exact hk)
      rw [List.getElem?_modify]
      simp [this]
    rw [List.foldl_cons, total_shift t st f is _ hn (fun k hk => by rw [hget k hk]; exact hs k (by simp [hk])),
      total_modify t st f js i j hj]
    have : is.filterMap ((js.modify i f)[·]?) = is.filterMap (js[·]?) := filterMap_same hget
    rw [this, List.filterMap_cons_some (by exact hj)]
    simp only [List.map_cons, List.sum_cons]; omega

private theorem mem_distinct {g : Nat} : ∀ {gs : List Nat}, g ∈ distinct gs ↔ g ∈ gs
  | [] => by simp [distinct]
  | x :: xs => by
    simp only [distinct]
    split
    · rename_i h
      rw [mem_distinct]
      simp only [List.mem_cons]
      constructor
      · exact Or.inr
      · rintro (rfl | h')
        · simpa using h
        · exact h'
    · simp only [List.mem_cons, mem_distinct]

private theorem nodup_distinct : ∀ (gs : List Nat), (distinct gs).Nodup
  | [] => by simp [distinct]
  | x :: xs => by
    simp only [distinct]
    split
    · exact nodup_distinct xs
    · rename_i h
      rw [List.nodup_cons]
      exact ⟨fun hm => h (by simpa using mem_distinct.1 hm), nodup_distinct xs⟩

private theorem view_groups (t : Option Nat) (st frm to : State) (gs : List Nat) : view t st (perGroup frm to gs) =
    match t with
    | none => 0
    | some g => (if to = st then (gs.count g : Int) else 0) - (if frm = st then (gs.count g : Int) else 0) := by
  unfold perGroup
  have key : ∀ ds : List Nat, ds.Nodup → view t st (ds.map fun g => (⟨some g, frm, to, gs.count g⟩ : Push)) =
      match t with
      | none => 0
      | some g => if g ∈ ds then
          (if to = st then (gs.count g : Int) else 0) - (if frm = st then (gs.count g : Int) else 0) else 0 := by
    intro ds
    induction ds with
    | nil => intro _; cases t <;> simp [view]
    | cons d ds ih =>
      intro hn
      obtain ⟨hd, hn⟩ := List.nodup_cons.1 hn
      simp only [List.map_cons, view, ih hn]
      cases t with
      | none => simp
      | some g =>
        simp only [Option.some.injEq, List.mem_cons]
        by_cases e : d = g
        · subst e; simp [hd]
        · simp [e, Ne.symm e]
  rw [key _ (nodup_distinct gs)]
  cases t with
  | none => rfl
  | some g =>
    simp only
    by_cases h : g ∈ gs
    · rw [if_pos (mem_distinct.2 h)]
    · rw [if_neg (fun h' => h (mem_distinct.1 h')), List.count_eq_zero.2 h]; simp

/-- What a job of the batch contributes. -/
private def gain (t : Option Nat) (st to frm : State) (j : Job) : Int :=
  if Counted t j then (if to = st then 1 else 0) - (if frm = st then 1 else 0) else 0

private theorem gain_sum (t : Option Nat) (st to frm : State) (l : List Job) :
    (l.map (gain t st to frm)).sum = match t with
      | none => (if to = st then (l.length : Int) else 0) - (if frm = st then (l.length : Int) else 0)
      | some g => (if to = st then ((l.map (·.group)).count g : Int) else 0) -
          (if frm = st then ((l.map (·.group)).count g : Int) else 0) := by
  induction l with
  | nil => cases t <;> simp
  | cons j l ih =>
    rw [List.map_cons, List.sum_cons, ih]
    cases t with
    | none =>
      simp only [gain, Counted, true_or, if_true, List.length_cons]
      split <;> split <;> omega
    | some g =>
      simp only [gain, Counted, Option.some.injEq, reduceCtorEq, false_or, List.map_cons, List.count_cons]
      by_cases e : g = j.group
      · subst e; simp only [if_true, beq_self_eq_true]; split <;> split <;> omega
      · simp only [e, if_false, beq_iff_eq, Ne.symm e]; split <;> split <;> omega

private theorem sum_filter (p : Job → Bool) (f : Job → Int) (l : List Job) :
    (l.map f).sum = ((l.filter fun j => !p j).map f).sum + ((l.filter p).map f).sum := by
  induction l with
  | nil => simp
  | cons j l ih =>
    simp only [List.map_cons, List.sum_cons, List.filter_cons, ih]
    cases p j <;> simp <;> omega

private theorem length_filter (p : Job → Bool) : ∀ (l : List Job),
    l.length = (l.filter fun j => !p j).length + (l.filter p).length
  | [] => rfl
  | j :: l => by
    simp only [List.filter_cons, List.length_cons, length_filter p l]
    cases p j <;> simp <;> omega

/-- The whole effect of what the callback sends. -/
private theorem view_changed (t : Option Nat) (st : State) (fromQ toQ : Sub) (data : List Job) :
    view t st (changed fromQ toQ data) = (data.map fun j =>
      gain t st (toState toQ data) (if ofSub fromQ = .running ∧ j.lost = true then .lost else ofSub fromQ) j).sum := by
  unfold changed
  simp only
  generalize toState toQ data = to
  generalize ofSub fromQ = frm
  generalize hp : (fun j : Job => decide (frm = .running) && j.lost) = p
  have hpj : ∀ j, p j = (decide (frm = .running) && j.lost) := fun j => by rw [← hp]
  rw [sum_filter p]
  have e1 : (data.filter fun j => !p j).map (fun j => gain t st to (if frm = .running ∧ j.lost = true then .lost else frm) j) =
      (data.filter fun j => !p j).map (gain t st to frm) := by
    apply List.map_congr_left
    intro j hj
    have : ¬ (frm = .running ∧ j.lost = true) := by
      rintro ⟨a, b⟩
      have := (List.mem_filter.1 hj).2
      simp [hpj, a, b] at this
    rw [if_neg this]
  have e2 : (data.filter p).map (fun j => gain t st to (if frm = .running ∧ j.lost = true then .lost else frm) j) =
      (data.filter p).map (gain t st to .lost) := by
    apply List.map_congr_left
    intro j hj
    have : frm = .running ∧ j.lost = true := by
      have := (List.mem_filter.1 hj).2
      simpa [hpj] using this
    rw [if_pos this]
  rw [e1, e2, gain_sum, gain_sum, view_append, view_append, view_groups]
  have hlen := length_filter p data
  by_cases hg : ((data.filter p).map (·.group)).length > 0
  · rw [if_pos hg, view_append, view_groups]
    simp only [List.length_map] at hg
    cases t with
    | none =>
      simp only [view, if_true, List.length_map]
      split <;> split <;> omega
    | some g => simp [view, hpj]
  · rw [if_neg hg]
    simp only [List.length_map] at hg
    have h0 : data.filter p = [] := List.length_eq_zero_iff.1 (by omega)
    cases t with
    | none =>
      simp only [view, if_true, List.length_map, h0, List.length_nil] at hlen ⊢
      split <;> split <;> simp_all
    | some g => simp [view, h0, hpj]

private theorem gain_ind (t : Option Nat) (st : State) (j j' : Job) (hg : j'.group = j.group) :
    ind t st j' - ind t st j = gain t st (seen j') (seen j) j := by
  have hc : Counted t j' ↔ Counted t j := by unfold Counted; rw [hg]
  unfold ind gain
  by_cases h : Counted t j
  · simp [h, hc.2 h]
  · simp [h, mt hc.1 h]

private theorem shift_total (t : Option Nat) (st : State) (js : List Job) (fromQ toQ : Sub) (is : List Nat)
    (hn : is.Nodup) (hf : ∀ i ∈ is, (js[i]?.map (·.sub)) = some fromQ) (hto : toQ ≠ .run)
    (h1 : toQ = .removed → is.length = 1) (h2 : fromQ ≠ .removed)
    (hs : ∀ i ∈ is, ∀ j, js[i]? = some j → ¬ Stale j) :
    total t st (shift js fromQ toQ is).1 = total t st js + view t st (shift js fromQ toQ is).2 := by
  unfold shift
  simp only
  rw [total_shift t st _ is js hn (fun i hi => by
    have := hf i hi
    cases h : js[i]? with
    | none => rw [h] at this; simp at this
    | some j => rfl), view_changed]
  congr 2
  apply List.map_congr_left
  intro j hj
  obtain ⟨i, hi, hij⟩ := List.mem_filterMap.1 hj
  have hsub : j.sub = fromQ := by
    have := hf i hi
    rw [hij] at this
    simpa using this
  rw [gain_ind t st j { j with sub := toQ } rfl]
  have hstale := hs i hi j hij
  congr 1
  · unfold toState
    by_cases hr : toQ = .removed
    · have hlen := h1 hr
      obtain ⟨k, rfl⟩ : ∃ k, is = [k] := by
        match is, hlen with
        | [k], _ => exact ⟨k, rfl⟩
      simp only [List.mem_singleton] at hi
      subst hi
      rw [if_pos hr]
      simp [seen, hr, hij]
    · rw [if_neg hr]
      cases toQ <;> simp [seen, ofSub] at hto hr ⊢
  · rw [← hsub]
    obtain ⟨g, sub, lost, started, complete⟩ := j
    simp only at hsub
    subst hsub
    cases sub <;> simp [seen, ofSub] at h2 ⊢
    cases lost <;> cases started <;> simp [Stale] at hstale ⊢

private theorem reserve_total (t : Option Nat) (st : State) (js : List Job) (i : Nat)
    (hf : (js[i]?.map (·.sub)) = some .ready) :
    total t st ((shift js .ready .run [i]).1.modify i fun j => { j with started := false }) =
      total t st js + view t st (shift js .ready .run [i]).2 := by
  obtain ⟨j, hj, hsub⟩ : ∃ j, js[i]? = some j ∧ j.sub = .ready := by
    cases h : js[i]? with
    | none => rw [h] at hf; simp at hf
    | some j => exact ⟨j, rfl, by simpa [h] using hf⟩
  unfold shift
  simp only [List.foldl_cons, List.foldl_nil]
  rw [total_modify t st _ (js.modify i fun j => { j with sub := .run }) i { j with sub := .run } (by
      rw [List.getElem?_modify, hj]; simp), total_modify t st _ js i j hj, view_changed]
  have hd : [i].filterMap (js[·]?) = [j] := by simp [hj]
  rw [hd]
  simp only [List.map_cons, List.map_nil, List.sum_cons, List.sum_nil, toState, reduceCtorEq, if_false, ofSub, false_and]
  have := gain_ind t st j { j with sub := .run, started := false } rfl
  have e1 : seen { j with sub := .run, started := false } = .running := by simp [seen]
  have e2 : seen j = .ready := by simp [seen, hsub, ofSub]
  rw [e1, e2] at this
  omega

private theorem one_push (t : Option Nat) (st frm to : State) (j : Job) :
    view t st [⟨none, frm, to, 1⟩, ⟨some j.group, frm, to, 1⟩] = gain t st to frm j := by
  unfold gain
  cases t with
  | none => simp [view, Counted]
  | some g =>
    by_cases e : g = j.group
    · subst e; simp [view, Counted]
    · simp [view, Counted, e, Ne.symm e]

private theorem step_total (t : Option Nat) (st : State) (hst : st ≠ .new) (js : List Job) (e : Ev) (h : Fine js e) :
    total t st (step js e).1 = total t st js + view t st (step js e).2 := by
  cases e with
  | add toQ gs =>
    simp only [step]
    split
    · simp [view]
    · rename_i hc
      simp only [not_or] at hc
      rw [total_append, view_changed]
      congr 1
      unfold total
      congr 1
      apply List.map_congr_left
      intro j hj
      obtain ⟨g, hg, rfl⟩ := List.mem_map.1 hj
      have hn : State.new ≠ st := Ne.symm hst
      obtain ⟨g, l⟩ := g
      generalize hjj : (⟨g, toQ, l && toQ ≠ .run, toQ = .run, false⟩ : Job) = j
      have hse : seen j = ofSub toQ := by
        rw [← hjj]
        cases toQ <;> simp [seen, ofSub] at hc ⊢
      simp only [ofSub, reduceCtorEq, false_and, if_false, ind, gain, toState, if_neg hc.2.1, hjj, hse, if_neg hn]
      by_cases hcc : Counted t j <;> simp [hcc]
  | move fromQ toQ is =>
    simp only [step]
    split
    · rename_i hc
      obtain ⟨a, b, c, d, e, f, g, i⟩ := hc
      exact shift_total t st js fromQ toQ is e i d g b h
    · simp [view]
  | reserve i =>
    simp only [step]
    split
    · rename_i hc
      exact reserve_total t st js i hc
    · simp [view]
  | start i =>
    simp only [step]
    split
    · rename_i hc
      cases hj : js[i]? with
      | none => rw [hj] at hc; simp at hc
      | some j =>
        have hsub : j.sub = .run := by simpa [hj] using hc
        rw [total_modify t st _ js i j hj, gain_ind t st j { j with started := true, lost := false } rfl]
        have e1 : seen { j with started := true, lost := false } = .running := by simp [seen, hsub]
        have e2 : seen j = .running := by
          have hh := h j hj hsub
          cases hl : j.lost <;> cases hs : j.started <;> simp [seen, hsub, hl, hs]
          exact absurd (hh hs) (by simp [hl])
        rw [e1, e2]; simp [view, gain]
    · simp [view]
  | touch i =>
    simp only [step]
    cases hj : js[i]? with
    | none => simp [view]
    | some j =>
      simp only
      split
      · rename_i hc
        rw [total_modify t st _ js i j hj, gain_ind t st j { j with lost := false } rfl, one_push]
        have hns := h j hj
        have e1 : seen { j with lost := false } = .running := by simp [seen, hc.1]
        have e2 : seen j = .lost := by
          cases hs : j.started with
          | true => simp [seen, hc.1, hc.2, hs]
          | false => exact absurd ⟨hc.1, hc.2, hs⟩ hns
        rw [e1, e2]
      · simp [view]
  | ttr i =>
    simp only [step]
    cases hj : js[i]? with
    | none => simp [view]
    | some j =>
      simp only
      obtain ⟨hns, hl⟩ := h j hj
      split
      · rename_i hsub
        split
        · rename_i hs
          rw [total_modify t st _ js i j hj, gain_ind t st j { j with lost := true } rfl, one_push]
          have e1 : seen { j with lost := true } = .lost := by simp [seen, hsub, hs]
          have e2 : seen j = .running := by simp [seen, hsub, hl hs]
          rw [e1, e2]
        · exact shift_total t st js .run .delay [i] (by simp) (by simp [hj, hsub]) (by decide) (by simp) (by decide)
            (by intro k hk j' hj'; simp only [List.mem_singleton] at hk; subst hk; rw [hj] at hj'; cases hj'; exact hns)
      · simp [view]
  | finish i =>
    simp only [step]
    split
    · rename_i hc
      cases hj : js[i]? with
      | none => rw [hj] at hc; simp at hc
      | some j =>
        have hsub : j.sub = .run := by simpa [hj] using hc
        rw [total_modify t st _ js i j hj, gain_ind t st j { j with complete := true } rfl]
        have : seen { j with complete := true } = seen j := by simp [seen, hsub]
        rw [this]; simp [view, gain]
    · simp [view]
  | regroup i g =>
    simp only [step, view]
    cases hj : js[i]? with
    | none =>
      have : js.modify i (fun j => { j with group := g }) = js := by
        rw [List.modify_eq_self]
        exact List.getElem?_eq_none_iff.1 hj
      rw [this]; omega
    | some j =>
      rw [total_modify t st _ js i j hj]
      have : ({ j with group := g } : Job) = j := by rw [← h j hj]
      rw [this]; omega

private theorem run_total (t : Option Nat) (st : State) (hst : st ≠ .new) : ∀ (es : List Ev) (js : List Job),
    AllFine js es → total t st (run js es).1 = total t st js + view t st (run js es).2
  | [], js, _ => by simp [run, view]
  | e :: es, js, h => by
    simp only [run]
    rw [run_total t st hst es _ h.2, step_total t st hst js e h.1, view_append]; omega

private theorem total_number (t : Option Nat) (st : State) : ∀ (js : List Job), (∀ j ∈ js, ¬ Stale j) →
    total t st js = number t st js
  | [], _ => rfl
  | j :: js, h => by
    rw [total_cons, total_number t st js fun x hx => h x (by simp [hx])]
    unfold number ind
    rw [List.countP_cons, seen_shown (h j (by simp))]
    by_cases hc : Counted t j ∧ shown j = st
    · rw [if_pos hc, if_pos (by simpa using hc)]; simp; omega
    · rw [if_neg hc, if_neg (by simpa using hc)]; simp

private theorem sum_add (l : List Nat) (f g : Nat → Int) : (l.map fun x => f x + g x).sum = (l.map f).sum + (l.map g).sum := by
  induction l with
  | nil => rfl
  | cons x l ih => simp only [List.map_cons, List.sum_cons, ih]; omega

private theorem sum_zero (l : List Nat) (f : Nat → Int) (h : ∀ x ∈ l, f x = 0) : (l.map f).sum = 0 := by
  induction l with
  | nil => rfl
  | cons x l ih =>
    simp only [List.map_cons, List.sum_cons, ih fun y hy => h y (by simp [hy]), h x (by simp)]; rfl

private theorem gain_groups (gs : List Nat) (hn : gs.Nodup) (st to frm : State) (j : Job) (hj : j.group ∈ gs) :
    gain none st to frm j = (gs.map fun g => gain (some g) st to frm j).sum := by
  induction gs with
  | nil => simp at hj
  | cons g gs ih =>
    obtain ⟨hg, hn⟩ := List.nodup_cons.1 hn
    rw [List.map_cons, List.sum_cons]
    by_cases e : g = j.group
    · rw [sum_zero]
      · simp [gain, Counted, e]
      · intro x hx
        have : x ≠ j.group := fun e' => hg (by rw [e, ← e']; exact hx)
        simp [gain, Counted, this]
    · rw [← ih hn (by simpa [Ne.symm e] using hj)]
      simp [gain, Counted, e]

/-- What is sent for "+all+" is what is sent for the groups. -/
private def Bal (gs : List Nat) (ps : List Push) : Prop := ∀ st, view none st ps = (gs.map fun g => view (some g) st ps).sum

private theorem bal_nil (gs : List Nat) : Bal gs [] := fun st => by
  rw [sum_zero]
  · rfl
  · intro x _; rfl

private theorem bal_append {gs : List Nat} {a b : List Push} (ha : Bal gs a) (hb : Bal gs b) : Bal gs (a ++ b) := fun st => by
  simp only [view_append, sum_add, ha st, hb st]

private theorem bal_changed {gs : List Nat} (hn : gs.Nodup) (fromQ toQ : Sub) (data : List Job)
    (hd : ∀ j ∈ data, j.group ∈ gs) : Bal gs (changed fromQ toQ data) := fun st => by
  simp only [view_changed]
  generalize toState toQ data = to
  induction data with
  | nil => rw [sum_zero]; rfl; intro x _; rfl
  | cons j l ih =>
    simp only [List.map_cons, List.sum_cons, sum_add]
    rw [ih fun x hx => hd x (by simp [hx]), gain_groups gs hn st _ _ j (hd j (by simp))]

private theorem bal_one {gs : List Nat} (hn : gs.Nodup) (frm to : State) (j : Job) (hj : j.group ∈ gs) :
    Bal gs [⟨none, frm, to, 1⟩, ⟨some j.group, frm, to, 1⟩] := fun st => by
  simp only [one_push, gain_groups gs hn st to frm j hj]

/-- The groups that jobs can have: those they have and those that they are given. -/
def Groups (gs : List Nat) (js : List Job) (es : List Ev) : Prop :=
  (∀ j ∈ js, j.group ∈ gs) ∧ ∀ e ∈ es, match e with
    | .add _ d => ∀ x ∈ d, x.1 ∈ gs
    | .regroup _ g => g ∈ gs
    | _ => True

private theorem modify_groups {gs : List Nat} {f : Job → Job} (hf : ∀ j, j.group ∈ gs → (f j).group ∈ gs) :
    ∀ {js : List Job} {i : Nat}, (∀ j ∈ js, j.group ∈ gs) → ∀ j ∈ js.modify i f, j.group ∈ gs
  | [], i, _, j, hj => by simp at hj
  | x :: xs, 0, h, j, hj => by
    simp only [List.modify_zero_cons, List.mem_cons] at hj
    rcases hj with rfl | hj
    · exact hf x (h x (by simp))
    · exact h j (by simp [hj])
  | x :: xs, i + 1, h, j, hj => by
    simp only [List.modify_succ_cons, List.mem_cons] at hj
    rcases hj with rfl | hj
    · exact h _ (by simp)
    · exact modify_groups hf (fun y hy => h y (by simp [hy])) j hj

private theorem shift_groups {gs : List Nat} (hn : gs.Nodup) {js : List Job} (h : ∀ j ∈ js, j.group ∈ gs) (fromQ toQ : Sub)
    (is : List Nat) : (∀ j ∈ (shift js fromQ toQ is).1, j.group ∈ gs) ∧ Bal gs (shift js fromQ toQ is).2 := by
  constructor
  · unfold shift
    simp only
    induction is generalizing js with
    | nil => exact h
    | cons i is ih => exact ih (modify_groups (f := fun j => { j with sub := toQ }) (fun j hj => hj) h)
  · apply bal_changed hn
    intro j hj
    obtain ⟨i, _, hi⟩ := List.mem_filterMap.1 hj
    exact h j (List.mem_of_getElem? hi)

private theorem step_groups {gs : List Nat} (hn : gs.Nodup) {js : List Job} {e : Ev} {es : List Ev}
    (h : Groups gs js (e :: es)) : Groups gs (step js e).1 es ∧ Bal gs (step js e).2 := by
  obtain ⟨hj, he⟩ := h
  have hes : ∀ e ∈ es, match e with
    | .add _ d => ∀ x ∈ d, x.1 ∈ gs
    | .regroup _ g => g ∈ gs
    | _ => True := fun x hx => he x (by simp [hx])
  have he := he e (by simp)
  suffices hh : (∀ j ∈ (step js e).1, j.group ∈ gs) ∧ Bal gs (step js e).2 from ⟨⟨hh.1, hes⟩, hh.2⟩
  cases e with
  | add toQ d =>
    simp only at he
    simp only [step]
    split
    · exact ⟨hj, bal_nil gs⟩
    · have hd : ∀ j ∈ d.map (fun g => (⟨g.1, toQ, g.2 && toQ ≠ .run, toQ = .run, false⟩ : Job)), j.group ∈ gs := by
        intro j hj'
        obtain ⟨g, hg, rfl⟩ := List.mem_map.1 hj'
        exact he g hg
      refine ⟨?_, bal_changed hn _ _ _ hd⟩
      intro j hj'
      rcases List.mem_append.1 hj' with h' | h'
      · exact hj j h'
      · exact hd j h'
  | move fromQ toQ is =>
    simp only [step]
    split
    · exact shift_groups hn hj _ _ _
    · exact ⟨hj, bal_nil gs⟩
  | reserve i =>
    simp only [step]
    split
    · have := shift_groups hn hj .ready .run [i]
      exact ⟨modify_groups (f := fun j => { j with started := false }) (fun _ h => h) this.1, this.2⟩
    · exact ⟨hj, bal_nil gs⟩
  | start i =>
    simp only [step]
    split
    · exact ⟨modify_groups (f := fun j => { j with started := true, lost := false }) (fun _ h => h) hj, bal_nil gs⟩
    · exact ⟨hj, bal_nil gs⟩
  | touch i =>
    simp only [step]
    cases hi : js[i]? with
    | none => exact ⟨hj, bal_nil gs⟩
    | some j =>
      simp only
      split
      · exact ⟨modify_groups (f := fun j => { j with lost := false }) (fun _ h => h) hj, bal_one hn _ _ j (hj j (List.mem_of_getElem? hi))⟩
      · exact ⟨hj, bal_nil gs⟩
  | ttr i =>
    simp only [step]
    cases hi : js[i]? with
    | none => exact ⟨hj, bal_nil gs⟩
    | some j =>
      simp only
      split
      · split
        · exact ⟨modify_groups (f := fun j => { j with lost := true }) (fun _ h => h) hj, bal_one hn _ _ j (hj j (List.mem_of_getElem? hi))⟩
        · exact shift_groups hn hj _ _ _
      · exact ⟨hj, bal_nil gs⟩
  | finish i =>
    simp only [step]
    split
    · exact ⟨modify_groups (f := fun j => { j with complete := true }) (fun _ h => h) hj, bal_nil gs⟩
    · exact ⟨hj, bal_nil gs⟩
  | regroup i g => exact ⟨modify_groups (fun _ _ => he) hj, bal_nil gs⟩

private theorem run_groups {gs : List Nat} (hn : gs.Nodup) : ∀ {es : List Ev} {js : List Job}, Groups gs js es →
    Bal gs (run js es).2
  | [], _, _ => bal_nil gs
  | e :: es, js, h => by
    have := step_groups hn h
    exact bal_append this.2 (run_groups hn this.1)

private theorem view_snapshot (t : Option Nat) (st : State) (h1 : st ≠ .new) (h2 : st ≠ .deleted) (js : List Job) :
    view t st (snapshot t js) = js.countP fun j => shown j = st := by
  have key : ∀ l : List State, l.Nodup → view t st (l.filterMap fun s =>
      if (js.countP fun j => shown j = s) > 0 then some ⟨t, .new, s, js.countP fun j => shown j = s⟩ else none) =
      if st ∈ l then ((js.countP fun j => shown j = st : Nat) : Int) else 0 := by
    intro l
    induction l with
    | nil => intro _; simp [view]
    | cons s l ih =>
      intro hn
      obtain ⟨hs, hn⟩ := List.nodup_cons.1 hn
      rw [List.filterMap_cons]
      by_cases e : s = st
      · subst e
        by_cases hp : (js.countP fun j => decide (shown j = s)) > 0
        · simp only [hp, if_true, view, ih hn, hs, if_false, List.mem_cons, true_or, if_neg (Ne.symm h1)]; omega
        · simp only [hp, if_false, ih hn, hs, List.mem_cons, true_or, if_true]; omega
      · by_cases hp : (js.countP fun j => decide (shown j = s)) > 0
        · simp only [hp, if_true, view, ih hn, if_neg e, if_neg (Ne.symm h1), List.mem_cons, Ne.symm e, false_or]; omega
        · simp only [hp, if_false, ih hn, List.mem_cons, Ne.symm e, false_or]
  rw [snapshot, key _ (by decide), if_pos]
  cases st <;> simp at h1 h2 ⊢

private theorem total_stale (t : Option Nat) : ∀ (js : List Job),
    total t .running js = number t .running js + js.countP (fun j => Counted t j ∧ j.sub = .run ∧ j.lost ∧ !j.started) ∧
    total t .lost js = number t .lost js - js.countP (fun j => Counted t j ∧ j.sub = .run ∧ j.lost ∧ !j.started)
  | [] => ⟨rfl, rfl⟩
  | j :: js => by
    obtain ⟨h1, h2⟩ := total_stale t js
    rw [total_cons, total_cons, h1, h2]
    unfold number ind
    simp only [List.countP_cons]
    obtain ⟨g, sub, lost, started, complete⟩ := j
    by_cases hc : Counted t ⟨g, sub, lost, started, complete⟩
    · cases sub <;> cases lost <;> cases started <;> cases complete <;> simp [hc, seen, shown, ofSub] <;> omega
    · simp [hc]

/-! ## Properties -/

/-- C93: from the time on that a page has the right counts, as long as events are fine, it has the right counts whenever
no job has a mark left over from a lost run. -/
theorem C93_counts_partial (js : List Job) (es : List Ev) (hf : AllFine js es) (h0 : ∀ j ∈ js, ¬ Stale j)
    (h1 : ∀ j ∈ (run js es).1, ¬ Stale j) (t : Option Nat) (st : State) (hst : st ≠ .new) :
    (number t st (run js es).1 : Int) = number t st js + view t st (run js es).2 := by
  rw [← total_number t st _ h0, ← total_number t st _ h1, run_total t st hst es js hf]

/-- C93: a page that saw all from the start has what a listing has. -/
theorem C93_start_partial (es : List Ev) (hf : AllFine [] es) (h1 : ∀ j ∈ (run [] es).1, ¬ Stale j) (t : Option Nat)
    (st : State) (hst : st ≠ .new) : view t st (run [] es).2 = number t st (run [] es).1 := by
  have := C93_counts_partial [] es hf (by simp) h1 t st hst
  rw [this]; simp [number]

/-- C93: a count never is below nought as long as events are fine. -/
theorem C93_positive_partial (es : List Ev) (hf : AllFine [] es) (h1 : ∀ j ∈ (run [] es).1, ¬ Stale j) (t : Option Nat)
    (st : State) (hst : st ≠ .new) : 0 ≤ view t st (run [] es).2 := by
  rw [C93_start_partial es hf h1 t st hst]; exact Int.natCast_nonneg _

/-- C93: jobs with a mark left over from a lost run are counted as running although they are listed as lost: this is all
that the page and the listing differ by. -/
theorem C93_stale_partial (es : List Ev) (hf : AllFine [] es) (t : Option Nat) :
    view t .running (run [] es).2 = number t .running (run [] es).1 +
      (run [] es).1.countP (fun j => Counted t j ∧ j.sub = .run ∧ j.lost ∧ !j.started) ∧
    view t .lost (run [] es).2 = number t .lost (run [] es).1 -
      (run [] es).1.countP (fun j => Counted t j ∧ j.sub = .run ∧ j.lost ∧ !j.started) := by
  have h := total_stale t (run [] es).1
  rw [run_total t .running (by decide) es [] hf, run_total t .lost (by decide) es [] hf] at h
  simpa [total] using h

/-- C93: whatever happens, what is sent for all jobs together is the sum of what is sent for the report groups. -/
theorem C93_sum (gs : List Nat) (hn : gs.Nodup) (js : List Job) (es : List Ev) (h : Groups gs js es) (st : State) :
    view none st (run js es).2 = (gs.map fun g => view (some g) st (run js es).2).sum :=
  run_groups hn h st

/-- C93: what a page gets when it opens is what a listing has. -/
theorem C93_snapshot (t : Option Nat) (js : List Job) (st : State) (h1 : st ≠ .new) (h2 : st ≠ .deleted) :
    view t st (snapshot t js) = js.countP fun j => shown j = st :=
  view_snapshot t st h1 h2 js

/-- C93: a page that opens and follows a report group has what a listing of the group has. -/
theorem C93_follow_partial (js : List Job) (es : List Ev) (hf : AllFine js es) (h0 : ∀ j ∈ js, ¬ Stale j)
    (h1 : ∀ j ∈ (run js es).1, ¬ Stale j) (g : Nat) (st : State) (hn : st ≠ .new) (hd : st ≠ .deleted) :
    view (some g) st (snapshot (some g) (js.filter (·.group = g)) ++ (run js es).2) = number (some g) st (run js es).1 := by
  rw [view_append, view_snapshot _ _ hn hd, C93_counts_partial js es hf h0 h1 _ st hn]
  congr 2
  rw [List.countP_filter]
  unfold number
  apply List.countP_congr
  intro j _
  have : Counted (some g) j ↔ j.group = g := by
    unfold Counted
    constructor
    · rintro (h | h)
      · cases h
      · cases h; rfl
    · rintro rfl; exact .inr rfl
  simp only [decide_eq_true_eq, Bool.and_eq_true, this]
  exact And.comm

/-- A job is reserved, started, lost, found again and done; another one is added and removed. -/
def plain : List Ev :=
  [.add .ready [(1, false), (2, false), (1, false)], .reserve 0, .start 0, .ttr 0, .touch 0, .finish 0,
    .move .run .removed [0], .move .ready .delay [1, 2], .move .delay .removed [1]]

instance (j : Job) : Decidable (Stale j) := inferInstanceAs (Decidable (_ ∧ _))

example : AllFine [] plain := by
  refine ⟨trivial, trivial, ?_, ?_, ?_, ?_, ?_, ?_, ?_, trivial⟩ <;> simp [Fine, step, shift, Stale, plain]

example : (∀ j ∈ (run [] plain).1, ¬ Stale j) ∧ number none .complete (run [] plain).1 = 1 ∧
    view (some 1) .delayed (run [] plain).2 = 1 := by decide

example : Groups [1, 2] [] plain := by simp [Groups, plain]

/-- C93 violated: a job whose run was lost keeps the mark until it is started again.  If the client that reserved it next
goes away before it starts it, the page is told of one lost job less, and there was none. -/
theorem C93_violated_lost :
    let es : List Ev := [.add .ready [(1, false)], .reserve 0, .start 0, .ttr 0, .move .run .delay [0],
      .move .delay .ready [0], .reserve 0, .ttr 0]
    view none .lost (run [] es).2 = -1 ∧ view none .running (run [] es).2 = 1 ∧
      number none .lost (run [] es).1 = 0 ∧ number none .running (run [] es).1 = 0 := by decide

/-- C93 violated: while a client has such a job and did not start it yet, a listing says that it is lost. -/
theorem C93_violated_listing :
    let es : List Ev := [.add .ready [(1, false)], .reserve 0, .start 0, .ttr 0, .move .run .delay [0],
      .move .delay .ready [0], .reserve 0]
    number none .lost (run [] es).1 = 1 ∧ view none .lost (run [] es).2 = 0 ∧ view none .running (run [] es).2 = 1 := by
  decide

/-- C93 violated: a job that is given another report group is still counted in the old one, and later leaves the new one
in which it never was. -/
theorem C93_violated_group :
    let es : List Ev := [.add .bury [(1, false)], .regroup 0 2, .move .bury .removed [0]]
    view (some 1) .buried (run [] es).2 = 1 ∧ view (some 2) .buried (run [] es).2 = -1 ∧
      (∀ t, number t .buried (run [] es).1 = 0) := by
  refine ⟨by decide, by decide, ?_⟩
  intro t
  simp [run, step, shift, number, shown]

end Verif.Server.Counts
