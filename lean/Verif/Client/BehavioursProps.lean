import Verif.Client.Behaviours
/-!
# C47: behaviours run in the documented order for the exit status
-/
namespace Verif.Client

/-- specification: the behaviour is for that kind of end -/
def Behaviour.for_ (b : Behaviour) (bit : UInt8) : Bool := b.on &&& bit != 0

/-- specification: the behaviour has something to carry out -/
def Behaviour.doable (b : Behaviour) : Bool :=
  match b.act, b.arg with
  | .cleanupAll, _ => true
  | .cleanup, _ => true
  | .run, .str _ => true
  | .copyToManager, .strs _ => true
  | _, _ => false

/-- specification: the behaviour is one that a user can describe -/
def Behaviour.proper (b : Behaviour) : Bool :=
  match b.act, b.arg with
  | .cleanupAll, .none => true
  | .cleanup, .none => true
  | .run, .str s => s != ""
  | .copyToManager, .strs l => l != []
  | .remove, .none => true
  | .nothing, .none => true
  | _, _ => false

/-- specification: what happens when a command ends: first what is for success, or for failure, in the order given, then what
is for any exit -/
def Order (bs : List Behaviour) (success : Bool) : Effects :=
  (bs.filter fun b => b.for_ (if success then 2 else 4) && b.doable) ++ (bs.filter fun b => b.for_ 1 && b.doable)

private theorem trigger_eff (fails : Behaviour → Bool) (b : Behaviour) (st : UInt8) :
    (b.trigger fails st).1 = if b.for_ st && b.doable then [b] else [] := by
  unfold Behaviour.trigger Behaviour.for_ Behaviour.doable
  by_cases h : b.on &&& st = 0
  · simp [h]
  · simp only [h, if_false]
    have : (b.on &&& st != 0) = true := by simpa using h
    rw [this]
    cases b.act <;> cases b.arg <;> simp

private theorem trigger_err (fails : Behaviour → Bool) (b : Behaviour) (st : UInt8) :
    (b.trigger fails st).2 = (b.for_ st && if b.doable then fails b else decide (b.act ≠ .remove ∧ b.act ≠ .nothing)) := by
  unfold Behaviour.trigger Behaviour.for_ Behaviour.doable
  by_cases h : b.on &&& st = 0
  · simp [h]
  · simp only [h, if_false]
    have : (b.on &&& st != 0) = true := by simpa using h
    rw [this]
    cases b.act <;> cases b.arg <;> simp

private theorem loop_eff (fails : Behaviour → Bool) (st : UInt8) (bs : List Behaviour) : ∀ acc,
    (loop fails st bs acc).1 = acc.1 ++ bs.filter (fun b => b.for_ st && b.doable) := by
  induction bs with
  | nil => intro acc; simp [loop]
  | cons b bs ih =>
    intro ⟨eff, err⟩
    rw [loop, ih, trigger_eff, List.filter_cons]
    split <;> simp

private theorem loop_err (fails : Behaviour → Bool) (st : UInt8) (bs : List Behaviour) : ∀ acc,
    (loop fails st bs acc).2 = (acc.2 || bs.any fun b => b.for_ st && if b.doable then fails b else decide (b.act ≠ .remove ∧ b.act ≠ .nothing)) := by
  induction bs with
  | nil => intro acc; simp [loop]
  | cons b bs ih =>
    intro ⟨eff, err⟩
    rw [loop, ih, trigger_err, List.any_cons, Bool.or_assoc]

/-- C47: what is carried out, in order, whatever fails. -/
theorem C47_order (fails : Behaviour → Bool) (bs : List Behaviour) (success : Bool) :
    (trigger fails bs success).1 = Order bs success := by
  unfold trigger Order
  by_cases h : bs = []
  · simp [h]
  · simp only [h, if_false]
    rw [loop_eff, loop_eff]
    cases success <;> simp [onExit, onSuccess, onFailure]

/-- C47: an error is returned if and only if something that was to be carried out failed, or could not be carried out. -/
theorem C47_error (fails : Behaviour → Bool) (bs : List Behaviour) (success : Bool) :
    (trigger fails bs success).2 = true ↔ ∃ b ∈ bs, (b.for_ (if success then 2 else 4) = true ∨ b.for_ 1 = true) ∧
      ((b.doable = true ∧ fails b = true) ∨ (b.doable = false ∧ b.act ≠ .remove ∧ b.act ≠ .nothing)) := by
  unfold trigger
  by_cases h : bs = []
  · simp [h]
  · simp only [h, if_false]
    rw [loop_err, loop_err]
    have e : (if success = true then onSuccess else onFailure) = if success = true then 2 else 4 := by cases success <;> rfl
    rw [e]
    simp only [Bool.false_or, Bool.or_eq_true, List.any_eq_true, Bool.and_eq_true, onExit]
    constructor
    · rintro (⟨b, hb, h1, h2⟩ | ⟨b, hb, h1, h2⟩)
      · refine ⟨b, hb, Or.inl h1, ?_⟩
        cases hd : b.doable <;> simp [hd] at h2 <;> simp [h2]
      · refine ⟨b, hb, Or.inr h1, ?_⟩
        cases hd : b.doable <;> simp [hd] at h2 <;> simp [h2]
    · rintro ⟨b, hb, h1, h2⟩
      have h3 : (if b.doable = true then fails b else decide (b.act ≠ .remove ∧ b.act ≠ .nothing)) = true := by
        rcases h2 with h2 | h2 <;> simp [h2]
      rcases h1 with h1 | h1
      · exact Or.inl ⟨b, hb, h1, h3⟩
      · exact Or.inr ⟨b, hb, h1, h3⟩

/-- C47, for behaviours that are not at once for any exit and for success or failure: each behaviour in the list that is for
this end is carried out as often as it is in the list, and the others not at all. Missing: the behaviours with both, which are
carried out twice (below). -/
theorem C47_once_partial (fails : Behaviour → Bool) (bs : List Behaviour) (success : Bool)
    (hb : ∀ b ∈ bs, b.for_ 1 = true → b.for_ 2 = false ∧ b.for_ 4 = false) (b : Behaviour) :
    (trigger fails bs success).1.count b =
      if b.doable = true ∧ (b.for_ (if success then 2 else 4) = true ∨ b.for_ 1 = true) then bs.count b else 0 := by
  rw [C47_order]
  unfold Order
  rw [List.count_append]
  by_cases hm : b ∈ bs
  · have hx := hb b hm
    have cf : ∀ p : Behaviour → Bool, (bs.filter p).count b = if p b then bs.count b else 0 := by
      intro p
      split
      · rename_i h; rw [List.count_filter h]
      · rename_i h; exact List.count_eq_zero.2 (by simp [List.mem_filter, h])
    rw [cf, cf]
    cases success <;> cases h1 : b.for_ 1 <;> cases h2 : b.for_ 2 <;> cases h4 : b.for_ 4 <;> cases hd : b.doable <;> simp_all
  · have hn : ∀ p : Behaviour → Bool, (bs.filter p).count b = 0 := fun p =>
      List.count_eq_zero.2 (fun h => hm (List.mem_filter.1 h).1)
    rw [hn, hn, List.count_eq_zero.2 hm]; simp

/-- A non-trivial case. -/
example : (trigger (fun b => b.act == .run) [⟨onExit, .cleanup, .none⟩, ⟨onSuccess, .run, .str "a"⟩, ⟨onFailure, .run, .str "b"⟩,
    ⟨onSuccess ||| onFailure, .cleanupAll, .none⟩, ⟨onExit, .nothing, .none⟩] true) =
    ([⟨onSuccess, .run, .str "a"⟩, ⟨onSuccess ||| onFailure, .cleanupAll, .none⟩, ⟨onExit, .cleanup, .none⟩], true) := by decide

/-- The code violates "each once": a behaviour for any exit and for success is carried out twice. -/
theorem C47_violated_twice : (trigger (fun _ => false) [⟨onExit ||| onSuccess, .run, .str "a"⟩] true).1.count ⟨onExit ||| onSuccess, .run, .str "a"⟩ = 2 := by
  decide

/-! ### The JSON form -/

private theorem via_back (b : Behaviour) (h : b.proper = true) : ∃ j, b.viaJSON = some j ∧ j.behaviour b.on = b := by
  obtain ⟨w, act, arg⟩ := b
  unfold Behaviour.proper at h
  cases act <;> cases arg <;> simp at h <;> simp [Behaviour.viaJSON, ViaJSON.behaviour]
  · exact h
  · rename_i l; cases l <;> simp at h ⊢

private def Back (bs : List Behaviour) (m : Mapping) : Prop :=
  behaviours m.onFailure onFailure = bs.filter (fun b => b.on = onFailure) ∧
  behaviours m.onSuccess onSuccess = bs.filter (fun b => b.on = onSuccess) ∧
  behaviours m.onExit onExit = bs.filter (fun b => b.on = onExit)

private theorem back_fold (bs : List Behaviour) : ∀ (done : List Behaviour) (m : Mapping), (∀ b ∈ bs, b.proper = true) →
    Back done m → Back (done ++ bs) (bs.foldl (fun m b => b.fill m) m) := by
  induction bs with
  | nil => intro done m _ h; simpa using h
  | cons b bs ih =>
    intro done m hp h
    have := ih (done ++ [b]) (b.fill m) (fun x hx => hp x (List.mem_cons_of_mem _ hx)) ?_
    · rw [List.append_assoc] at this; exact this
    · obtain ⟨j, hj, hb⟩ := via_back b (hp b (by simp))
      obtain ⟨h1, h2, h3⟩ := h
      unfold Behaviour.fill
      rw [hj]
      unfold Back
      simp only [List.filter_append]
      have d1 : onFailure ≠ onSuccess := by decide
      have d2 : onFailure ≠ onExit := by decide
      have d3 : onSuccess ≠ onExit := by decide
      have d4 : onExit ≠ onFailure ||| onSuccess := by decide
      by_cases e1 : b.on = onFailure
      · rw [e1] at hb
        simp only [behaviours] at h1 h2 h3
        simp [e1, behaviours, h1, h2, h3, hb, d1, d2, d3, d4, d1.symm, d2.symm, d3.symm]
      · by_cases e2 : b.on = onSuccess
        · rw [e2] at hb
          simp only [behaviours] at h1 h2 h3
          simp [e2, behaviours, h1, h2, h3, hb, d1, d2, d3, d4, d1.symm, d2.symm, d3.symm]
        · by_cases e3 : b.on = onExit
          · rw [e3] at hb
            simp only [behaviours] at h1 h2 h3
            simp [e3, behaviours, h1, h2, h3, hb, d1, d2, d3, d4, d1.symm, d2.symm, d3.symm]
          · simp only [e1, e2, e3, if_false]
            split <;> simp [h1, h2, h3, e1, e2, e3]

/-- C47: behaviours survive the trip to JSON and back: for each of failure, success and exit the behaviours for it are the same, in
the same order. -/
theorem C47_json (bs : List Behaviour) (h : ∀ b ∈ bs, b.proper = true) (w : UInt8) (hw : w = 1 ∨ w = 2 ∨ w = 4) :
    (ofMapping (mapping bs)).filter (fun b => b.on = w) = bs.filter (fun b => b.on = w) := by
  obtain ⟨h1, h2, h3⟩ := back_fold bs [] {} h ⟨rfl, rfl, rfl⟩
  unfold ofMapping mapping
  rw [h1, h2, h3]
  simp only [List.nil_append, List.filter_append, List.filter_filter]
  have hf : ∀ v, v ≠ w → bs.filter (fun b => decide (b.on = w) && decide (b.on = v)) = [] := by
    intro v hv
    rw [List.filter_eq_nil_iff]
    intro b _ hb
    simp only [Bool.and_eq_true, decide_eq_true_eq] at hb
    exact hv (hb.2.symm.trans hb.1)
  have ht : bs.filter (fun b => decide (b.on = w) && decide (b.on = w)) = bs.filter (fun b => b.on = w) := by simp
  rcases hw with e | e | e <;> subst e
  · rw [hf _ (by decide), hf _ (by decide)]; simp only [List.nil_append, List.append_nil]; exact ht
  · rw [hf onFailure (by decide), hf onExit (by decide)]; simp only [List.nil_append, List.append_nil]; exact ht
  · rw [hf onSuccess (by decide), hf onExit (by decide)]; simp only [List.nil_append, List.append_nil]; exact ht

/-- C47: hence, if each behaviour is for exactly one of failure, success and exit, the behaviours read back do the same as the
original ones. Missing: behaviours for failure and success, which the JSON form of a job has no key for (below). -/
theorem C47_json_partial (fails : Behaviour → Bool) (bs : List Behaviour) (h : ∀ b ∈ bs, b.proper = true)
    (hw : ∀ b ∈ bs, b.on = 1 ∨ b.on = 2 ∨ b.on = 4) (success : Bool) :
    (trigger fails (ofMapping (mapping bs)) success).1 = (trigger fails bs success).1 := by
  have hw' : ∀ b ∈ ofMapping (mapping bs), b.on = 1 ∨ b.on = 2 ∨ b.on = 4 := by
    have hb : ∀ (l : List ViaJSON) (w : UInt8), ∀ b ∈ behaviours l w, b.on = w := by
      intro l w b hb
      obtain ⟨j, _, e⟩ := List.mem_map.1 hb
      subst e
      unfold ViaJSON.behaviour
      repeat' split
      all_goals rfl
    intro b hm
    unfold ofMapping at hm
    simp only [List.mem_append] at hm
    rcases hm with (hm | hm) | hm
    · right; right; exact hb _ _ b hm
    · right; left; exact hb _ _ b hm
    · left; exact hb _ _ b hm
  have key : ∀ (l : List Behaviour), (∀ b ∈ l, b.on = 1 ∨ b.on = 2 ∨ b.on = 4) → ∀ w : UInt8, w = 1 ∨ w = 2 ∨ w = 4 →
      l.filter (fun b => b.for_ w && b.doable) = (l.filter fun b => b.on = w).filter Behaviour.doable := by
    intro l hl w hw
    rw [List.filter_filter]
    apply List.filter_congr
    intro b hb
    have : b.for_ w = decide (b.on = w) := by
      unfold Behaviour.for_
      rcases hl b hb with e | e | e <;> rw [e] <;> rcases hw with e' | e' | e' <;> subst e' <;> decide
    rw [this, Bool.and_comm]
  rw [C47_order, C47_order]
  unfold Order
  have hs : (if success = true then (2 : UInt8) else 4) = 1 ∨ (if success = true then (2 : UInt8) else 4) = 2 ∨ (if success = true then (2 : UInt8) else 4) = 4 := by
    cases success <;> simp
  rw [key _ hw' _ hs, key _ hw _ hs, key _ hw' 1 (by simp), key _ hw 1 (by simp), C47_json bs h _ hs, C47_json bs h 1 (by simp)]

/-- A non-trivial case. -/
example : (∀ b ∈ [Behaviour.mk onExit .cleanup .none, ⟨onSuccess, .run, .str "a"⟩, ⟨onFailure, .copyToManager, .strs ["b"]⟩, ⟨onSuccess, .remove, .none⟩], b.proper = true) ∧
    ofMapping (mapping [⟨onExit, .cleanup, .none⟩, ⟨onSuccess, .run, .str "a"⟩, ⟨onFailure, .copyToManager, .strs ["b"]⟩, ⟨onSuccess, .remove, .none⟩]) =
    [⟨onFailure, .copyToManager, .strs ["b"]⟩, ⟨onSuccess, .run, .str "a"⟩, ⟨onSuccess, .remove, .none⟩, ⟨onExit, .cleanup, .none⟩] := by decide

/-- The code violates the round trip: a behaviour for failure and success is printed under a key that the JSON of a job does
not have, and is gone when that is read. -/
theorem C47_violated_json : ofMapping (mapping [⟨onSuccess ||| onFailure, .run, .str "a"⟩]) = [] := by decide

/-- C47, removal: a job whose behaviours have "remove" among them, for whatever kind of end, is one that the server deletes when
it buries it; no other is. -/
theorem C47_remove (bs : List Behaviour) : removalRequested bs = true ↔ ∃ b ∈ bs, b.act = .remove := by
  simp [removalRequested]

/-- "remove" for success only still counts when the job is buried -/
theorem C47_violated_remove : ∃ bs : List Behaviour, (∀ b ∈ bs, b.for_ 4 = false ∧ b.for_ 1 = false) ∧
    removalRequested bs = true := ⟨[⟨2, .remove, .none⟩], by decide, by decide⟩

end Verif.Client
