import Verif.Queue.Prim2
/-! What each queue operation does to a state that satisfies the invariant. -/
namespace Verif.Queue
open Verif.Heap

/-- `q'` is `q` with item `i` changed by `f` (and the sub-queues rearranged to match). -/
structure Moved (q q' : Q) (i : Nat) (f : Item → Item) : Prop where
  frame : Frame (q.mod i f) q'
  inv : Inv q'
  ready : ReadyOrd q → ReadyOrd q'

theorem Frame.mod {q q1 : Q} (h : Frame q q1) (i : Nat) (f : Item → Item) : Frame (q.mod i f) (q1.mod i f) :=
  ⟨by simp only [Q.mod]; rw [h.store], h.items, h.next, h.closed, h.dependants⟩

section
variable {q q1 : Q} {i : Nat} {f : Item → Item}

theorem Removed.mod (r : Removed q q1 i) (hk : ∀ it, (f it).key = it.key) :
    Frame (q.mod i f) (q1.mod i f) ∧ InvX (q1.mod i f) (some i) ∧ (ReadyOrd q → ReadyOrd (q1.mod i f)) :=
  ⟨r.frame.mod i f, modLoose r.inv f hk, fun ho => modLoose_ready r.inv f (r.ready ho)⟩

theorem Removed.st (r : Removed q q1 i) : ((q1.mod i f).store i) = f (q.store i) := by
  rw [mod_self, r.frame.store]

theorem Removed.toReady (r : Removed q q1 i) (hk : ∀ it, (f it).key = it.key)
    (hs : (f (q.store i)).state = .ready) : Moved q ((q1.mod i f).pushReady i) i f := by
  obtain ⟨fr, inv, ro⟩ := r.mod hk
  have p := pushReady_ok inv (by rw [r.st]; exact hs)
  exact ⟨fr.trans p.frame, p.inv, fun ho => p.ready (ro ho)⟩

theorem Removed.toDelay (r : Removed q q1 i) (hk : ∀ it, (f it).key = it.key)
    (hs : (f (q.store i)).state = .delay) : Moved q ((q1.mod i f).pushDelay i) i f := by
  obtain ⟨fr, inv, ro⟩ := r.mod hk
  have p := pushDelay_ok inv (by rw [r.st]; exact hs)
  exact ⟨fr.trans p.frame, p.inv, fun ho => p.ready (ro ho)⟩

theorem Removed.toRun (r : Removed q q1 i) (hk : ∀ it, (f it).key = it.key)
    (hs : (f (q.store i)).state = .run) : Moved q ((q1.mod i f).pushRun i) i f := by
  obtain ⟨fr, inv, ro⟩ := r.mod hk
  have p := pushRun_ok inv (by rw [r.st]; exact hs)
  exact ⟨fr.trans p.frame, p.inv, fun ho => p.ready (ro ho)⟩

theorem Removed.toBury (r : Removed q q1 i) (hk : ∀ it, (f it).key = it.key)
    (hs : (f (q.store i)).state = .bury) : Moved q ((q1.mod i f).pushBury i) i f := by
  obtain ⟨fr, inv, ro⟩ := r.mod hk
  have p := pushBury_ok inv (by rw [r.st]; exact hs)
  exact ⟨fr.trans p.frame, p.inv, fun ho => p.ready (ro ho)⟩

theorem Removed.toDep (r : Removed q q1 i) (hk : ∀ it, (f it).key = it.key)
    (hs : (f (q.store i)).state = .dependent) : Moved q ((q1.mod i f).pushDep i) i f := by
  obtain ⟨fr, inv, ro⟩ := r.mod hk
  have p := pushDep_ok inv (by rw [r.st]; exact hs)
  exact ⟨fr.trans p.frame, p.inv, fun ho => p.ready (ro ho)⟩
end

/-! keys are never changed by the `switch*` methods -/
theorem key_switchRunDelay (b) (it : Item) : (it.switchRunDelay b).key = it.key := by unfold Item.switchRunDelay; split <;> rfl
theorem key_switchRunBury (b) (it : Item) : (it.switchRunBury b).key = it.key := by unfold Item.switchRunBury; split <;> rfl
theorem state_switchRunDelay (b) (it : Item) : (it.switchRunDelay b).state = .delay := by unfold Item.switchRunDelay; split <;> rfl
theorem state_switchRunBury (b) (it : Item) : (it.switchRunBury b).state = .bury := by unfold Item.switchRunBury; split <;> rfl

/-! ### Touch, Release, Bury, Kick, Reserve, SetDelay, SetReserveGroup -/

theorem touch_ok {q : Q} {k i} {now : Int} (h : Inv q) (hc : q.closed = false) (hf : q.find k = some i)
    (hs : (q.store i).state = .run) :
    ∃ q', q.touch k now = some ⟨q', .ok, [], false⟩ ∧ Moved q q' i (Item.touch now) := by
  obtain ⟨q', e, fr, inv, ro⟩ := fixRun_ok h (h.live hf) hs (Item.touch now) (fun _ => rfl) (fun _ => rfl)
  refine ⟨q', ?_, fr, inv, ro⟩
  unfold Q.touch; simp [hc, hf, hs, e]

theorem release_ok {q : Q} {k i} {now : Int} (h : Inv q) (hc : q.closed = false) (hf : q.find k = some i)
    (hs : (q.store i).state = .run) :
    ((q.store i).delay = 0 → ∃ q', q.release k now = some ⟨q', .ok, [⟨.run, .ready, [i]⟩], true⟩ ∧
      Moved q q' i Item.switchRunReady) ∧
    ((q.store i).delay ≠ 0 → ∃ q', q.release k now = some ⟨q', .ok, [⟨.run, .delay, [i]⟩], false⟩ ∧
      Moved q q' i (fun it => (it.restart now).switchRunDelay false)) := by
  obtain ⟨q1, e, r⟩ := removeRun_ok h (h.live hf) hs
  constructor
  · intro hd
    exact ⟨_, by unfold Q.release; simp [hc, hf, hs, e, r.frame.store, hd],
      r.toReady (fun _ => rfl) rfl⟩
  · intro hd
    exact ⟨_, by unfold Q.release; simp [hc, hf, hs, e, r.frame.store, hd],
      r.toDelay (fun it => by rw [key_switchRunDelay]; rfl) (by rw [state_switchRunDelay])⟩

theorem bury_ok {q : Q} {k i} (h : Inv q) (hc : q.closed = false) (hf : q.find k = some i)
    (hs : (q.store i).state = .run) :
    ∃ q', q.buryItem k = some ⟨q', .ok, [⟨.run, .bury, [i]⟩], false⟩ ∧ Moved q q' i (Item.switchRunBury false) := by
  obtain ⟨q1, e, r⟩ := removeRun_ok h (h.live hf) hs
  exact ⟨_, by unfold Q.buryItem; simp [hc, hf, hs, e],
    r.toBury (fun it => key_switchRunBury _ it) (state_switchRunBury _ _)⟩

theorem kick_ok {q : Q} {k i} (h : Inv q) (hc : q.closed = false) (hf : q.find k = some i)
    (hs : (q.store i).state = .bury) :
    (q.hasDeps i = true → ∃ q', q.kick k = some ⟨q', .ok, [⟨.bury, .dependent, [i]⟩], false⟩ ∧
      Moved q q' i Item.switchBuryDependent) ∧
    (q.hasDeps i = false → ∃ q', q.kick k = some ⟨q', .ok, [⟨.bury, .ready, [i]⟩], true⟩ ∧
      Moved q q' i Item.switchBuryReady) := by
  obtain ⟨q1, e, r⟩ := removeBury_ok h (h.live hf) hs
  have hd : q1.hasDeps i = q.hasDeps i := by
    unfold Q.hasDeps; rw [r.frame.store]; congr 1; funext d; rw [r.frame.find]
  constructor
  · intro hh
    exact ⟨_, by unfold Q.kick; simp [hc, hf, hs, e, hd, hh], r.toDep (fun _ => rfl) rfl⟩
  · intro hh
    exact ⟨_, by unfold Q.kick; simp [hc, hf, hs, e, hd, hh], r.toReady (fun _ => rfl) rfl⟩

/-- popping the first item of a group leaves it loose -/
theorem popReady_ok {q : Q} {g : String} (h : Inv q) (hne : q.ready g ≠ []) :
    ∃ i h', pop (lessReady q.store) (q.rheap g) = some (i, h') ∧ (q.ready g)[0]? = some i ∧
      Removed q { q.setR g h' with cursor := g } i ∧ live q i ∧ (q.store i).state = .ready ∧ (q.store i).group = g := by
  obtain ⟨⟨i, h'⟩, hp⟩ := pop_some (lessReady q.store) (q.rheap g) hne
  obtain ⟨h0, w, perm, -, oth⟩ := pop_spec (q.rheap g) i h' (h.wfReady g) hp
  have hm : i ∈ q.ready g := List.mem_of_getElem? h0
  obtain ⟨hl, -, hs, hg⟩ := (h.memReady g i).1 hm
  have hnd := perm.nodup_iff.1 (h.wfReady g).nodup
  simp only [List.nodup_cons] at hnd
  have mem : ∀ j, j ∈ h'.arr ↔ j ∈ q.ready g ∧ j ≠ i := by
    intro j
    rw [show (j ∈ q.ready g ↔ j ∈ i :: h'.arr) from perm.mem_iff, List.mem_cons]
    grind
  refine ⟨i, h', hp, h0, ⟨⟨rfl, rfl, rfl, rfl, rfl⟩, ?_, ?_⟩, hl, hs, hg⟩
  · exact
      { keys := h.keys, keyOf := h.keyOf
        xlive := by intro j e; injection e with e; subst e; exact hl
        wfDelay := h.wfDelay, wfRun := h.wfRun, wfBury := h.wfBury, wfDep := h.wfDep
        wfReady := setR_wf h.wfReady w (by
          intro g' hg' j hj
          apply oth
          intro hj2
          exact hg' (((h.memReady _ j).1 hj).2.2.2.symm.trans ((h.memReady _ j).1 hj2).2.2.2))
        memDelay := fun j => (h.memDelay j).trans (nm_rm (by rw [hs]; simp) j)
        memRun := fun j => (h.memRun j).trans (nm_rm (by rw [hs]; simp) j)
        memBury := fun j => (h.memBury j).trans (nm_rm (by rw [hs]; simp) j)
        memDep := fun j => (h.memDep j).trans (nm_rm (by rw [hs]; simp) j)
        memReady := by
          intro g' j
          simp only [Q.setR]
          have hmr := h.memReady g' j
          by_cases hg' : g' = g
          · subst hg'
            rw [if_pos rfl, mem j, hmr]; simp only [some_ne]
            constructor
            · rintro ⟨⟨a, _, b⟩, c⟩; exact ⟨a, c, b⟩
            · rintro ⟨a, c, b⟩; exact ⟨⟨a, by simp, b⟩, c⟩
          · rw [if_neg hg', hmr]; simp only [some_ne]
            constructor
            · rintro ⟨a, _, b, c⟩; exact ⟨a, fun e => hg' (by rw [← c, e, hg]), b, c⟩
            · rintro ⟨a, _, b⟩; exact ⟨a, by simp, b⟩
        notRemoved := fun j hlj _ => h.notRemoved j hlj (by simp)
        dead := h.dead
        ordDelay := h.ordDelay
        ordRun := h.ordRun }
  · intro ho g'
    simp only [Q.setR]
    by_cases hg' : g' = g
    · rw [if_pos hg']; exact pop_isHeap (swo_ready _) _ _ _ hp (ho g)
    · rw [if_neg hg']; exact ho g'

theorem reserve_ok {q : Q} {g : String} {now : Int} (h : Inv q) (hc : q.closed = false) (hne : q.ready g ≠ []) :
    ∃ i q', q.reserve g now = some ⟨q', .item i, [⟨.ready, .run, [i]⟩], false⟩ ∧ (q.ready g)[0]? = some i ∧
      live q i ∧ (q.store i).state = .ready ∧ (q.store i).group = g ∧
      Moved q q' i (fun it => (it.touch now).switchReadyRun) := by
  obtain ⟨i, h', hp, h0, r, hl, hs, hg⟩ := popReady_ok h hne
  exact ⟨i, _, by unfold Q.reserve; simp [hc, hne, hp], h0, hl, hs, hg, r.toRun (fun _ => rfl) rfl⟩

theorem mod_id (q : Q) (i : Nat) : Frame (q.mod i id) q := by
  refine ⟨?_, rfl, rfl, rfl, rfl⟩
  funext j; simp only [Q.mod, id]; split
  · rename_i e; rw [e]
  · rfl

theorem Moved.same {q : Q} (h : Inv q) (i : Nat) : Moved q q i id := ⟨mod_id q i, h, id⟩

theorem mod_mod (q : Q) (i : Nat) (f g : Item → Item) : (q.mod i f).mod i g = q.mod i (fun it => g (f it)) := by
  simp only [Q.mod]; congr 1; funext x; split <;> simp_all

theorem Moved.plain {q : Q} (h : Inv q) (i : Nat) (f) (hf : Plain f) : Moved q (q.mod i f) i f :=
  ⟨Frame.refl _, modPlain h i f hf, modPlain_ready i f hf⟩

theorem setDelay_ok {q : Q} {k i} {d now : Int} (h : Inv q) (hc : q.closed = false) (hf : q.find k = some i) :
    ∃ q', q.setDelay k d now = some ⟨q', .ok, [], false⟩ ∧
      Moved q q' i (fun it => if it.delay = d then it
        else if it.state = .delay then { it with delay := d, readyAt := some (now + d) } else { it with delay := d }) := by
  by_cases hd : (q.store i).delay = d
  · refine ⟨q, by unfold Q.setDelay; simp [hc, hf, hd], ?_, h, id⟩
    refine ⟨?_, rfl, rfl, rfl, rfl⟩
    funext j; by_cases e : j = i
    · subst e; simp [Q.mod, hd]
    · simp [Q.mod, e]
  · by_cases hs : (q.store i).state = .delay
    · obtain ⟨q', e, fr, inv, ro⟩ := fixDelay_ok h (h.live hf) hs (fun it => Item.restart now { it with delay := d })
        (fun _ => rfl) (fun _ => rfl)
      refine ⟨q', ?_, ?_, inv, ro⟩
      · unfold Q.setDelay
        simp [hc, hf, hd]
        rw [mod_self]
        simp only [hs, if_true]
        rw [mod_mod, e]; rfl
      · refine ⟨?_, fr.items, fr.next, fr.closed, fr.dependants⟩
        rw [fr.store]; funext j; by_cases e : j = i
        · subst e; simp [Q.mod, hd, hs, Item.restart]
        · simp [Q.mod, e]
    · have hp : Plain (fun it : Item => { it with delay := d }) := by constructor <;> intro _ <;> rfl
      refine ⟨q.mod i (fun it => { it with delay := d }), ?_, ?_, modPlain h i _ hp, modPlain_ready i _ hp⟩
      · unfold Q.setDelay; simp [hc, hf, hd]; rw [mod_self]; simp [hs]
      · refine ⟨?_, rfl, rfl, rfl, rfl⟩
        funext j; by_cases e : j = i
        · subst e; simp [Q.mod, hd, hs]
        · simp [Q.mod, e]

theorem setReserveGroup_ok {q : Q} {k i g} (h : Inv q) (hc : q.closed = false) (hf : q.find k = some i) :
    ∃ q', q.setReserveGroup k g = some ⟨q', .ok, [], false⟩ ∧ Moved q q' i (fun it => { it with group := g }) := by
  have hrg : Regroup (fun it : Item => { it with group := g }) := by constructor <;> intro _ <;> rfl
  by_cases hg : (q.store i).group = g
  · refine ⟨q, by unfold Q.setReserveGroup; simp [hc, hf, hg], ?_, h, id⟩
    refine ⟨?_, rfl, rfl, rfl, rfl⟩
    funext j; by_cases e : j = i
    · subst e; simp [Q.mod, ← hg]
    · simp [Q.mod, e]
  · by_cases hs : (q.store i).state = .ready
    · obtain ⟨q', e, ro⟩ := updateReady_ok h (h.live hf) hs _ hrg (Or.inl (fun e => hg e.symm))
      obtain ⟨inv, fr⟩ := updateReady_inv h (h.live hf) hs _ hrg e
      refine ⟨q', ?_, fr, inv, ro⟩
      unfold Q.setReserveGroup
      simp [hc, hf, hg]
      rw [mod_self]
      simp only [hs, if_true]
      rw [e]; rfl
    · refine ⟨q.mod i (fun it => { it with group := g }), ?_, Frame.refl _,
        modGroup_notReady h i _ hrg.key hrg.state hs hrg.readyAt hrg.releaseAt, mod_notReady_ready h i _ hs⟩
      unfold Q.setReserveGroup; simp [hc, hf, hg]; rw [mod_self]; simp [hs]

end Verif.Queue
