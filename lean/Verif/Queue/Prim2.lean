import Verif.Queue.Prim
/-! Preservation of the queue invariant by the re-ordering moves (`heap.Fix` and group changes). -/
namespace Verif.Queue
open Verif.Heap

theorem fix_member {less less' : Nat → Nat → Bool} (s : SWO less) (s' : SWO less') (h : IHeap) (w : WF h) {i : Nat}
    (hi : i ∈ h.arr) (hsame : ∀ a b, a ≠ i → b ≠ i → less' a b = less a b) :
    ∃ h', fix less' h (h.idx i) = some h' ∧ Reorder h h' ∧ (IsHeap less h.arr → IsHeap less' h'.arr) := by
  obtain ⟨p, hp, hpe⟩ := idx_spec w hi
  have hlt : p < h.arr.length := by grind
  rw [hp]
  have hf : fix less' h (p : Int) = some (settle less' h p h.arr.length) := by
    unfold fix; rw [if_neg (by omega), if_neg (by omega)]; simp
  exact ⟨_, hf, fix_reorder h _ _ hf, fun ho => fix_isHeap s s' h p _ i w hpe ho hsame hf⟩

/-- The fields an in-place change of a delayed item must keep. -/
theorem fixDelay_ok {q : Q} {i : Nat} (h : Inv q) (hl : live q i) (hs : (q.store i).state = .delay)
    (f : Item → Item) (hk : ∀ it, (f it).key = it.key) (hst : ∀ it, (f it).state = it.state) :
    ∃ q', (q.mod i f).fixDelay i = some q' ∧ Frame (q.mod i f) q' ∧ Inv q' ∧ (ReadyOrd q → ReadyOrd q') := by
  have hm : i ∈ q.delay.arr := (h.memDelay i).2 ⟨hl, by simp, hs⟩
  have hsame : ∀ a b, a ≠ i → b ≠ i → lessDelay (q.mod i f).store a b = lessDelay q.store a b := by
    intro a b ha hb; unfold lessDelay; rw [mod_other _ _ _ _ ha, mod_other _ _ _ _ hb]
  obtain ⟨h', hf, r, ord⟩ := fix_member (swo_delay q.store) (swo_delay (q.mod i f).store) q.delay h.wfDelay hm hsame
  refine ⟨{ q.mod i f with delay := h' }, ?_, ⟨rfl, rfl, rfl, rfl, rfl⟩, ?_, ?_⟩
  · unfold Q.fixDelay
    have : fix (lessDelay (q.mod i f).store) (q.mod i f).delay ((q.mod i f).delay.idx i) = some h' := hf
    rw [this]; rfl
  · have hll := mod_live q i f hk
    have hss : ∀ j, ((q.mod i f).store j).state = (q.store j).state := by
      intro j; by_cases e : j = i
      · subst e; rw [mod_self, hst]
      · rw [mod_other _ _ _ _ e]
    have hmi : ∀ j, (q.store j).state ≠ .delay → (q.mod i f).store j = q.store j := by
      intro j hj; apply mod_other; intro e; exact hj (by rw [e]; exact hs)
    exact
      { keys := h.keys
        keyOf := by intro k j hkj; rw [show ({ q.mod i f with delay := h' } : Q).store = (q.mod i f).store from rfl, mod_key q i f hk]; exact h.keyOf k j hkj
        xlive := by intro j e; simp at e
        wfDelay := r.wf h.wfDelay, wfRun := h.wfRun, wfBury := h.wfBury, wfDep := h.wfDep, wfReady := h.wfReady
        memDelay := by
          intro j
          show j ∈ h'.arr ↔ live (q.mod i f) j ∧ _ ∧ ((q.mod i f).store j).state = _
          rw [r.perm.mem_iff, hll, hss]; exact h.memDelay j
        memRun := by
          intro j; show _ ↔ live (q.mod i f) j ∧ _ ∧ ((q.mod i f).store j).state = _
          rw [hll, hss]; exact h.memRun j
        memBury := by
          intro j; show _ ↔ live (q.mod i f) j ∧ _ ∧ ((q.mod i f).store j).state = _
          rw [hll, hss]; exact h.memBury j
        memDep := by
          intro j; show _ ↔ live (q.mod i f) j ∧ _ ∧ ((q.mod i f).store j).state = _
          rw [hll, hss]; exact h.memDep j
        memReady := by
          intro g j
          show _ ↔ live (q.mod i f) j ∧ _ ∧ ((q.mod i f).store j).state = _ ∧ ((q.mod i f).store j).group = g
          rw [hll, hss]
          refine (h.memReady g j).trans (and_congr_right fun _ => and_congr_right fun _ => and_congr_right fun e => ?_)
          rw [hmi j (by rw [e]; simp)]
        notRemoved := by
          intro j; show live (q.mod i f) j → _ → ((q.mod i f).store j).state ≠ _
          rw [hll, hss]; exact h.notRemoved j
        dead := by
          intro hc j; show ¬ live (q.mod i f) j → ((q.mod i f).store j).state = _
          rw [hll, hss]; exact h.dead hc j
        ordDelay := ord h.ordDelay
        ordRun := by
          refine IsHeap.congr h.ordRun fun a ha b hb => ?_
          have ha' := (h.memRun a).1 ha; have hb' := (h.memRun b).1 hb
          show lessRun (q.mod i f).store a b = _
          unfold lessRun; rw [hmi a (by rw [ha'.2.2]; simp), hmi b (by rw [hb'.2.2]; simp)] }
  · exact mod_notReady_ready h i f (by rw [hs]; simp)

theorem fixRun_ok {q : Q} {i : Nat} (h : Inv q) (hl : live q i) (hs : (q.store i).state = .run)
    (f : Item → Item) (hk : ∀ it, (f it).key = it.key) (hst : ∀ it, (f it).state = it.state) :
    ∃ q', (q.mod i f).fixRun i = some q' ∧ Frame (q.mod i f) q' ∧ Inv q' ∧ (ReadyOrd q → ReadyOrd q') := by
  have hm : i ∈ q.run.arr := (h.memRun i).2 ⟨hl, by simp, hs⟩
  have hsame : ∀ a b, a ≠ i → b ≠ i → lessRun (q.mod i f).store a b = lessRun q.store a b := by
    intro a b ha hb; unfold lessRun; rw [mod_other _ _ _ _ ha, mod_other _ _ _ _ hb]
  obtain ⟨h', hf, r, ord⟩ := fix_member (swo_run q.store) (swo_run (q.mod i f).store) q.run h.wfRun hm hsame
  refine ⟨{ q.mod i f with run := h' }, ?_, ⟨rfl, rfl, rfl, rfl, rfl⟩, ?_, ?_⟩
  · unfold Q.fixRun
    have : fix (lessRun (q.mod i f).store) (q.mod i f).run ((q.mod i f).run.idx i) = some h' := hf
    rw [this]; rfl
  · have hll := mod_live q i f hk
    have hss : ∀ j, ((q.mod i f).store j).state = (q.store j).state := by
      intro j; by_cases e : j = i
      · subst e; rw [mod_self, hst]
      · rw [mod_other _ _ _ _ e]
    have hmi : ∀ j, (q.store j).state ≠ .run → (q.mod i f).store j = q.store j := by
      intro j hj; apply mod_other; intro e; exact hj (by rw [e]; exact hs)
    exact
      { keys := h.keys
        keyOf := by intro k j hkj; rw [show ({ q.mod i f with run := h' } : Q).store = (q.mod i f).store from rfl, mod_key q i f hk]; exact h.keyOf k j hkj
        xlive := by intro j e; simp at e
        wfDelay := h.wfDelay, wfRun := r.wf h.wfRun, wfBury := h.wfBury, wfDep := h.wfDep, wfReady := h.wfReady
        memRun := by
          intro j
          show j ∈ h'.arr ↔ live (q.mod i f) j ∧ _ ∧ ((q.mod i f).store j).state = _
          rw [r.perm.mem_iff, hll, hss]; exact h.memRun j
        memDelay := by
          intro j; show _ ↔ live (q.mod i f) j ∧ _ ∧ ((q.mod i f).store j).state = _
          rw [hll, hss]; exact h.memDelay j
        memBury := by
          intro j; show _ ↔ live (q.mod i f) j ∧ _ ∧ ((q.mod i f).store j).state = _
          rw [hll, hss]; exact h.memBury j
        memDep := by
          intro j; show _ ↔ live (q.mod i f) j ∧ _ ∧ ((q.mod i f).store j).state = _
          rw [hll, hss]; exact h.memDep j
        memReady := by
          intro g j
          show _ ↔ live (q.mod i f) j ∧ _ ∧ ((q.mod i f).store j).state = _ ∧ ((q.mod i f).store j).group = g
          rw [hll, hss]
          refine (h.memReady g j).trans (and_congr_right fun _ => and_congr_right fun _ => and_congr_right fun e => ?_)
          rw [hmi j (by rw [e]; simp)]
        notRemoved := by
          intro j; show live (q.mod i f) j → _ → ((q.mod i f).store j).state ≠ _
          rw [hll, hss]; exact h.notRemoved j
        dead := by
          intro hc j; show ¬ live (q.mod i f) j → ((q.mod i f).store j).state = _
          rw [hll, hss]; exact h.dead hc j
        ordRun := ord h.ordRun
        ordDelay := by
          refine IsHeap.congr h.ordDelay fun a ha b hb => ?_
          have ha' := (h.memDelay a).1 ha; have hb' := (h.memDelay b).1 hb
          show lessDelay (q.mod i f).store a b = _
          unfold lessDelay; rw [hmi a (by rw [ha'.2.2]; simp), hmi b (by rw [hb'.2.2]; simp)] }
  · exact mod_notReady_ready h i f (by rw [hs]; simp)

/-! ### Ready sub-queue -/

/-- heap order after removing an item whose own rank changed before the removal -/
theorem removeAt_isHeap_changed {less less' : Nat → Nat → Bool} (s : SWO less) (s' : SWO less') (h : IHeap) (i x : Nat)
    (y : Nat) (h' : IHeap) (w : WF h) (hi : h.arr[i]? = some x) (hold : IsHeap less h.arr)
    (hsame : ∀ a b, a ≠ x → b ≠ x → less' a b = less a b)
    (hr : removeAt less' h (i : Int) = some (y, h')) : IsHeap less' h'.arr := by
  have hlt : i < h.arr.length := by grind
  have hne : ∀ c a, h.arr[c]? = some a → c ≠ i → a ≠ x := by
    intro c a hc hci hax; subst hax; exact hci (w.inj hc hi)
  unfold removeAt at hr
  rw [if_neg (by omega)] at hr
  simp only [Int.toNat_natCast] at hr
  split at hr
  · rename_i hlast
    apply rawPop_isHeap h y h' hr
    intro c hc hcn
    have := hold c hc (by omega)
    unfold Ok lessAt at *
    cases h1 : h.arr[c]? <;> cases h2 : h.arr[(c - 1) / 2]? <;> simp_all
    rw [hsame _ _ (hne _ _ h1 (by omega)) (hne _ _ h2 (by omega))]; exact this
  · rename_i hlast
    have r := (swap_reorder h i (h.arr.length - 1)).trans (settle_reorder less' _ i (h.arr.length - 1))
    apply rawPop_isHeap _ y h' hr
    rw [r.len]
    apply settle_heap s'
    · omega
    · rw [swap_arr, swapArr_length]; omega
    · rw [swap_arr]
      have hole := hole_of_swap h.arr i s (by omega) hold
      have hg : ∀ c, c < h.arr.length - 1 → ∀ a, (swapArr h.arr i (h.arr.length - 1))[c]? = some a → a ≠ x := by
        intro c hc a ha
        rw [swapArr_getElem? _ _ _ hlt (by omega)] at ha
        apply hne _ _ ha
        unfold sg; grind
      have tr : ∀ c d, c < h.arr.length - 1 → d < h.arr.length - 1 →
          lessAt less' (swapArr h.arr i (h.arr.length - 1)) c d = lessAt less (swapArr h.arr i (h.arr.length - 1)) c d := by
        intro c d hc hd
        unfold lessAt
        cases h1 : (swapArr h.arr i (h.arr.length - 1))[c]? <;> cases h2 : (swapArr h.arr i (h.arr.length - 1))[d]? <;> simp
        exact hsame _ _ (hg c hc _ h1) (hg d hd _ h2)
      constructor
      · intro c hc hcn hci hp
        unfold Ok; rw [tr _ _ hcn (by omega)]; exact hole.1 c hc hcn hci hp
      · intro c hc hcn hp h0
        rw [tr _ _ hcn (by omega)]; exact hole.2 c hc hcn hp h0

/-- taking a ready item, whose fields have just been changed, out of the group it was in -/
theorem removeReadyFrom_mod {q : Q} {i : Nat} (h : Inv q) (hl : live q i) (hs : (q.store i).state = .ready)
    (f : Item → Item) (hk : ∀ it, (f it).key = it.key) :
    ∃ q', (q.mod i f).removeReadyFrom (q.store i).group i = some q' ∧ Frame (q.mod i f) q' ∧ InvX q' (some i) ∧
      (ReadyOrd q → ReadyOrd q') := by
  have hm : i ∈ q.ready (q.store i).group := (h.memReady _ i).2 ⟨hl, by simp, hs, rfl⟩
  obtain ⟨h', hr, w, mem, oth, -⟩ :=
    removeAt_member (less := lessReady (q.mod i f).store) (q.rheap (q.store i).group) (h.wfReady _) hm
  have hr' : removeAt (lessReady (q.mod i f).store) ((q.mod i f).rheap (q.store i).group) ((q.mod i f).readyIdx i) =
    some (i, h') := hr
  refine ⟨{ (q.mod i f).setR (q.store i).group h' with cursor := (q.store i).group }, ?_,
    ⟨rfl, rfl, rfl, rfl, rfl⟩, ?_, ?_⟩
  · unfold Q.removeReadyFrom; rw [hr']; rfl
  · -- first the removal on the old fields, then the change of a loose item
    have base : InvX { q.setR (q.store i).group h' with cursor := (q.store i).group } (some i) :=
      { keys := h.keys, keyOf := h.keyOf
        xlive := by intro j e; injection e with e; subst e; exact hl
        wfDelay := h.wfDelay, wfRun := h.wfRun, wfBury := h.wfBury, wfDep := h.wfDep
        wfReady := setR_wf h.wfReady w (by
          intro g' hg j hj
          apply oth
          intro hj2
          exact hg (((h.memReady _ j).1 hj).2.2.2.symm.trans ((h.memReady _ j).1 hj2).2.2.2))
        memDelay := fun j => (h.memDelay j).trans (nm_rm (by rw [hs]; simp) j)
        memRun := fun j => (h.memRun j).trans (nm_rm (by rw [hs]; simp) j)
        memBury := fun j => (h.memBury j).trans (nm_rm (by rw [hs]; simp) j)
        memDep := fun j => (h.memDep j).trans (nm_rm (by rw [hs]; simp) j)
        memReady := by
          intro g j
          simp only [Q.setR]
          have hmr := h.memReady g j
          by_cases hg : g = (q.store i).group
          · rw [if_pos hg, mem j]
            subst hg
            show j ∈ q.ready _ ∧ _ ↔ _
            rw [hmr]; simp only [some_ne]
            constructor
            · rintro ⟨⟨a, _, b⟩, c⟩; exact ⟨a, c, b⟩
            · rintro ⟨a, c, b⟩; exact ⟨⟨a, by simp, b⟩, c⟩
          · rw [if_neg hg, hmr]; simp only [some_ne]
            constructor
            · rintro ⟨a, _, b, c⟩; exact ⟨a, fun e => hg (by rw [← c, e]), b, c⟩
            · rintro ⟨a, _, b⟩; exact ⟨a, by simp, b⟩
        notRemoved := fun j hlj _ => h.notRemoved j hlj (by simp)
        dead := h.dead
        ordDelay := h.ordDelay
        ordRun := h.ordRun }
    exact modLoose base f hk
  · intro ho g
    show IsHeap (lessReady (q.mod i f).store) (if g = (q.store i).group then _ else _)
    by_cases hg : g = (q.store i).group
    · rw [if_pos hg]
      obtain ⟨p, hp, hpe⟩ := idx_spec (h.wfReady _) hm
      have hp' : q.readyIdx i = p := hp
      have hr2 : removeAt (lessReady (q.mod i f).store) (q.rheap (q.store i).group) (p : Int) = some (i, h') := by
        rw [← hp]; exact hr
      exact removeAt_isHeap_changed (swo_ready q.store) (swo_ready _) _ p i i h' (h.wfReady _) hpe (ho _)
        (by intro a b ha hb; unfold lessReady; rw [mod_other _ _ _ _ ha, mod_other _ _ _ _ hb]) hr2
    · rw [if_neg hg]
      refine IsHeap.congr (ho g) fun a ha b hb => ?_
      have ha' := (h.memReady g a).1 ha; have hb' := (h.memReady g b).1 hb
      unfold lessReady
      rw [mod_other _ _ _ _ (fun e => hg (by rw [← ha'.2.2.2, e])),
        mod_other _ _ _ _ (fun e => hg (by rw [← hb'.2.2.2, e]))]

/-- re-ordering one group of the ready sub-queue, whichever it is -/
theorem setR_reorder {q : Q} {x} (h : InvX q x) (g : String) (h' : IHeap) (r : Reorder (q.rheap g) h') :
    InvX (q.setR g h') x :=
  { keys := h.keys, keyOf := h.keyOf, xlive := h.xlive
    wfDelay := h.wfDelay, wfRun := h.wfRun, wfBury := h.wfBury, wfDep := h.wfDep
    wfReady := setR_wf h.wfReady (r.wf (h.wfReady g)) (by
      intro g' hg j hj
      apply r.other
      intro hj2
      exact hg (((h.memReady _ j).1 hj).2.2.2.symm.trans ((h.memReady _ j).1 hj2).2.2.2))
    memDelay := h.memDelay, memRun := h.memRun, memBury := h.memBury, memDep := h.memDep
    memReady := by
      intro g' j
      show j ∈ (if g' = g then _ else _) ↔ _
      by_cases hg : g' = g
      · rw [if_pos hg, r.perm.mem_iff]; subst hg; exact h.memReady g' j
      · rw [if_neg hg]; exact h.memReady g' j
    notRemoved := h.notRemoved, dead := h.dead, ordDelay := h.ordDelay, ordRun := h.ordRun }

/-- a change of priority (only) of any item keeps the base invariant -/
theorem modPrio {q : Q} {x} (h : InvX q x) (i : Nat) (f : Item → Item) (hk : ∀ it, (f it).key = it.key)
    (hst : ∀ it, (f it).state = it.state) (hg : (f (q.store i)).group = (q.store i).group)
    (hra : ∀ it, (f it).readyAt = it.readyAt) (hrl : ∀ it, (f it).releaseAt = it.releaseAt) :
    InvX (q.mod i f) x := by
  have hl := mod_live q i f hk
  have hs : ∀ j, ((q.mod i f).store j).state = (q.store j).state := by
    intro j; by_cases hj : j = i
    · subst hj; rw [mod_self, hst]
    · rw [mod_other _ _ _ _ hj]
  have hgg : ∀ j, ((q.mod i f).store j).group = (q.store j).group := by
    intro j; by_cases hj : j = i
    · subst hj; rw [mod_self, hg]
    · rw [mod_other _ _ _ _ hj]
  have hr : ∀ j, ((q.mod i f).store j).readyAt = (q.store j).readyAt := by
    intro j; by_cases hj : j = i
    · subst hj; rw [mod_self, hra]
    · rw [mod_other _ _ _ _ hj]
  have hr2 : ∀ j, ((q.mod i f).store j).releaseAt = (q.store j).releaseAt := by
    intro j; by_cases hj : j = i
    · subst hj; rw [mod_self, hrl]
    · rw [mod_other _ _ _ _ hj]
  exact
    { keys := h.keys
      keyOf := by intro k j hkj; rw [mod_key q i f hk]; exact h.keyOf k j hkj
      xlive := by intro j hj; rw [hl]; exact h.xlive j hj
      wfDelay := h.wfDelay, wfRun := h.wfRun, wfBury := h.wfBury, wfDep := h.wfDep, wfReady := h.wfReady
      memDelay := by intro j; rw [hl, hs]; exact h.memDelay j
      memRun := by intro j; rw [hl, hs]; exact h.memRun j
      memBury := by intro j; rw [hl, hs]; exact h.memBury j
      memDep := by intro j; rw [hl, hs]; exact h.memDep j
      memReady := by intro g j; rw [hl, hs, hgg]; exact h.memReady g j
      notRemoved := by intro j; rw [hl, hs]; exact h.notRemoved j
      dead := by intro hc j; rw [hl, hs]; exact h.dead hc j
      ordDelay := by
        refine IsHeap.congr h.ordDelay fun a _ b _ => ?_
        unfold lessDelay; rw [hr, hr]
      ordRun := by
        refine IsHeap.congr h.ordRun fun a _ b _ => ?_
        unfold lessRun; rw [hr2, hr2] }

/-- a change of group or priority of an item that is not ready -/
theorem modGroup_notReady {q : Q} {x} (h : InvX q x) (i : Nat) (f : Item → Item) (hk : ∀ it, (f it).key = it.key)
    (hst : ∀ it, (f it).state = it.state) (hs : (q.store i).state ≠ .ready)
    (hra : ∀ it, (f it).readyAt = it.readyAt) (hrl : ∀ it, (f it).releaseAt = it.releaseAt) :
    InvX (q.mod i f) x := by
  have hl := mod_live q i f hk
  have hss : ∀ j, ((q.mod i f).store j).state = (q.store j).state := by
    intro j; by_cases hj : j = i
    · subst hj; rw [mod_self, hst]
    · rw [mod_other _ _ _ _ hj]
  have hr : ∀ j, ((q.mod i f).store j).readyAt = (q.store j).readyAt := by
    intro j; by_cases hj : j = i
    · subst hj; rw [mod_self, hra]
    · rw [mod_other _ _ _ _ hj]
  have hr2 : ∀ j, ((q.mod i f).store j).releaseAt = (q.store j).releaseAt := by
    intro j; by_cases hj : j = i
    · subst hj; rw [mod_self, hrl]
    · rw [mod_other _ _ _ _ hj]
  exact
    { keys := h.keys
      keyOf := by intro k j hkj; rw [mod_key q i f hk]; exact h.keyOf k j hkj
      xlive := by intro j hj; rw [hl]; exact h.xlive j hj
      wfDelay := h.wfDelay, wfRun := h.wfRun, wfBury := h.wfBury, wfDep := h.wfDep, wfReady := h.wfReady
      memDelay := by intro j; rw [hl, hss]; exact h.memDelay j
      memRun := by intro j; rw [hl, hss]; exact h.memRun j
      memBury := by intro j; rw [hl, hss]; exact h.memBury j
      memDep := by intro j; rw [hl, hss]; exact h.memDep j
      memReady := by
        intro g j; rw [hl, hss]
        refine (h.memReady g j).trans (and_congr_right fun _ => and_congr_right fun _ => and_congr_right fun e => ?_)
        rw [mod_other _ _ _ _ (fun e' => hs (by rw [← e']; exact e))]
      notRemoved := by intro j; rw [hl, hss]; exact h.notRemoved j
      dead := by intro hc j; rw [hl, hss]; exact h.dead hc j
      ordDelay := by
        refine IsHeap.congr h.ordDelay fun a _ b _ => ?_
        unfold lessDelay; rw [hr, hr]
      ordRun := by
        refine IsHeap.congr h.ordRun fun a _ b _ => ?_
        unfold lessRun; rw [hr2, hr2] }

/-- What a change of priority and group of a ready item keeps. -/
structure Regroup (f : Item → Item) : Prop where
  key : ∀ it, (f it).key = it.key
  state : ∀ it, (f it).state = it.state
  readyAt : ∀ it, (f it).readyAt = it.readyAt
  releaseAt : ∀ it, (f it).releaseAt = it.releaseAt

/-- whenever the ready sub-queue update after such a change does not panic, the base invariant holds -/
theorem updateReady_inv {q q' : Q} {i : Nat} (h : Inv q) (hl : live q i) (hs : (q.store i).state = .ready)
    (f : Item → Item) (hf : Regroup f) (hu : (q.mod i f).updateReady i (q.store i).group = some q') :
    Inv q' ∧ Frame (q.mod i f) q' := by
  unfold Q.updateReady at hu
  rw [mod_self] at hu
  split at hu
  · obtain ⟨q1, e1, fr, inv, -⟩ := removeReadyFrom_mod h hl hs f hf.key
    rw [e1] at hu
    simp only [Option.map_some, Option.some.injEq] at hu
    subst hu
    have hst : (q1.store i).state = .ready := by rw [fr.store, mod_self, hf.state]; exact hs
    have p := pushReady_ok inv hst
    exact ⟨p.inv, fr.trans p.frame⟩
  · rename_i hg
    have hg : (f (q.store i)).group = (q.store i).group := by rw [ne_eq, Decidable.not_not] at hg; exact hg.symm
    have hm := modPrio h i f hf.key hf.state hg hf.readyAt hf.releaseAt
    cases hfx : fix (lessReady (q.mod i f).store) ((q.mod i f).rheap (q.mod i f).cursor) ((q.mod i f).readyIdx i) with
    | none => rw [hfx] at hu; simp at hu
    | some h' =>
      rw [hfx] at hu
      simp only [Option.map_some, Option.some.injEq] at hu
      subst hu
      exact ⟨setR_reorder hm _ h' (fix_reorder _ _ _ hfx), ⟨rfl, rfl, rfl, rfl, rfl⟩⟩

/-- if the group changed, or the cursor is at the item's group, the update works and keeps the ready order -/
theorem updateReady_ok {q : Q} {i : Nat} (h : Inv q) (hl : live q i) (hs : (q.store i).state = .ready)
    (f : Item → Item) (hf : Regroup f)
    (hc : (f (q.store i)).group ≠ (q.store i).group ∨ q.cursor = (q.store i).group) :
    ∃ q', (q.mod i f).updateReady i (q.store i).group = some q' ∧ (ReadyOrd q → ReadyOrd q') := by
  unfold Q.updateReady
  rw [mod_self]
  by_cases hg : (f (q.store i)).group = (q.store i).group
  · rw [if_neg (by simp [hg])]
    have hc : q.cursor = (q.store i).group := by rcases hc with hc | hc; exact absurd hg hc; exact hc
    have hm : i ∈ q.ready (q.store i).group := (h.memReady _ i).2 ⟨hl, by simp, hs, rfl⟩
    have hsame : ∀ a b, a ≠ i → b ≠ i → lessReady (q.mod i f).store a b = lessReady q.store a b := by
      intro a b ha hb; unfold lessReady; rw [mod_other _ _ _ _ ha, mod_other _ _ _ _ hb]
    obtain ⟨h', hfx, r, ord⟩ := fix_member (swo_ready q.store) (swo_ready (q.mod i f).store)
      (q.rheap (q.store i).group) (h.wfReady _) hm hsame
    have hfx' : fix (lessReady (q.mod i f).store) ((q.mod i f).rheap (q.mod i f).cursor) ((q.mod i f).readyIdx i) =
        some h' := by
      rw [show (q.mod i f).cursor = (q.store i).group from hc]; exact hfx
    rw [hfx']
    refine ⟨_, rfl, fun ho g => ?_⟩
    show IsHeap (lessReady (q.mod i f).store) (if g = q.cursor then _ else _)
    by_cases hgc : g = q.cursor
    · rw [if_pos hgc]; exact ord (ho _)
    · rw [if_neg hgc]
      refine IsHeap.congr (ho g) fun a ha b hb => hsame a b ?_ ?_
      · intro e; subst e; exact hgc (by rw [hc]; exact ((h.memReady g _).1 ha).2.2.2.symm)
      · intro e; subst e; exact hgc (by rw [hc]; exact ((h.memReady g _).1 hb).2.2.2.symm)
  · rw [if_pos (fun e => hg e.symm)]
    obtain ⟨q1, e1, fr, inv, ro⟩ := removeReadyFrom_mod h hl hs f hf.key
    rw [e1]
    have hst : (q1.store i).state = .ready := by rw [fr.store, mod_self, hf.state]; exact hs
    exact ⟨_, rfl, fun ho => (pushReady_ok inv hst).ready (ro ho)⟩

end Verif.Queue
