import Verif.Queue.Ops3
/-! The two timers and AddMany. -/
namespace Verif.Queue
open Verif.Heap

theorem root_min {less : Nat → Nat → Bool} (s : SWO less) {l : List Nat} (h : IsHeap less l) {r j : Nat}
    (hr : l[0]? = some r) (hj : j ∈ l) : less j r = false := by
  obtain ⟨p, hp, e⟩ := List.mem_iff_getElem.1 hj
  have := isHeap_root s l h p hp
  unfold lessAt at this
  rw [hr, List.getElem?_eq_getElem hp, e] at this
  exact this

theorem removeDelay_perm {q q' : Q} {i : Nat} (h : Inv q) (hi : i ∈ q.delay.arr) (e : q.removeDelay i = some q') :
    q.delay.arr.Perm (i :: q'.delay.arr) := by
  obtain ⟨h', hr, -⟩ := removeAt_member (less := lessDelay q.store) q.delay h.wfDelay hi
  have sp := removeAt_spec q.delay _ i h' h.wfDelay hr
  unfold Q.removeDelay at e
  rw [hr] at e; simp at e; rw [← e]; exact sp.2.2.2.1

theorem removeRun_perm {q q' : Q} {i : Nat} (h : Inv q) (hi : i ∈ q.run.arr) (e : q.removeRun i = some q') :
    q.run.arr.Perm (i :: q'.run.arr) := by
  obtain ⟨h', hr, -⟩ := removeAt_member (less := lessRun q.store) q.run h.wfRun hi
  have sp := removeAt_spec q.run _ i h' h.wfRun hr
  unfold Q.removeRun at e
  rw [hr] at e; simp at e; rw [← e]; exact sp.2.2.2.1

theorem fixRun_perm {q q' : Q} {i : Nat} (f : Item → Item) (h : Inv q) (hi : i ∈ q.run.arr)
    (e : (q.mod i f).fixRun i = some q') : q'.run.arr.Perm q.run.arr := by
  have hsame : ∀ a b, a ≠ i → b ≠ i → lessRun (q.mod i f).store a b = lessRun q.store a b := by
    intro a b ha hb; unfold lessRun; rw [mod_other _ _ _ _ ha, mod_other _ _ _ _ hb]
  obtain ⟨h', hf, r, -⟩ := fix_member (swo_run q.store) (swo_run (q.mod i f).store) q.run h.wfRun hi hsame
  unfold Q.fixRun at e
  have hf' : fix (lessRun (q.mod i f).store) (q.mod i f).run ((q.mod i f).run.idx i) = some h' := hf
  rw [hf'] at e; simp at e; rw [← e]; exact r.perm

theorem due_of_root {st : Nat → Item} {now : Int} {j r : Nat} (hm : lessDelay st j r = false)
    (hr : (st r).isready now = false) : (st j).isready now = false := by
  unfold lessDelay at hm; unfold Item.isready at *
  cases hj : (st j).readyAt <;> cases hk : (st r).readyAt <;> simp_all [before]
  omega

theorem delayLoop_ok (now : Int) (n : Nat) : ∀ (q : Q) (l : List Nat), Inv q → n = q.delay.arr.length →
    ∃ q' l', Q.delayLoop now n q l = some (q', l ++ l') ∧ Inv q' ∧ (ReadyOrd q → ReadyOrd q') ∧
      q'.items = q.items ∧ q'.next = q.next ∧ q'.closed = q.closed ∧ q'.dependants = q.dependants ∧
      (∀ j, q'.store j = if j ∈ l' then (q.store j).switchDelayReady else q.store j) ∧ l'.Nodup ∧
      (∀ j, j ∈ l' ↔ j ∈ q.delay.arr ∧ (q.store j).isready now = true) := by
  induction n with
  | zero =>
    intro q l h hn
    have : q.delay.arr = [] := List.length_eq_zero_iff.1 hn.symm
    exact ⟨q, [], by simp [Q.delayLoop], h, id, rfl, rfl, rfl, rfl, by simp, by simp, by simp [this]⟩
  | succ n ih =>
    intro q l h hn
    obtain ⟨i, rest, harr⟩ : ∃ i rest, q.delay.arr = i :: rest := by
      cases hh : q.delay.arr with
      | nil => rw [hh] at hn; simp at hn
      | cons a b => exact ⟨a, b, rfl⟩
    have h0 : q.delay.arr[0]? = some i := by rw [harr]; rfl
    have hm : i ∈ q.delay.arr := by rw [harr]; simp
    obtain ⟨hl, -, hs⟩ := (h.memDelay i).1 hm
    unfold Q.delayLoop
    simp only [h0]
    cases hdue : (q.store i).isready now
    · simp only [Bool.false_eq_true, if_false]
      refine ⟨q, [], by simp, h, id, rfl, rfl, rfl, rfl, by simp, by simp, ?_⟩
      intro j
      simp only [List.not_mem_nil, false_iff, not_and, Bool.not_eq_true]
      intro hj
      exact due_of_root (root_min (swo_delay q.store) h.ordDelay h0 hj) hdue
    · simp only [if_true]
      obtain ⟨q1, e1, r1⟩ := removeDelay_ok h hl hs
      simp only [e1]
      have m := r1.toReady (f := Item.switchDelayReady) (fun _ => rfl) rfl
      have perm := removeDelay_perm h hm e1
      have hlen : n = ((q1.mod i Item.switchDelayReady).pushReady i).delay.arr.length := by
        show n = q1.delay.arr.length
        have := perm.length_eq; simp at this; omega
      obtain ⟨q', l', e, inv, ro, hi, hnx, hcl, hde, hst, hnd, hmem⟩ := ih _ (l ++ [i]) m.inv hlen
      have s1 : ∀ x, ((q1.mod i Item.switchDelayReady).pushReady i).store x =
          if x = i then (q.store i).switchDelayReady else q.store x := by
        intro x; rw [m.frame.store]; rfl
      have arr1 : ∀ x, x ∈ q1.delay.arr ↔ x ∈ q.delay.arr ∧ x ≠ i := by
        intro x
        have nd := perm.nodup_iff.1 h.wfDelay.nodup
        simp only [List.nodup_cons] at nd
        rw [perm.mem_iff, List.mem_cons]
        constructor
        · intro a; exact ⟨Or.inr a, fun e => nd.1 (e ▸ a)⟩
        · rintro ⟨a | a, b⟩
          · exact absurd a b
          · exact a
      have hni : i ∉ l' := by
        intro hi'; have := (hmem i).1 hi'
        exact ((arr1 i).1 this.1).2 rfl
      refine ⟨q', i :: l', by rw [e]; simp, inv, fun a => ro (m.ready a), ?_, ?_, ?_, ?_, ?_, ?_, ?_⟩
      · rw [hi, m.frame.items]; rfl
      · rw [hnx, m.frame.next]; rfl
      · rw [hcl, m.frame.closed]; rfl
      · rw [hde, m.frame.dependants]; rfl
      · intro x; rw [hst, s1]
        by_cases ex : x = i
        · subst ex; simp [hni]
        · simp [ex]
      · simp only [List.nodup_cons]; exact ⟨hni, hnd⟩
      · intro x
        rw [List.mem_cons, hmem, s1]
        by_cases ex : x = i
        · subst ex; simp [hm, hdue]
        · simp only [ex, false_or, if_false]
          have : (x ∈ ((q1.mod i Item.switchDelayReady).pushReady i).delay.arr) ↔ x ∈ q1.delay.arr := Iff.rfl
          rw [this, arr1]; simp [ex]

/-- what the TTR process does to an item -/
def Item.timeout (now : Int) (t : Target) (it : Item) : Item :=
  match t with
  | .run => it.tempDisableTTR now
  | .delay => (it.restart now).switchRunDelay true
  | .bury => it.switchRunBury true
  | .ready => it.switchRunReady

theorem due_of_root_run {st : Nat → Item} {now : Int} {j r : Nat} (hm : lessRun st j r = false)
    (ht : (st r).releaseAt ≠ none) (hr : (st r).releasable now = false) : (st j).releasable now = false := by
  unfold lessRun at hm; unfold Item.releasable at *
  cases hj : (st j).releaseAt <;> cases hk : (st r).releaseAt <;> simp_all [before]
  omega

/-- number of running items that are due -/
def dueRun (q : Q) (now : Int) : Nat := (q.run.arr.filter fun j => (q.store j).releasable now).length

theorem filter_length_congr {α : Type} {l : List α} {p p' : α → Bool} (h : ∀ a ∈ l, p a = p' a) :
    (l.filter p).length = (l.filter p').length := by
  rw [List.filter_congr h]

theorem ttrLoop_ok (now : Int) (cb : Nat → Target) (n : Nat) : ∀ (q : Q) (l : List (Nat × Target)), Inv q →
    (∀ j ∈ q.run.arr, (q.store j).releaseAt ≠ none) → dueRun q now ≤ n → n ≤ q.run.arr.length →
    ∃ q' l', Q.ttrLoop now cb n q l = some (q', l ++ l') ∧ Inv q' ∧ (ReadyOrd q → ReadyOrd q') ∧
      q'.items = q.items ∧ q'.next = q.next ∧ q'.closed = q.closed ∧ q'.dependants = q.dependants ∧
      (∀ j, q'.store j = if j ∈ l'.map (·.1) then (q.store j).timeout now (cb (q.store j).data) else q.store j) ∧
      (l'.map (·.1)).Nodup ∧ (∀ p ∈ l', p.2 = cb (q.store p.1).data) ∧
      (∀ j, j ∈ l'.map (·.1) ↔ j ∈ q.run.arr ∧ (q.store j).releasable now = true) := by
  induction n with
  | zero =>
    intro q l h ht hd hn
    refine ⟨q, [], by simp [Q.ttrLoop], h, id, rfl, rfl, rfl, rfl, by simp, by simp, by simp, ?_⟩
    intro j
    simp only [List.map_nil, List.not_mem_nil, false_iff, not_and, Bool.not_eq_true]
    intro hj
    have h0 : (q.run.arr.filter fun j => (q.store j).releasable now) = [] := List.length_eq_zero_iff.1 (by unfold dueRun at hd; omega)
    rw [List.filter_eq_nil_iff] at h0
    simpa using h0 j hj
  | succ n ih =>
    intro q l h ht hd hn
    obtain ⟨i, rest, harr⟩ : ∃ i rest, q.run.arr = i :: rest := by
      cases hh : q.run.arr with
      | nil => rw [hh] at hn; simp at hn
      | cons a b => exact ⟨a, b, rfl⟩
    have h0 : q.run.arr[0]? = some i := by rw [harr]; rfl
    have hm : i ∈ q.run.arr := by rw [harr]; simp
    obtain ⟨hl, -, hs⟩ := (h.memRun i).1 hm
    have nd := h.wfRun.nodup
    -- the common end of all four cases
    have fin : ∀ (q1 : Q) (t : Target), cb (q.store i).data = t → (q.store i).releasable now = true →
        Moved q q1 i (Item.timeout now t) →
        (t = .run → q1.run.arr.Perm q.run.arr) → (t ≠ .run → q.run.arr.Perm (i :: q1.run.arr)) →
        ∃ q' l', Q.ttrLoop now cb n q1 (l ++ [(i, t)]) = some (q', l ++ l') ∧ Inv q' ∧ (ReadyOrd q → ReadyOrd q') ∧
          q'.items = q.items ∧ q'.next = q.next ∧ q'.closed = q.closed ∧ q'.dependants = q.dependants ∧
          (∀ j, q'.store j = if j ∈ l'.map (·.1) then (q.store j).timeout now (cb (q.store j).data) else q.store j) ∧
          (l'.map (·.1)).Nodup ∧ (∀ p ∈ l', p.2 = cb (q.store p.1).data) ∧
          (∀ j, j ∈ l'.map (·.1) ↔ j ∈ q.run.arr ∧ (q.store j).releasable now = true) := by
      intro q1 t hcb hdue m hrun hnrun
      have s1 : ∀ x, q1.store x = if x = i then (q.store i).timeout now t else q.store x := by
        intro x; rw [m.frame.store]; rfl
      have so : ∀ x, x ≠ i → q1.store x = q.store x := by intro x hx; rw [s1, if_neg hx]
      have hcount : dueRun q1 now + 1 = dueRun q now ∧ q1.run.arr.length + 1 ≥ q.run.arr.length ∧
          (∀ x, x ≠ i → (x ∈ q1.run.arr ↔ x ∈ q.run.arr)) ∧ (i ∈ q1.run.arr → (q1.store i).releasable now = false ∧ (q1.store i).releaseAt ≠ none) := by
        have cnt : ∀ (p : Nat → Bool), (∀ x, x ≠ i → p x = (q.store x).releasable now) →
            (rest.filter p).length + 1 = dueRun q now := by
          intro p hp
          unfold dueRun; rw [harr, List.filter_cons, if_pos hdue, List.length_cons]
          congr 1
          apply filter_length_congr
          intro a ha
          apply hp
          intro e; subst e; rw [harr] at nd; simp at nd; exact nd.1 ha
        by_cases ht : t = .run
        · have perm := hrun ht
          have e2 : (q1.store i).releasable now = false ∧ (q1.store i).releaseAt ≠ none := by
            rw [s1, if_pos rfl, ht]
            simp only [Item.timeout, Item.tempDisableTTR, Item.releasable, year]
            constructor
            · simp; omega
            · simp
          refine ⟨?_, by have := perm.length_eq; omega, fun x _ => perm.mem_iff, fun _ => e2⟩
          have : dueRun q1 now = (rest.filter fun j => (q1.store j).releasable now).length := by
            unfold dueRun
            rw [(perm.filter _).length_eq, harr, List.filter_cons, if_neg (by rw [e2.1]; simp)]
          rw [this]
          exact cnt (fun j => (q1.store j).releasable now) (fun x hx => by rw [so x hx])
        · have perm := hnrun ht
          have hnd := perm.nodup_iff.1 nd
          simp only [List.nodup_cons] at hnd
          refine ⟨?_, by have := perm.length_eq; simp at this; omega, ?_, fun a => absurd a hnd.1⟩
          · have hp2 : rest.Perm q1.run.arr := by
              rw [harr] at perm; exact List.Perm.cons_inv perm
            have : dueRun q1 now = (rest.filter fun j => (q1.store j).releasable now).length := by
              unfold dueRun
              rw [← (hp2.filter _).length_eq]
            rw [this]
            exact cnt (fun j => (q1.store j).releasable now) (fun x hx => by rw [so x hx])
          · intro x hx; rw [perm.mem_iff, List.mem_cons]; simp [hx]
      obtain ⟨hc1, hc2, hc3, hc4⟩ := hcount
      have ht1 : ∀ j ∈ q1.run.arr, (q1.store j).releaseAt ≠ none := by
        intro j hj
        by_cases e : j = i
        · subst e; exact (hc4 hj).2
        · rw [so j e]; exact ht j ((hc3 j e).1 hj)
      obtain ⟨q', l', e, inv, ro, hi, hnx, hcl, hde, hst, hnd, hp, hmem⟩ :=
        ih q1 (l ++ [(i, t)]) m.inv ht1 (by omega) (by omega)
      have hni : i ∉ l'.map (·.1) := by
        intro hi'; have := (hmem i).1 hi'
        rw [(hc4 this.1).1] at this; simp at this
      refine ⟨q', (i, t) :: l', by rw [e]; simp, inv, fun a => ro (m.ready a), ?_, ?_, ?_, ?_, ?_, ?_, ?_, ?_⟩
      · rw [hi, m.frame.items]; rfl
      · rw [hnx, m.frame.next]; rfl
      · rw [hcl, m.frame.closed]; rfl
      · rw [hde, m.frame.dependants]; rfl
      · intro x; rw [hst, s1]
        by_cases ex : x = i
        · subst ex; simp only [hni, if_false, if_true, List.map_cons, List.mem_cons, true_or]; rw [hcb]
        · simp only [ex, if_false, List.map_cons, List.mem_cons, false_or]
      · simp only [List.map_cons, List.nodup_cons]; exact ⟨hni, hnd⟩
      · intro p hpm
        rcases List.mem_cons.1 hpm with e | e
        · subst e; exact hcb.symm
        · rw [hp p e, so p.1 (fun a => hni (a ▸ List.mem_map.2 ⟨p, e, rfl⟩))]
      · intro x
        rw [List.map_cons, List.mem_cons, hmem]
        by_cases ex : x = i
        · subst ex; simp [hm, hdue]
        · simp only [ex, false_or]; rw [so x ex, hc3 x ex]
    unfold Q.ttrLoop
    simp only [h0]
    cases hdue : (q.store i).releasable now
    · simp only [Bool.false_eq_true, if_false]
      refine ⟨q, [], by simp, h, id, rfl, rfl, rfl, rfl, by simp, by simp, by simp, ?_⟩
      intro j
      simp only [List.map_nil, List.not_mem_nil, false_iff, not_and, Bool.not_eq_true]
      intro hj
      exact due_of_root_run (root_min (swo_run q.store) h.ordRun h0 hj) (ht i hm) hdue
    · simp only [if_true]
      rcases hcb : cb (q.store i).data with _ | _ | _ | _
      · obtain ⟨q1, e1, fr, inv, ro⟩ := fixRun_ok h hl hs (Item.tempDisableTTR now) (fun _ => rfl) (fun _ => rfl)
        simp only [e1]
        exact fin q1 .run hcb hdue ⟨fr, inv, ro⟩ (fun _ => fixRun_perm _ h hm e1) (fun a => absurd rfl a)
      · obtain ⟨q1, e1, r1⟩ := removeRun_ok h hl hs
        simp only [e1]
        exact fin _ .delay hcb hdue
          (r1.toDelay (f := fun it => (it.restart now).switchRunDelay true) (fun it => by rw [key_switchRunDelay]; rfl) (state_switchRunDelay _ _))
          (fun a => by simp at a) (fun _ => (removeRun_perm h hm e1 : q.run.arr.Perm (i :: q1.run.arr)))
      · obtain ⟨q1, e1, r1⟩ := removeRun_ok h hl hs
        simp only [e1]
        exact fin _ .bury hcb hdue (r1.toBury (f := Item.switchRunBury true) (fun it => key_switchRunBury _ it) (state_switchRunBury _ _))
          (fun a => by simp at a) (fun _ => (removeRun_perm h hm e1 : q.run.arr.Perm (i :: q1.run.arr)))
      · obtain ⟨q1, e1, r1⟩ := removeRun_ok h hl hs
        simp only [e1]
        exact fin _ .ready hcb hdue (r1.toReady (f := Item.switchRunReady) (fun _ => rfl) rfl)
          (fun a => by simp at a) (fun _ => (removeRun_perm h hm e1 : q.run.arr.Perm (i :: q1.run.arr)))

/-! ### AddMany -/

theorem addLoop_ok (now : Int) (ds : List Def) : ∀ (q : Q) (a u : Nat) (l : List (Nat × SubQ)), Inv q →
    ∃ q' n l', Q.addLoop now q ds a u l = (q', a + n, u + (ds.length - n), l ++ l') ∧ n ≤ ds.length ∧ l'.length = n ∧
      Inv q' ∧ (ReadyOrd q → ReadyOrd q') ∧ q'.next = q.next + n ∧ q'.closed = q.closed ∧
      (∀ j, j < q.next → q'.store j = q.store j) ∧
      (∀ k i, q.find k = some i → q'.find k = some i) ∧
      (∀ k, q.find k = none → (q'.find k = none ↔ ∀ d ∈ ds, d.key ≠ k)) ∧
      (∀ k i, q.find k = none → q'.find k = some i →
        ∃ d, ds.find? (fun d => d.key = k) = some d ∧ q'.store i = placed d now true (mkItem d now) ∧ q.next ≤ i) ∧
      (∀ p ∈ l', q.next ≤ p.1 ∧ p.1 < q'.next ∧ live q' p.1 ∧ (q'.store p.1).state.sub = p.2) ∧
      (∀ j, q.next ≤ j → j < q'.next → j ∈ l'.map (·.1)) ∧ (l'.map (·.1)).Nodup := by
  induction ds with
  | nil =>
    intro q a u l h
    exact ⟨q, 0, [], by simp [Q.addLoop], by simp, rfl, h, id, rfl, rfl, fun _ _ => rfl, fun _ _ e => e, by simp,
      by intro k i e e'; rw [e] at e'; simp at e', by simp, by intro j a b; omega, by simp⟩
  | cons d ds ih =>
    intro q a u l h
    unfold Q.addLoop
    by_cases hf : (q.find d.key).isSome = true
    · rw [if_pos hf]
      obtain ⟨q', n, l', e, hn, hln, inv, ro, hnx, hcl, hst, hfs, hfn, hnew, hl', hcov, hnd⟩ := ih q a (u + 1) l h
      refine ⟨q', n, l', ?_, by simp; omega, hln, inv, ro, hnx, hcl, hst, hfs, ?_, ?_, hl', hcov, hnd⟩
      · rw [e]; simp only [List.length_cons]; congr 2; rw [show ds.length + 1 - n = (ds.length - n) + 1 by omega]; congr 1; omega
      · intro k hk
        rw [hfn k hk]
        simp only [List.mem_cons, forall_eq_or_imp]
        constructor
        · intro hh; refine ⟨?_, hh⟩; intro e'; rw [e', hk] at hf; simp at hf
        · exact fun hh => hh.2
      · intro k i hk hk'
        obtain ⟨d', h1, h2⟩ := hnew k i hk hk'
        refine ⟨d', ?_, h2⟩
        rw [List.find?_cons]
        have : decide (d.key = k) = false := by
          simp; intro e'; rw [e', hk] at hf; simp at hf
        rw [this]; exact h1
    · have hn0 : q.find d.key = none := by simpa using hf
      rw [if_neg hf]
      obtain ⟨ad, hsub⟩ := add_core h d now true hn0
      have hlen := ad.next
      obtain ⟨q', n, l', e, hn, hln, inv, ro, hnx, hcl, hst, hfs, hfn, hnew, hl', hcov, hnd⟩ :=
        ih _ (a + 1) u (l ++ [(q.next, ((q.create d now).place q.next d now true).2)]) ad.inv
      have hdkey := hfs d.key q.next (by rw [ad.find, if_pos rfl])
      refine ⟨q', n + 1, (q.next, ((q.create d now).place q.next d now true).2) :: l', ?_, by simp; omega, by simp; omega, inv,
        fun a => ro (ad.ready a), by omega, by rw [hcl, ad.closed], ?_, ?_, ?_, ?_, ?_, ?_, ?_⟩
      · simp only []
        rw [e]
        simp [List.append_assoc]; omega
      · intro j hj; rw [hst j (by omega), ad.store, if_neg (by omega)]
      · intro k i hk
        apply hfs
        rw [ad.find, if_neg]; exact hk
        intro e'; rw [e', hn0] at hk; simp at hk
      · intro k hk
        by_cases e' : k = d.key
        · subst e'; rw [hdkey]; simp
        · rw [hfn k (by rw [ad.find, if_neg e']; exact hk)]
          simp only [List.mem_cons, forall_eq_or_imp]
          exact ⟨fun hh => ⟨fun a => e' a.symm, hh⟩, fun hh => hh.2⟩
      · intro k i hk hk'
        by_cases e' : k = d.key
        · subst e'
          rw [hdkey] at hk'; injection hk' with hk'; subst hk'
          refine ⟨d, by simp, ?_, by omega⟩
          rw [hst _ (by omega), ad.store, if_pos rfl]
        · obtain ⟨d', h1, h2, h3⟩ := hnew k i (by rw [ad.find, if_neg e']; exact hk) hk'
          refine ⟨d', ?_, h2, by omega⟩
          rw [List.find?_cons]
          have : decide (d.key = k) = false := by simp; exact fun a => e' a.symm
          rw [this]; exact h1
      · intro p hp
        rcases List.mem_cons.1 hp with e' | e'
        · subst e'
          refine ⟨by simp, by simp; omega, ?_, ?_⟩
          · exact inv.live hdkey
          · simp only; rw [hst _ (by omega)]; exact hsub
        · have := hl' p e'; exact ⟨by omega, this.2⟩
      · intro j h1 h2
        rw [List.map_cons, List.mem_cons]
        by_cases e' : j = q.next
        · exact Or.inl e'
        · exact Or.inr (hcov j (by omega) h2)
      · rw [List.map_cons, List.nodup_cons]
        refine ⟨?_, hnd⟩
        intro hh
        obtain ⟨p, hp, e'⟩ := List.mem_map.1 hh
        have := hl' p hp; simp only at e'; omega

end Verif.Queue
