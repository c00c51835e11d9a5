/-
Helpers for C127 (WaitsProps): in plain histories a job waits exactly for what it
depends on.
-/
import Verif.Server.WaitsStep

namespace Verif.Server.Waits

/-- calm requests without changes of jobs, where every job added is new -/
def Plain (s : S) : Op → Prop
  | .add js back upd =>
    (∀ j ∈ js, j.key ∉ s.known) ∧ ∀ j ∈ js ++ back, ∀ k ∈ s.known, k ∈ upd ∨ ¬ Mentions s k j.key
  | .modDeps .. => False
  | .modGroups .. => False
  | .rename .. => False
  | .prep .. => False
  | .store _ => False
  | .deps _ => False
  | .upd _ => False
  | .enq _ => False
  | .arch1 _ => False
  | .arch2 _ => False
  | _ => True

instance (s o) : Decidable (Plain s o) := by cases o <;> unfold Plain <;> infer_instance

def PlainAll (s : S) : List Op → Prop
  | [] => True
  | o :: os => Plain s o ∧ match step s o with | some s' => PlainAll s' os | none => True

instance decPlainAll : ∀ (s : S) (os : List Op), Decidable (PlainAll s os)
  | _, [] => by unfold PlainAll; infer_instance
  | s, o :: os => by
    unfold PlainAll
    have : ∀ s', Decidable (PlainAll s' os) := fun s' => decPlainAll s' os
    cases step s o <;> infer_instance

theorem plain_calm {s : S} (h : Inv s) {o} (hp : Plain s o) : Calm s o := by
  cases o <;> simp only [Plain, Calm] at hp ⊢
  refine ⟨fun j hj => .inl ?_, fun j hj _ => hp.2 j hj⟩
  cases hl : s.live j.key with
  | none => rfl
  | some a => exact absurd (h.known _ (by simp [hl])) (hp.1 j hj)

structure Exact (s : S) : Prop where
  dtkX : ∀ g j, (g, j) ∈ s.dtk → j ∈ s.known ∧ ∀ A, s.live j = some A ∨ s.comp j = some A → g ∈ A.groups
  knownC : ∀ j, (s.comp j).isSome → j ∈ s.known
  only : ∀ k it J, s.q k = some it → s.live k = some J → ∀ p ∈ it.rem, ∃ A, s.live p = some A ∧ On J p A
  depsR : ∀ k it J, s.q k = some it → s.live k = some J → ∀ d ∈ it.deps,
    Dep.key d ∈ J.deps ∨ ∃ g, Dep.grp g ∈ J.deps ∧ (g, d) ∈ s.dtk
  depsQ : ∀ k it, s.q k = some it → ∀ d ∈ it.deps, (s.q d).isSome → d ∈ it.rem
  alive : ∀ k it, s.q k = some it → it.st = .dependent → it.rem ≠ []

theorem exact_init : Exact init := by constructor <;> simp [init]

theorem exact_set {s : S} (h : Exact s) {k it st} (hk : s.q k = some it) (hr : st = .dependent → it.rem ≠ []) :
    Exact { s with q := fun x => if x = k then some { it with st := st } else s.q x } := by
  obtain ⟨h1, h2, h3, h4, h5, h6⟩ := h
  constructor
  · exact h1
  · exact h2
  · intro x it' J hx hJ
    simp only at hx
    by_cases hxk : x = k
    · rw [if_pos hxk] at hx; cases hx; subst hxk; exact h3 x it J hk hJ
    · rw [if_neg hxk] at hx; exact h3 x it' J hx hJ
  · intro x it' J hx hJ
    simp only at hx
    by_cases hxk : x = k
    · rw [if_pos hxk] at hx; cases hx; subst hxk; exact h4 x it J hk hJ
    · rw [if_neg hxk] at hx; exact h4 x it' J hx hJ
  · intro x it' hx d hd hq
    simp only at hx hq
    have hq' : (s.q d).isSome := by
      by_cases hdk : d = k
      · rw [hdk, hk]; rfl
      · rw [if_neg hdk] at hq; exact hq
    by_cases hxk : x = k
    · rw [if_pos hxk] at hx; cases hx; exact h5 k it hk d hd hq'
    · rw [if_neg hxk] at hx; exact h5 x it' hx d hd hq'
  · intro x it' hx hst
    simp only at hx
    by_cases hxk : x = k
    · rw [if_pos hxk] at hx; cases hx; exact hr hst
    · rw [if_neg hxk] at hx; exact h6 x it' hx hst

theorem exact_qset {s s' : S} {k a b} (h : Exact s) (hb : b ≠ .dependent) (hs : qSet s k a b = some s') : Exact s' := by
  unfold qSet at hs
  split at hs
  · split at hs
    · cases hs
      exact exact_set h (by assumption) (fun e => absurd e hb)
    · cases hs
  · cases hs

theorem exact_kick {s s' : S} {k} (h : Exact s) (hs : qKick s k = some s') : Exact s' := by
  unfold qKick at hs
  split at hs
  · rename_i it hk
    split at hs
    · cases hs
      refine exact_set h hk ?_
      intro e
      split at e
      · rename_i ha
        obtain ⟨d, hd, hq⟩ := List.any_eq_true.1 ha
        have := h.depsQ k it hk d hd hq
        intro e; rw [e] at this; cases this
      · cases e
    · cases hs
  · cases hs

theorem exact_gone {s : S} (hI : Inv s) (h : Exact s) {k} (hk : (s.q k).isSome) (comp : Key → Option Job)
    (hcomp : ∀ x j, comp x = some j → s.comp x = some j ∨ s.live x = some j) :
    Exact (qRemove { s with live := fun x => if x = k then none else s.live x, comp := comp } k) := by
  generalize hs1 : ({ s with live := fun x => if x = k then none else s.live x, comp := comp } : S) = s1
  have l1 : s1.live = fun x => if x = k then none else s.live x := by rw [← hs1]
  have c1 : s1.comp = comp := by rw [← hs1]
  have q1 : s1.q = s.q := by rw [← hs1]
  have k1 : s1.kids = s.kids := by rw [← hs1]
  have d1 : s1.dtk = s.dtk ∧ s1.rdtk = s.rdtk ∧ s1.known = s.known := by rw [← hs1]; simp
  obtain ⟨e1, e2, e3, e4, e5⟩ := qRemove_db s1 k
  have item : ∀ x it, (qRemove s1 k).q x = some it → x ≠ k ∧ ∃ a, s.q x = some a ∧ it.deps = a.deps ∧
      (∀ p, p ∈ it.rem ↔ p ∈ a.rem ∧ p ≠ k) ∧ (it.st = .dependent → a.st = .dependent ∧ (it.rem ≠ [] ∨ (it.rem = a.rem ∧ it.rem = []))) := by
    intro x it hx
    obtain ⟨h1, a, h2, h3⟩ := qRemove_some (by rw [q1]; exact hk) hx
    rw [q1] at h2
    have hl := left_rem h3 (by rw [k1]; exact hI.qi.kid x a h2)
    exact ⟨h1, a, h2, hl.1, hl.2.1, hl.2.2.2⟩
  have hlive : ∀ x j, (qRemove s1 k).live x = some j → x ≠ k ∧ s.live x = some j := by
    intro x j hx
    rw [e1, l1] at hx
    simp only at hx
    split at hx
    · cases hx
    · exact ⟨by assumption, hx⟩
  constructor
  · intro g j hg
    rw [e3, d1.1] at hg
    obtain ⟨h1, h2⟩ := h.dtkX g j hg
    refine ⟨by rw [e5, d1.2.2]; exact h1, ?_⟩
    intro A hA
    apply h2
    rcases hA with hA | hA
    · exact .inl (hlive j A hA).2
    · rw [e2, c1] at hA; exact (hcomp j A hA).symm
  · intro j hj
    rw [e5, d1.2.2]
    rw [e2, c1] at hj
    obtain ⟨A, hA⟩ := Option.isSome_iff_exists.1 hj
    rcases hcomp j A hA with h1 | h1
    · exact h.knownC j (by simp [h1])
    · exact hI.known j (by simp [h1])
  · intro x it J hx hJ p hp
    obtain ⟨_, a, h2, _, h3, _⟩ := item x it hx
    obtain ⟨A, hA, hon⟩ := h.only x a J h2 (hlive x J hJ).2 p ((h3 p).1 hp).1
    refine ⟨A, ?_, hon⟩
    rw [e1, l1]
    simp [((h3 p).1 hp).2, hA]
  · intro x it J hx hJ d hd
    obtain ⟨_, a, h2, h3, _, _⟩ := item x it hx
    rw [e3, d1.1]
    exact h.depsR x a J h2 (hlive x J hJ).2 d (by rw [← h3]; exact hd)
  · intro x it hx d hd hq
    obtain ⟨_, a, h2, h3, h4, _⟩ := item x it hx
    obtain ⟨it', hit'⟩ := Option.isSome_iff_exists.1 hq
    obtain ⟨hdk, b, hb, _⟩ := item d it' hit'
    exact (h4 d).2 ⟨h.depsQ x a h2 d (by rw [← h3]; exact hd) (by simp [hb]), hdk⟩
  · intro x it hx hst
    obtain ⟨_, a, h2, _, _, h5⟩ := item x it hx
    obtain ⟨h6, h7⟩ := h5 hst
    rcases h7 with h7 | ⟨h7, h8⟩
    · exact h7
    · exact absurd (by rw [← h7]; exact h8) (h.alive x a h2 h6)

theorem exact_add {s s' : S} {js back upd} (h : Inv s) (hx : Exact s) (hp : Plain s (.add js back upd))
    (hs : stepAdd s js back upd = some s') : Exact s' := by
  have hI' := inv_add h (plain_calm h hp) hs
  unfold stepAdd at hs
  split at hs
  · rename_i hg
    obtain ⟨hcl, hn⟩ := hg
    simp only [Option.map_eq_some_iff] at hs
    obtain ⟨s2, hu, rfl⟩ := hs
    obtain ⟨⟨u1, u2, u3, u4, u5⟩, uq, ui⟩ := upd_spec _ _ _ hu
    have hdb := store_db h.db hcl hn
    have hm := store_live_mem hcl hn
    have hdtk : (store s js back).dtk = s.dtk ++ js.flatMap fun j => j.groups.map fun g => (g, j.key) := rfl
    have hkn : (store s js back).known = s.known ++ (js ++ back).map (·.key) := rfl
    have hco : (store s js back).comp = s.comp := rfl
    generalize hs1 : store s js back = s1 at *
    have q1 : s1.q = s.q := by rw [← hs1]; rfl
    have hf : ∀ e ∈ findDeps s1 (back ++ js), ∃ J, s1.live e.1 = some J ∧ e.2.1 = incomplete s1 J.deps ∧ e.2.2 = .ready := by
      intro e he
      simp only [findDeps, List.mem_map] at he
      obtain ⟨j, hj, rfl⟩ := he
      exact ⟨j, hm j (by simp only [List.mem_append] at hj ⊢; exact hj.symm), rfl, rfl⟩
    obtain ⟨e1, e2, e3, e4, e5⟩ := enq_db (findDeps s1 (back ++ js)) s2
    have eq := enq_q (findDeps s1 (back ++ js)) s2
    generalize enqueueAll s2 (findDeps s1 (back ++ js)) = s' at *
    have L : s'.live = s1.live := by rw [e1, u1]
    have D : s'.dtk = s1.dtk := by rw [e3, u3]
    have hold : ∀ k, (s.live k).isSome → s1.live k = s.live k := by
      intro k hk
      rcases store_live_or s js back k with ⟨b, hb, e⟩ | ⟨_, e⟩
      · rcases List.mem_append.1 hb with hb' | hb'
        · exact absurd (h.known k hk) (by rw [← e]; exact hp.1 b hb')
        · have h5 := (hcl.1 b hb').2.1
          rw [e] at h5; simp [h5] at hk
      · rw [← hs1, e]
    -- a live job is an old one, a new one, or comes back
    have whence : ∀ j A, s1.live j = some A → s.live j = some A ∨ (A ∈ js ∧ A.key = j) ∨ (A ∈ back ∧ A.key = j ∧ s.comp j = some A) := by
      intro j A hA
      rcases store_live_or s js back j with ⟨b, hb, e⟩ | ⟨_, e⟩
      · have := hm b hb
        rw [e, hA] at this
        obtain rfl := Option.some.inj this
        rcases List.mem_append.1 hb with hb' | hb'
        · exact .inr (.inl ⟨hb', e⟩)
        · exact .inr (.inr ⟨hb', e, by rw [← e]; exact (hcl.1 A hb').1⟩)
      · exact .inl (by rw [← e, hs1]; exact hA)
    have dX : ∀ g j, (g, j) ∈ s1.dtk → j ∈ s1.known ∧ ∀ A, s1.live j = some A ∨ s.comp j = some A → g ∈ A.groups := by
      intro g j hg
      rw [hdtk] at hg
      rw [hkn]
      rcases List.mem_append.1 hg with hg | hg
      · obtain ⟨h1, h2⟩ := hx.dtkX g j hg
        refine ⟨List.mem_append.2 (.inl h1), ?_⟩
        intro A hA
        rcases hA with hA | hA
        · rcases whence j A hA with h3 | ⟨h3, h4⟩ | ⟨_, _, h3⟩
          · exact h2 A (.inl h3)
          · exact absurd h1 (by rw [← h4]; exact hp.1 A h3)
          · exact h2 A (.inr h3)
        · exact h2 A (.inr hA)
      · simp only [List.mem_flatMap, List.mem_map] at hg
        obtain ⟨b, hb, g', hg', e⟩ := hg
        cases e
        refine ⟨List.mem_append.2 (.inr (List.mem_map.2 ⟨b, by simp [hb], rfl⟩)), ?_⟩
        intro A hA
        rcases hA with hA | hA
        · rw [hm b (by simp [hb])] at hA; cases hA; exact hg'
        · exact absurd (hx.knownC _ (by simp [hA])) (hp.1 b hb)
    have inc_on : ∀ (J : Job) p, p ∈ incomplete s1 J.deps → ∃ A, s1.live p = some A ∧ On J p A := by
      intro J p hpi
      obtain ⟨h1, h2⟩ := (mem_incomplete s1 J.deps p).1 hpi
      obtain ⟨A, hA⟩ := Option.isSome_iff_exists.1 h1
      refine ⟨A, hA, ?_⟩
      rcases h2 with h2 | ⟨g, h2, h3⟩
      · exact .inl h2
      · exact .inr ⟨g, (dX g p h3).2 A (.inl hA), h2⟩
    have item : ∀ k it, s'.q k = some it →
        (k ∉ upd ∧ s.q k = some it) ∨
        (∃ J it0, k ∈ upd ∧ s1.live k = some J ∧ s.live k = some J ∧ s.q k = some it0 ∧ it = updItem (incomplete s1 J.deps) it0) ∨
        (∃ J, s1.live k = some J ∧ it = ⟨if incomplete s1 J.deps = [] then .ready else .dependent, incomplete s1 J.deps, incomplete s1 J.deps⟩) := by
      intro k it hk
      rcases eq k with ⟨it', h5, h6⟩ | ⟨h5, d, st, h6, h7⟩ | ⟨_, _, h7⟩
      · rw [hk] at h6; cases h6
        rw [uq k] at h5
        by_cases hk' : k ∈ upd
        · rw [if_pos hk', q1] at h5
          have hl := hold k (hcl.2.1 k hk')
          have hl2 := hcl.2.1 k hk'
          obtain ⟨J, hJ⟩ := Option.isSome_iff_exists.1 hl2
          simp only [Option.map_eq_some_iff] at h5
          obtain ⟨a, ha, rfl⟩ := h5
          refine .inr (.inl ⟨J, a, hk', by rw [hl, hJ], hJ, ha, ?_⟩)
          rw [newDeps, hl, hJ]
        · rw [if_neg hk', q1] at h5
          exact .inl ⟨hk', h5⟩
      · rw [hk] at h7; cases h7
        obtain ⟨J, h8, h9, h10⟩ := hf _ h6
        simp only at h9 h10
        exact .inr (.inr ⟨J, h8, by rw [h9, h10]⟩)
      · rw [hk] at h7; cases h7
    constructor
    · intro g j hg
      rw [D] at hg
      rw [e5, u5, L, e2, u2, hco]
      exact dX g j hg
    · intro j hj
      rw [e2, u2, hco] at hj
      rw [e5, u5, hkn]
      exact List.mem_append.2 (.inl (hx.knownC j hj))
    · intro k it J hk hJ p hpr
      rw [L] at hJ ⊢
      rcases item k it hk with ⟨hku, h5⟩ | ⟨J', a, hku, h5, h6, h7, rfl⟩ | ⟨J', h5, rfl⟩
      · have hkl := (h.sync k).2 (by simp [h5])
        obtain ⟨A, hA, hon⟩ := hx.only k it J h5 (by rw [← hold k hkl]; exact hJ) p hpr
        exact ⟨A, by rw [hold p (by simp [hA])]; exact hA, hon⟩
      · rw [hJ] at h5; cases h5
        exact inc_on J p ((updItem_rem _ _ p).1 hpr)
      · rw [hJ] at h5; cases h5
        exact inc_on J p hpr
    · intro k it J hk hJ d hd
      rw [L] at hJ
      rw [D]
      have fromInc : ∀ (d : Key), d ∈ incomplete s1 J.deps → Dep.key d ∈ J.deps ∨ ∃ g, Dep.grp g ∈ J.deps ∧ (g, d) ∈ s1.dtk :=
        fun d h => ((mem_incomplete s1 J.deps d).1 h).2
      have fromOld : ∀ a, s.q k = some a → d ∈ a.deps → Dep.key d ∈ J.deps ∨ ∃ g, Dep.grp g ∈ J.deps ∧ (g, d) ∈ s1.dtk := by
        intro a ha hda
        have hkl := (h.sync k).2 (by simp [ha])
        rcases hx.depsR k a J ha (by rw [← hold k hkl]; exact hJ) d hda with h1 | ⟨g, h1, h2⟩
        · exact .inl h1
        · exact .inr ⟨g, h1, by rw [hdtk]; exact List.mem_append.2 (.inl h2)⟩
      rcases item k it hk with ⟨hku, h5⟩ | ⟨J', a, hku, h5, h6, h7, rfl⟩ | ⟨J', h5, rfl⟩
      · exact fromOld it h5 hd
      · rw [hJ] at h5; cases h5
        unfold updItem at hd
        split at hd
        · exact fromOld a h7 hd
        · exact fromInc d hd
      · rw [hJ] at h5; cases h5
        exact fromInc d hd
    · intro k it hk d hd hq
      have hdl : (s1.live d).isSome := by rw [← L]; exact (hI'.sync d).2 hq
      rcases item k it hk with ⟨hku, h5⟩ | ⟨J', a, hku, h5, h6, h7, rfl⟩ | ⟨J', h5, rfl⟩
      · by_cases hqd : (s.q d).isSome
        · exact hx.depsQ k it h5 d hd hqd
        · exfalso
          have hkl := (h.sync k).2 (by simp [h5])
          obtain ⟨J, hJ⟩ := Option.isSome_iff_exists.1 hkl
          obtain ⟨A, hA⟩ := Option.isSome_iff_exists.1 hdl
          have hnl : s.live d = none := by
            cases hl : s.live d with
            | none => rfl
            | some a => exact absurd ((h.sync d).1 (by simp [hl])) hqd
          rcases hx.depsR k it J h5 hJ d hd with h8 | ⟨g, h8, h9⟩
          · have : ∃ b ∈ js ++ back, b.key = d := by
              rcases whence d A hA with h10 | ⟨h10, h11⟩ | ⟨h10, h11, _⟩
              · rw [hnl] at h10; cases h10
              · exact ⟨A, by simp [h10], h11⟩
              · exact ⟨A, by simp [h10], h11⟩
            obtain ⟨b, hb, e⟩ := this
            rcases hp.2 b hb k (h.known k hkl) with h10 | h10
            · exact hku h10
            · apply h10; simp only [Mentions, hJ]; rw [e]; exact h8
          · obtain ⟨h10, h11⟩ := hx.dtkX g d h9
            rcases whence d A hA with h12 | ⟨h12, h13⟩ | ⟨h12, h13, h14⟩
            · rw [hnl] at h12; cases h12
            · exact hp.1 A h12 (by rw [h13]; exact h10)
            · refine hku ((hcl.2.2 (g, k) (h.rdtk k J (.inl hJ) g h8) ?_).1 hkl)
              simp only [List.mem_append, List.mem_flatMap]
              exact .inl ⟨A, by simp [h12], h11 A (.inr h14)⟩
      · rw [updItem_rem]
        unfold updItem at hd
        split at hd
        · rw [mem_incomplete]
          refine ⟨hdl, ?_⟩
          rcases hx.depsR k a J' h7 h6 d hd with h1 | ⟨g, h1, h2⟩
          · exact .inl h1
          · exact .inr ⟨g, h1, by rw [hdtk]; exact List.mem_append.2 (.inl h2)⟩
        · exact hd
      · exact hd
    · intro k it hk hst
      rcases item k it hk with ⟨hku, h5⟩ | ⟨J', a, hku, h5, h6, h7, rfl⟩ | ⟨J', h5, rfl⟩
      · exact hx.alive k it h5 hst
      · unfold updItem at hst ⊢
        split at hst
        · rw [if_pos (by assumption)]; exact hx.alive k a h7 hst
        · rw [if_neg (by assumption)]
          simp only at hst ⊢
          split at hst
          · cases hst
          · assumption
      · simp only at hst ⊢
        split at hst
        · cases hst
        · assumption
  · cases hs

theorem exact_restart {s : S} (h : Inv s) (hx : Exact s) {st} (hst : ∀ k ∈ s.known, st k ≠ State.dependent) :
    Exact (enqueueAll { s with q := fun _ => none, kids := [], adding := [] } (recovered s st)) := by
  obtain ⟨e1, e2, e3, e4, e5⟩ := enq_db (recovered s st) { s with q := fun _ => none, kids := [], adding := [] }
  have eq := enq_q (recovered s st) { s with q := fun _ => none, kids := [], adding := [] }
  have hI' := inv_restart h st
  generalize enqueueAll { s with q := fun _ => none, kids := [], adding := [] } (recovered s st) = s' at *
  have L : s'.live = s.live := e1
  have D : s'.dtk = s.dtk := e3
  have item : ∀ k it, s'.q k = some it → ∃ J, s.live k = some J ∧ it.rem = incomplete s J.deps ∧ it.deps = incomplete s J.deps ∧
      (it.st = .dependent → it.rem ≠ []) := by
    intro k it hk
    rcases eq k with ⟨it', h5, h6⟩ | ⟨h5, d, st', h6, h7⟩ | ⟨_, _, h7⟩
    · cases h5
    · rw [hk] at h7; cases h7
      simp only [recovered, List.mem_filterMap, Option.map_eq_some_iff] at h6
      obtain ⟨k', hk', J, hJ, e⟩ := h6
      cases e
      refine ⟨J, hJ, rfl, rfl, ?_⟩
      intro hs
      simp only at hs ⊢
      split at hs
      · exact absurd hs (hst k hk')
      · assumption
    · rw [hk] at h7; cases h7
  constructor
  · intro g j hg
    rw [D] at hg
    rw [L, e5, e2]
    exact hx.dtkX g j hg
  · intro j hj; rw [e5]; rw [e2] at hj; exact hx.knownC j hj
  · intro k it J hk hJ p hp
    rw [L] at hJ ⊢
    obtain ⟨J', h1, h2, _⟩ := item k it hk
    rw [hJ] at h1; cases h1
    rw [h2] at hp
    obtain ⟨h3, h4⟩ := (mem_incomplete s J.deps p).1 hp
    obtain ⟨A, hA⟩ := Option.isSome_iff_exists.1 h3
    refine ⟨A, hA, ?_⟩
    rcases h4 with h4 | ⟨g, h4, h5⟩
    · exact .inl h4
    · exact .inr ⟨g, (hx.dtkX g p h5).2 A (.inl hA), h4⟩
  · intro k it J hk hJ d hd
    rw [L] at hJ
    rw [D]
    obtain ⟨J', h1, _, h2, _⟩ := item k it hk
    rw [hJ] at h1; cases h1
    rw [h2] at hd
    exact ((mem_incomplete s J.deps d).1 hd).2
  · intro k it hk d hd _
    obtain ⟨J', h1, h2, h3, _⟩ := item k it hk
    rw [h2, ← h3]; exact hd
  · intro k it hk hs
    obtain ⟨J', _, _, _, h4⟩ := item k it hk
    exact h4 hs

theorem exact_step {s s' : S} {o} (h : Inv s) (hx : Exact s) (hp : Plain s o) (hs : step s o = some s') : Exact s' := by
  cases o <;> simp only [step] at hs
  case add => exact exact_add h hx hp hs
  case prep => exact hp.elim
  case store => exact hp.elim
  case deps => exact hp.elim
  case upd => exact hp.elim
  case enq => exact hp.elim
  case arch1 => exact hp.elim
  case arch2 => exact hp.elim
  case modDeps => exact hp.elim
  case modGroups => exact hp.elim
  case rename => exact hp.elim
  case reserve k => exact exact_qset hx (by simp) hs
  case release k => exact exact_qset hx (by simp) hs
  case bury k => exact exact_qset hx (by simp) hs
  case kick k => exact exact_kick hx hs
  case archive k =>
    split at hs
    · rename_i it j hq hl
      split at hs
      · cases hs
        refine exact_gone h hx (by simp [hq]) _ ?_
        intro x a hx
        by_cases hxk : x = k
        · rw [if_pos hxk] at hx; cases hx; exact .inr (by rw [hxk]; exact hl)
        · rw [if_neg hxk] at hx; exact .inl hx
      · cases hs
    · cases hs
  case delete k =>
    split at hs
    · rename_i it hq
      split at hs
      · cases hs
        exact exact_gone h hx (by simp [hq]) s.comp (fun x j hx => .inl hx)
      · cases hs
    · cases hs
  case restart st =>
    split at hs
    · rename_i hg
      cases hs; exact exact_restart h hx hg
    · cases hs

theorem exact_run : ∀ os (s s' : S), Inv s → Exact s → PlainAll s os → run s os = some s' → Inv s' ∧ Exact s'
  | [], s, s', h, hx, _, hr => by simp only [run] at hr; cases hr; exact ⟨h, hx⟩
  | o :: os, s, s', h, hx, hc, hr => by
    simp only [run, Option.bind_eq_some_iff] at hr
    obtain ⟨s1, h1, h2⟩ := hr
    simp only [PlainAll, h1] at hc
    exact exact_run os s1 s' (inv_step h (plain_calm h hc.1) h1) (exact_step h hx hc.1 h1) hc.2 h2

end Verif.Server.Waits
