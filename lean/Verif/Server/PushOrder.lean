import Verif.Server.PushLemmas
/-
When the writes to pages happen in the order in which they were started, and pages ask for a job once.
-/
namespace Verif.Server.Push

/-- what pages ask for -/
def asked : List Ev → List (Nat × Nat)
  | [] => []
  | .ask c ks :: es => ks.map (fun k => (c, k)) ++ asked es
  | _ :: es => asked es

/-- writes happen in the order in which they were started -/
def inOrder (es : List Ev) : Prop := ∀ e, e ∈ es → ∀ i, e = .deliver i → i = 0

/-- what the page was sent about the job -/
def about (c k : Nat) (ms : List Msg) : List Msg := ms.filter fun m => m.conn = c && m.key = k

theorem about_append (c k : Nat) (a b : List Msg) : about c k (a ++ b) = about c k a ++ about c k b := by
  simp [about]

def pair (m : Msg) : Nat × Nat := (m.conn, m.key)

theorem about_nil {c k : Nat} {ms : List Msg} (h : (c, k) ∉ ms.map pair) : about c k ms = [] := by
  simp only [about, List.filter_eq_nil_iff]
  intro m hm hc
  apply h
  simp at hc
  exact List.mem_map.2 ⟨m, hm, by simp [pair, hc.1, hc.2]⟩

theorem perm_eraseIdx {α : Type} {l : List α} {i : Nat} {a : α} (h : l[i]? = some a) : l.Perm (a :: l.eraseIdx i) := by
  induction l generalizing i with
  | nil => simp at h
  | cons b l ih =>
    cases i with
    | zero => simp at h; subst h; simp
    | succ i =>
      simp at h
      simp only [List.eraseIdx_cons_succ]
      exact ((ih h).cons b).trans (List.Perm.swap _ _ _)

/-- the pairs that were answered, `P`, and those that wait for it make up what was asked -/
structure Ord (A : List (Nat × Nat)) (s : S) : Prop where
  split : ∃ P : List (Nat × Nat), (P ++ s.asks.flatMap (·.map pair)).Perm A ∧ (∀ p, p ∈ s.subs → p ∈ P) ∧
    (∀ w, w ∈ s.work → ∀ p, p ∈ w.subs → p ∈ P) ∧ (∀ m, m ∈ s.fly → pair m ∈ P)
  last : ∀ c k, (c, k) ∈ s.subs → (c, k) ∉ s.late →
    awaits s c k = true ∨ (about c k (s.got ++ s.fly)).getLast? = some ⟨c, k, s.ver k⟩

/-- the last element of a list of messages that all are the same one -/
theorem last_of_all {l : List Msg} {m : Msg} (hne : l ≠ []) (h : ∀ x, x ∈ l → x = m) : l.getLast? = some m := by
  rw [List.getLast?_eq_some_getLast hne]
  rw [h _ (List.getLast_mem hne)]

theorem last_append {a b : List Msg} (h : b ≠ []) : (a ++ b).getLast? = b.getLast? := by
  rw [List.getLast?_append]
  rw [List.getLast?_eq_some_getLast h]; rfl

set_option maxHeartbeats 1000000 in
theorem ord_step (A : List (Nat × Nat)) (s : S) (e : Ev) (t : S) (hi : Inv s) (h : Ord A s) (hs : step s e = some t)
    (hnd : (A ++ asked [e]).Nodup) (ho : ∀ i, e = .deliver i → i = 0) : Ord (A ++ asked [e]) t := by
  obtain ⟨⟨P, hP, hsub, hwork, hfly⟩, ht⟩ := h
  have hl := hi.live
  cases e with
  | openConn c0 =>
    simp only [step] at hs
    split at hs
    · cases hs
    · cases hs
      simp only [asked, List.append_nil]
      exact ⟨⟨P, hP, hsub, hwork, hfly⟩, fun c k hc hn => ht c k hc hn⟩
  | close c0 =>
    simp only [step] at hs; cases hs
    simp only [asked, List.append_nil]
    exact ⟨⟨P, hP, fun p hp => hsub p (List.mem_filter.1 hp).1, hwork, hfly⟩,
      fun c k hc hn => ht c k (List.mem_filter.1 hc).1 hn⟩
  | change ks =>
    simp only [step] at hs; cases hs
    simp only [asked, List.append_nil]
    refine ⟨⟨P, hP, hsub, hwork, hfly⟩, ?_⟩
    intro c k hc hn
    by_cases hk : k ∈ ks
    · left; rw [awaits_iff]; left; exact ⟨ks, by simp, hk⟩
    · have hn' : (c, k) ∉ s.late := fun hm => hn (List.mem_filter.2 ⟨hm, by simpa using hk⟩)
      rcases ht c k hc hn' with h1 | h1
      · left
        rw [awaits_iff] at h1 ⊢
        rcases h1 with ⟨l, h1, h2⟩ | h1
        · left; exact ⟨l, by simp [h1], h2⟩
        · right; exact h1
      · right; simpa [hk] using h1
  | touch k0 =>
    simp only [step] at hs; cases hs
    simp only [asked, List.append_nil]
    refine ⟨⟨P, hP, hsub, hwork, hfly⟩, ?_⟩
    intro c k hc hn
    simp only [List.mem_append, not_or] at hn
    rcases ht c k hc hn.1 with h1 | h1
    · left; exact h1
    · by_cases hk : k = k0
      · have := hn.2
        simp only [List.mem_filter, hk, hc] at this
        left
        subst hk
        show awaits s c k = true
        cases ha : awaits s c k with
        | true => rfl
        | false => exact absurd ⟨hc, by simp [ha]⟩ this
      · right; simpa [hk] using h1
  | begin i =>
    simp only [step] at hs
    cases hp : s.pend[i]? with
    | none => rw [hp] at hs; cases hs
    | some ks =>
      rw [hp] at hs; cases hs
      simp only [asked, List.append_nil]
      refine ⟨⟨P, hP, hsub, ?_, hfly⟩, ?_⟩
      · intro w hw p hpw
        rcases List.mem_append.1 hw with hw | hw
        · exact hwork w hw p hpw
        · simp at hw; subst hw; exact hsub p hpw
      intro c k hc hn
      rcases ht c k hc hn with h1 | h1
      · left
        rw [awaits_iff] at h1 ⊢
        rcases h1 with ⟨l, h1, h2⟩ | ⟨w, h1, h2⟩
        · rcases mem_erase_or hp h1 with rfl | h3
          · right; exact ⟨⟨l, s.subs⟩, by simp, h2, hc⟩
          · left; exact ⟨l, h3, h2⟩
        · right; exact ⟨w, by simp [h1], h2⟩
      · right; exact h1
  | push i =>
    simp only [step] at hs
    cases hp : s.work[i]? with
    | none => rw [hp] at hs; cases hs
    | some w0 =>
      obtain ⟨ks0, sb⟩ := w0
      rw [hp] at hs
      cases ks0 with
      | nil =>
        cases hs
        simp only [asked, List.append_nil]
        refine ⟨⟨P, hP, hsub, fun w hw => hwork w (List.mem_of_mem_eraseIdx hw), hfly⟩, ?_⟩
        intro c k hc hn
        rcases ht c k hc hn with h1 | h1
        · left
          rw [awaits_iff] at h1 ⊢
          rcases h1 with h1 | ⟨w, h1, h2⟩
          · left; exact h1
          · rcases mem_erase_or hp h1 with rfl | h3
            · simp at h2
            · right; exact ⟨w, h3, h2⟩
        · right; exact h1
      | cons k0 ks =>
        cases hs
        simp only [asked, List.append_nil]
        have hw0 : (⟨k0 :: ks, sb⟩ : Work) ∈ s.work := List.mem_of_getElem? hp
        refine ⟨⟨P, hP, hsub, ?_, ?_⟩, ?_⟩
        · intro w hw p hpw
          rcases List.mem_or_eq_of_mem_set hw with hw | hw
          · exact hwork w hw p hpw
          · subst hw; exact hwork _ hw0 p hpw
        · intro m hm
          rcases List.mem_append.1 hm with hm | hm
          · exact hfly m hm
          · simp only [doPush, readers, List.mem_map, List.mem_filter] at hm
            obtain ⟨c, ⟨⟨p, ⟨hp1, hp2⟩, hp3⟩, _⟩, he⟩ := hm
            subst he
            apply hwork _ hw0
            have : p = (c, k0) := by
              obtain ⟨p1, p2⟩ := p
              simp at hp2 hp3
              simp [hp2, hp3]
            subst this; exact hp1
        intro c k hc hn
        have key : ∀ hne : about c k (doPush s ⟨k0 :: ks, sb⟩ k0) ≠ [],
            (about c k (s.got ++ (s.fly ++ doPush s ⟨k0 :: ks, sb⟩ k0))).getLast? = some ⟨c, k, s.ver k⟩ := by
          intro hne
          rw [← List.append_assoc, about_append, last_append hne]
          apply last_of_all hne
          intro x hx
          simp only [about, doPush, List.mem_filter, List.mem_map] at hx
          obtain ⟨⟨c', _, he⟩, hx⟩ := hx
          subst he
          simp at hx
          obtain ⟨h1, h2⟩ := hx
          subst h1; subst h2; rfl
        rcases ht c k hc hn with h1 | h1
        · rw [awaits_iff] at h1
          rcases h1 with h1 | ⟨w, h1, h2, h3⟩
          · left; rw [awaits_iff]; left; exact h1
          · rcases mem_set_or (b := ⟨ks, sb⟩) hp h1 with rfl | h4
            · rcases List.mem_cons.1 h2 with h5 | h5
              · subst h5
                right
                apply key
                apply List.ne_nil_of_mem (a := ⟨c, k, s.ver k⟩)
                simp only [about, doPush, readers, List.mem_map, List.mem_filter]
                exact ⟨⟨c, ⟨⟨(c, k), ⟨h3, by simp⟩, rfl⟩, by simpa using hl c k hc⟩, rfl⟩, by simp⟩
              · left; rw [awaits_iff]; right
                exact ⟨_, mem_set_self' hp, h5, h3⟩
            · left; rw [awaits_iff]; right; exact ⟨w, h4, h2, h3⟩
        · right
          by_cases hne : about c k (doPush s ⟨k0 :: ks, sb⟩ k0) = []
          · show (about c k (s.got ++ (s.fly ++ doPush s ⟨k0 :: ks, sb⟩ k0))).getLast? = _
            rw [← List.append_assoc, about_append, hne, List.append_nil]; exact h1
          · exact key hne
  | ask c0 ks =>
    simp only [step] at hs
    split at hs
    · cases hs
      simp only [asked, List.append_nil]
      refine ⟨⟨P, ?_, hsub, hwork, hfly⟩, fun c k hc hn => ht c k hc hn⟩
      show (P ++ (s.asks ++ [_]).flatMap _).Perm _
      simp only [List.flatMap_append, List.flatMap_cons, List.flatMap_nil, List.append_nil, ← List.append_assoc]
      have : (ks.map fun k => (⟨c0, k, s.ver k⟩ : Msg)).map pair = ks.map fun k => (c0, k) := by
        simp [List.map_map, Function.comp_def, pair]
      rw [this]
      exact hP.append_right _
    · cases hs
  | answer i =>
    simp only [step] at hs
    cases hp : s.asks[i]? with
    | none => rw [hp] at hs; cases hs
    | some ms =>
      rw [hp] at hs; cases hs
      simp only [asked, List.append_nil] at hnd ⊢
      have hperm : (P ++ (ms.map pair ++ (s.asks.eraseIdx i).flatMap (·.map pair))).Perm A := by
        refine List.Perm.trans ?_ hP
        apply List.Perm.append_left
        have := (perm_eraseIdx hp).flatMap_right (fun l => l.map pair)
        simpa using this.symm
      have hdis : ∀ p, p ∈ ms.map pair → p ∉ P := by
        intro p hp1 hp2
        have hn := (hperm.nodup_iff).2 hnd
        rw [List.nodup_append] at hn
        exact hn.2.2 p hp2 p (List.mem_append_left _ hp1) rfl
      refine ⟨⟨P ++ ms.map pair, by rw [List.append_assoc]; exact hperm, ?_, fun w hw p hpw => List.mem_append_left _ (hwork w hw p hpw),
        fun m hm => List.mem_append_left _ (hfly m hm)⟩, ?_⟩
      · intro p hpm
        rcases List.mem_append.1 hpm with h1 | h1
        · exact List.mem_append_left _ (hsub p h1)
        · obtain ⟨m, hm, he⟩ := List.mem_map.1 (List.mem_filter.1 h1).1
          exact List.mem_append_right _ (List.mem_map.2 ⟨m, (List.mem_filter.1 hm).1, he⟩)
      · intro c k hc hn
        simp only [List.mem_append, not_or] at hn
        obtain ⟨hn1, hn2⟩ := hn
        by_cases hm : (c, k) ∈ (ms.filter (·.conn ∈ s.conns)).map fun m => (m.conn, m.key)
        · have hmP : (c, k) ∉ P := by
            obtain ⟨m, hm2, he⟩ := List.mem_map.1 hm
            exact hdis _ (List.mem_map.2 ⟨m, (List.mem_filter.1 hm2).1, he⟩)
          have hf : about c k s.fly = [] := by
            apply about_nil
            intro hx
            obtain ⟨m, hm2, he⟩ := List.mem_map.1 hx
            exact hmP (he ▸ hfly m hm2)
          by_cases ha : awaits s c k = true
          · left; exact ha
          · right
            show (about c k (s.got ++ _ ++ s.fly)).getLast? = _
            rw [about_append, hf, List.append_nil, about_append]
            have hne : about c k (ms.filter (·.conn ∈ s.conns)) ≠ [] := by
              obtain ⟨m, hm2, he⟩ := List.mem_map.1 hm
              cases he
              apply List.ne_nil_of_mem (a := m)
              exact List.mem_filter.2 ⟨hm2, by simp⟩
            rw [last_append hne]
            apply last_of_all hne
            intro x hx
            obtain ⟨hx1, hx2⟩ := List.mem_filter.1 hx
            simp at hx2
            obtain ⟨x1, x2⟩ := hx2
            have hv : x.ver = s.ver x.key := by
              false_or_by_contra
              rename_i hv
              apply hn2
              refine List.mem_map.2 ⟨x, List.mem_filter.2 ⟨hx1, ?_⟩, by simp [x1, x2]⟩
              rw [x1, x2] at *
              simp [ha, hv]
            obtain ⟨xc, xk, xv⟩ := x
            simp only at x1 x2 hv
            subst x1; subst x2; subst hv; rfl
        · have hc' : (c, k) ∈ s.subs := by
            rcases List.mem_append.1 hc with hc | hc
            · exact hc
            · exact absurd (List.mem_filter.1 hc).1 hm
          have hn' : (c, k) ∉ s.late := fun hx => hn1 (List.mem_filter.2 ⟨hx, by simpa using hm⟩)
          rcases ht c k hc' hn' with h1 | h1
          · left; exact h1
          · right
            have hf : about c k (ms.filter (·.conn ∈ s.conns)) = [] := about_nil hm
            show (about c k (s.got ++ _ ++ s.fly)).getLast? = _
            rw [about_append, about_append, hf, List.append_nil, ← about_append]; exact h1
  | deliver i =>
    have := ho i rfl
    subst this
    simp only [step] at hs
    cases hp : s.fly[0]? with
    | none => rw [hp] at hs; cases hs
    | some m =>
      rw [hp] at hs; cases hs
      simp only [asked, List.append_nil]
      refine ⟨⟨P, hP, hsub, hwork, fun m' hm => hfly m' (List.mem_of_mem_eraseIdx hm)⟩, ?_⟩
      intro c k hc hn
      rcases ht c k hc hn with h1 | h1
      · left; exact h1
      · right
        cases hfl : s.fly with
        | nil => rw [hfl] at hp; simp at hp
        | cons m' l =>
          rw [hfl] at hp h1
          simp at hp
          subst hp
          show (about c k ((if _ then _ else _) ++ List.eraseIdx (m' :: l) 0)).getLast? = _
          simp only [List.eraseIdx_cons_zero]
          split
          · rw [List.append_assoc]; exact h1
          · rename_i hnc
            have hne : about c k [m'] = [] := by
              simp only [about, List.filter_eq_nil_iff]
              intro x hx
              simp at hx; subst hx
              simp
              intro hxc
              exact absurd (hxc ▸ hl c k hc) hnc
            have : m' :: l = [m'] ++ l := rfl
            rw [this, about_append, about_append, hne, List.nil_append, ← about_append] at h1
            exact h1
  | unsub c0 k0 =>
    simp only [step] at hs; cases hs
    simp only [asked, List.append_nil]
    exact ⟨⟨P, hP, fun p hp => hsub p (List.mem_filter.1 hp).1, hwork, hfly⟩,
      fun c k hc hn => ht c k (List.mem_filter.1 hc).1 hn⟩
  | unsubAll c0 =>
    simp only [step] at hs; cases hs
    simp only [asked, List.append_nil]
    exact ⟨⟨P, hP, fun p hp => hsub p (List.mem_filter.1 hp).1, hwork, hfly⟩,
      fun c k hc hn => ht c k (List.mem_filter.1 hc).1 hn⟩

theorem asked_cons (e : Ev) (es : List Ev) : asked (e :: es) = asked [e] ++ asked es := by
  cases e <;> simp [asked]

theorem ord_run (es : List Ev) : ∀ (A : List (Nat × Nat)) (s t : S), Inv s → Ord A s → run s es = some t →
    (A ++ asked es).Nodup → inOrder es → Ord (A ++ asked es) t := by
  induction es with
  | nil => intro A s t _ h hr _ _; simp [run] at hr; subst hr; simpa [asked] using h
  | cons e es ih =>
    intro A s t hi h hr hnd ho
    simp only [run] at hr
    cases h1 : step s e with
    | none => simp [h1] at hr
    | some u =>
      simp [h1] at hr
      rw [asked_cons, ← List.append_assoc] at hnd ⊢
      have hnd1 : (A ++ asked [e]).Nodup := (List.nodup_append.1 hnd).1
      exact ih _ u t (inv_step s e u hi h1) (ord_step A s e u hi h h1 hnd1 (fun i he => ho e (by simp) i he)) hr hnd
        (fun e' he' => ho e' (by simp [he']))

theorem ord_init : Ord [] {} := ⟨⟨[], by simp, by simp, by simp, by simp⟩, by simp⟩

end Verif.Server.Push
