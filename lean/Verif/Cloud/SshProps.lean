import Verif.Cloud.Ssh
/-
C119 (first part): ssh sessions on a cloud server. No connection carries more sessions than sshd accepts; connections with room are used
before new ones are made; what is not used any more is given back.
-/
namespace Verif.Cloud.Ssh

/-- the sessions there are, or are being made, on a connection of the present pool -/
def load (s : S) (i : Nat) : Nat := s.uses.countP fun u => u.gen = s.gen && u.idx = i

/-- a session that is going to write a counter -/
def writes (u : Use) : Bool := !u.file && (u.ph == .opening || u.ph == .up)

/-! ### Lemmas -/

theorem countP_erase {α : Type} (p : α → Bool) {l : List α} {i : Nat} {a : α} (h : l[i]? = some a) :
    l.countP p = (l.eraseIdx i).countP p + if p a then 1 else 0 := by
  induction l generalizing i with
  | nil => simp at h
  | cons b l ih =>
    cases i with
    | zero => simp at h; subst h; simp [List.countP_cons]
    | succ i => simp at h; simp only [List.eraseIdx_cons_succ, List.countP_cons]; rw [ih h]; omega

theorem countP_set' {α : Type} (p : α → Bool) {l : List α} {i : Nat} {a : α} (b : α) (h : l[i]? = some a) :
    (l.set i b).countP p + (if p a then 1 else 0) = l.countP p + if p b then 1 else 0 := by
  induction l generalizing i with
  | nil => simp at h
  | cons c l ih =>
    cases i with
    | zero => simp at h; subst h; simp [List.countP_cons]; omega
    | succ i => simp at h; simp only [List.set_cons_succ, List.countP_cons]; have := ih h; omega

theorem pick_some {cs : List Int} {i : Nat} (h : pick cs = some i) : ∃ n, cs[i]? = some n ∧ n < maxSessions := by
  induction cs generalizing i with
  | nil => simp [pick] at h
  | cons c cs ih =>
    simp only [pick] at h
    cases hp : pick cs with
    | some j => rw [hp] at h; cases h; simpa using ih hp
    | none =>
      rw [hp] at h
      simp only at h
      split at h
      · cases h; exact ⟨c, by simp, by assumption⟩
      · cases h

theorem pick_none {cs : List Int} (h : pick cs = none) : ∀ n, n ∈ cs → maxSessions ≤ n := by
  induction cs with
  | nil => simp
  | cons c cs ih =>
    simp only [pick] at h
    cases hp : pick cs with
    | some j => rw [hp] at h; simp at h
    | none =>
      rw [hp] at h
      simp only at h
      intro n hn
      rcases List.mem_cons.1 hn with rfl | hn
      · split at h
        · cases h
        · omega
      · exact ih hp n hn

theorem pick_last {cs : List Int} {i : Nat} (h : pick cs = some i) (j : Nat) (n : Int) (hij : i < j) (hj : cs[j]? = some n) :
    maxSessions ≤ n := by
  induction cs generalizing i j with
  | nil => simp at hj
  | cons c cs ih =>
    simp only [pick] at h
    cases j with
    | zero => omega
    | succ j =>
      simp at hj
      cases hp : pick cs with
      | some k =>
        rw [hp] at h; cases h
        exact ih hp j (by omega) hj
      | none => exact pick_none hp n (List.mem_of_getElem? hj)

/-- counters bound the sessions -/
structure Inv (s : S) : Prop where
  alive : s.dead = false
  old : ∀ u, u ∈ s.uses → u.gen ≤ s.gen
  act : ∀ u, u ∈ s.uses → writes u = true → u.gen = s.gen
  here : ∀ u, u ∈ s.uses → u.gen = s.gen → u.idx < s.clients.length
  bound : ∀ (i : Nat) (n : Int), s.clients[i]? = some n → (load s i : Int) ≤ n ∧ n ≤ maxSessions

theorem inv_init : Inv {} := by constructor <;> simp

theorem load_zero {s : S} (h : Inv s) : load s s.clients.length = 0 := by
  simp only [load, List.countP_eq_zero]
  intro u hu hx
  simp at hx
  have := h.here u hu hx.1
  omega

theorem write_of_lt {s : S} {i : Nat} {f : Int → Int} {n : Int} (h : s.clients[i]? = some n) :
    write s i f = { s with clients := s.clients.set i (f n) } := by
  simp [write, h]

theorem getElem?_set_cases {cs : List Int} {i j : Nat} {a n : Int} (h : (cs.set i a)[j]? = some n) :
    (j = i ∧ n = a) ∨ (j ≠ i ∧ cs[j]? = some n) := by
  by_cases hij : i = j
  · subst hij
    rw [List.getElem?_set] at h
    split at h
    · split at h
      · left; cases h; exact ⟨rfl, rfl⟩
      · cases h
    · contradiction
  · rw [List.getElem?_set_ne hij] at h
    exact Or.inr ⟨fun h => hij h.symm, h⟩

set_option maxHeartbeats 1000000 in
theorem inv_step (s : S) (e : Ev) (t : S) (h : Inv s) (hs : step s e = some t)
    (hc : e = .clear → ∀ u, u ∈ s.uses → writes u = false) : Inv t := by
  obtain ⟨h1, h2, h3, h4, h5⟩ := h
  unfold step at hs
  rw [if_neg (by simp [h1])] at hs
  cases e with
  | get file dial =>
    simp only at hs
    cases hp : pick s.clients with
    | some i =>
      obtain ⟨n, hn, hlt⟩ := pick_some hp
      have hi : i < s.clients.length := (List.getElem?_eq_some_iff.1 hn).1
      rw [hp] at hs
      simp only [write_of_lt hn] at hs
      cases hs
      refine ⟨h1, ?_, ?_, ?_, ?_⟩
      · intro u hu
        rcases List.mem_append.1 hu with hu | hu
        · exact h2 u hu
        · simp at hu; subst hu; exact Nat.le_refl _
      · intro u hu hw
        rcases List.mem_append.1 hu with hu | hu
        · exact h3 u hu hw
        · simp at hu; subst hu; rfl
      · intro u hu hg
        simp only [List.length_set]
        rcases List.mem_append.1 hu with hu | hu
        · exact h4 u hu hg
        · simp at hu; subst hu; exact hi
      · intro j m hj
        have hl : load { s with clients := s.clients.set i (n + 1), uses := s.uses ++ [⟨s.gen, i, file, .opening⟩] } j =
            load s j + if i = j then 1 else 0 := by
          simp [load, List.countP_append, List.countP_cons]
        show (load _ j : Int) ≤ m ∧ _
        rw [hl]
        rcases getElem?_set_cases hj with ⟨rfl, rfl⟩ | ⟨hne, hj⟩
        · have := h5 j n hn
          simp; omega
        · have := h5 j m hj
          have hne' : ¬ i = j := fun hx => hne hx.symm
          simp [hne']; omega
    | none =>
      rw [hp] at hs
      simp only at hs
      split at hs
      · cases hs
        have hz := load_zero ⟨h1, h2, h3, h4, h5⟩
        refine ⟨h1, ?_, ?_, ?_, ?_⟩
        · intro u hu
          rcases List.mem_append.1 hu with hu | hu
          · exact h2 u hu
          · simp at hu; subst hu; exact Nat.le_refl _
        · intro u hu hw
          rcases List.mem_append.1 hu with hu | hu
          · exact h3 u hu hw
          · simp at hu; subst hu; rfl
        · intro u hu hg
          simp only [List.length_append, List.length_cons, List.length_nil]
          rcases List.mem_append.1 hu with hu | hu
          · have := h4 u hu hg; omega
          · simp at hu; subst hu; simp
        · intro j m hj
          have hl : load { s with clients := s.clients ++ [1], uses := s.uses ++ [⟨s.gen, s.clients.length, file, .opening⟩] } j =
              load s j + if s.clients.length = j then 1 else 0 := by
            simp [load, List.countP_append, List.countP_cons]
          show (load _ j : Int) ≤ m ∧ _
          rw [hl]
          have hj : (s.clients ++ [1])[j]? = some m := hj
          by_cases hjl : j < s.clients.length
          · rw [List.getElem?_append_left hjl] at hj
            have := h5 j m hj
            have : ¬ s.clients.length = j := by omega
            simp [this]; omega
          · rw [List.getElem?_append_right (by omega)] at hj
            have hj0 : j = s.clients.length := by
              have := (List.getElem?_eq_some_iff.1 hj).1
              simp at this; omega
            subst hj0
            simp at hj
            subst hj
            rw [hz]; simp [maxSessions]
      · cases hs; exact ⟨h1, h2, h3, h4, h5⟩
  | up i =>
    simp only at hs
    have key : ∀ (g x : Nat) (file : Bool) (p q : Ph), s.uses[i]? = some ⟨g, x, file, p⟩ → (writes ⟨g, x, file, q⟩ = true →
        writes ⟨g, x, file, p⟩ = true) → Inv { s with uses := s.uses.set i ⟨g, x, file, q⟩ } := by
      intro g x file p q hi hw
      have hm := List.mem_of_getElem? hi
      refine ⟨h1, ?_, ?_, ?_, ?_⟩
      · intro u hu
        rcases List.mem_or_eq_of_mem_set hu with hu | hu
        · exact h2 u hu
        · subst hu; have := h2 _ hm; exact this
      · intro u hu hwu
        rcases List.mem_or_eq_of_mem_set hu with hu | hu
        · exact h3 u hu hwu
        · subst hu; have := h3 _ hm (hw hwu); exact this
      · intro u hu hg
        rcases List.mem_or_eq_of_mem_set hu with hu | hu
        · exact h4 u hu hg
        · subst hu; have := h4 _ hm hg; exact this
      · intro j m hj
        have := countP_set' (fun u => decide (u.gen = s.gen) && decide (u.idx = j)) ⟨g, x, file, q⟩ hi
        simp only at this
        have hl : load { s with uses := s.uses.set i ⟨g, x, file, q⟩ } j = load s j := by
          simp only [load]; omega
        show (load _ j : Int) ≤ m ∧ _
        rw [hl]; exact h5 j m hj
    split at hs
    · rename_i g x file hi
      cases hs; exact key g x file .opening .up hi (by intro; simp_all [writes])
    · rename_i g x file hi
      cases hs; exact key g x file .timedOut .stray hi (by simp [writes])
    · cases hs
  | fail i =>
    simp only at hs
    have key : ∀ u0, s.uses[i]? = some u0 → Inv { s with uses := s.uses.eraseIdx i } := by
      intro u0 hi
      refine ⟨h1, fun u hu => h2 u (List.mem_of_mem_eraseIdx hu), fun u hu => h3 u (List.mem_of_mem_eraseIdx hu),
        fun u hu => h4 u (List.mem_of_mem_eraseIdx hu), ?_⟩
      intro j m hj
      have := countP_erase (fun u => decide (u.gen = s.gen) && decide (u.idx = j)) hi
      have hl : load { s with uses := s.uses.eraseIdx i } j ≤ load s j := by
        simp only [load]; omega
      have h6 := h5 j m hj
      exact ⟨by omega, h6.2⟩
    split at hs
    · rename_i g x hi
      have hm := List.mem_of_getElem? hi
      have hg := h3 _ hm (by simp [writes])
      have hx := h4 _ hm hg
      have hn : s.clients[x]? = some s.clients[x] := List.getElem?_eq_getElem hx
      have hk := key _ hi
      rw [write_of_lt (s := { s with uses := s.uses.eraseIdx i }) hn] at hs
      cases hs
      refine ⟨h1, hk.old, hk.act, ?_, ?_⟩
      · intro u hu hgu
        simp only [List.length_set]
        exact hk.here u hu hgu
      · intro j m hj
        show (load { s with uses := s.uses.eraseIdx i } j : Int) ≤ m ∧ _
        rcases getElem?_set_cases hj with ⟨rfl, rfl⟩ | ⟨hne, hj⟩
        · have := hk.bound j _ hn
          exact ⟨by omega, by omega⟩
        · exact hk.bound j m hj
    · rename_i hi; cases hs; exact key _ hi
    · rename_i hi; cases hs; exact key _ hi
    · cases hs
  | timeout i =>
    simp only at hs
    split at hs
    · rename_i g x hi
      have hm := List.mem_of_getElem? hi
      have hg := h3 _ hm (by simp [writes])
      have hx := h4 _ hm hg
      have hn : s.clients[x]? = some s.clients[x] := List.getElem?_eq_getElem hx
      rw [write_of_lt (s := { s with uses := s.uses.set i ⟨g, x, false, .timedOut⟩ }) hn] at hs
      cases hs
      refine ⟨h1, ?_, ?_, ?_, ?_⟩
      · intro u hu
        rcases List.mem_or_eq_of_mem_set hu with hu | hu
        · exact h2 u hu
        · subst hu; have := h2 _ hm; exact this
      · intro u hu hwu
        rcases List.mem_or_eq_of_mem_set hu with hu | hu
        · exact h3 u hu hwu
        · subst hu; simp [writes] at hwu
      · intro u hu hgu
        simp only [List.length_set]
        rcases List.mem_or_eq_of_mem_set hu with hu | hu
        · exact h4 u hu hgu
        · subst hu; exact hx
      · intro j m hj
        have := countP_set' (fun u => decide (u.gen = s.gen) && decide (u.idx = j)) ⟨g, x, false, .timedOut⟩ hi
        simp only at this
        have hl : (s.uses.set i ⟨g, x, false, .timedOut⟩).countP (fun u => decide (u.gen = s.gen) && decide (u.idx = j)) = load s j := by
          simp only [load]; omega
        show (((s.uses.set i ⟨g, x, false, .timedOut⟩).countP (fun u => decide (u.gen = s.gen) && decide (u.idx = j)) : Nat) : Int) ≤ m ∧ _
        rw [hl]
        rcases getElem?_set_cases hj with ⟨rfl, rfl⟩ | ⟨hne, hj⟩
        · have := h5 j _ hn
          exact ⟨by omega, by omega⟩
        · exact h5 j m hj
    · cases hs
  | close i =>
    simp only at hs
    split at hs
    · rename_i g x hi
      have hm := List.mem_of_getElem? hi
      have hg := h3 _ hm (by simp [writes])
      have hx := h4 _ hm hg
      simp only at hg hx
      have hn : s.clients[x]? = some s.clients[x] := List.getElem?_eq_getElem hx
      rw [write_of_lt (s := { s with uses := s.uses.eraseIdx i }) hn] at hs
      cases hs
      refine ⟨h1, fun u hu => h2 u (List.mem_of_mem_eraseIdx hu), fun u hu => h3 u (List.mem_of_mem_eraseIdx hu), ?_, ?_⟩
      · intro u hu hgu
        simp only [List.length_set]
        exact h4 u (List.mem_of_mem_eraseIdx hu) hgu
      · intro j m hj
        have hcp := countP_erase (fun u => decide (u.gen = s.gen) && decide (u.idx = j)) hi
        simp only [hg] at hcp
        show (((s.uses.eraseIdx i).countP (fun u => decide (u.gen = s.gen) && decide (u.idx = j)) : Nat) : Int) ≤ m ∧ _
        rcases getElem?_set_cases hj with ⟨rfl, rfl⟩ | ⟨hne, hj⟩
        · have := h5 j _ hn
          simp [load] at hcp this
          omega
        · have := h5 j m hj
          have hne' : ¬ x = j := fun hx => hne hx.symm
          simp [load, hne'] at hcp this
          omega
    · rename_i g x hi
      cases hs
      refine ⟨h1, fun u hu => h2 u (List.mem_of_mem_eraseIdx hu), fun u hu => h3 u (List.mem_of_mem_eraseIdx hu),
        fun u hu => h4 u (List.mem_of_mem_eraseIdx hu), ?_⟩
      intro j m hj
      have := countP_erase (fun u => decide (u.gen = s.gen) && decide (u.idx = j)) hi
      have hl : load { s with uses := s.uses.eraseIdx i } j ≤ load s j := by
        simp only [load]; omega
      have h6 := h5 j m hj
      exact ⟨by omega, h6.2⟩
    · cases hs
  | clear =>
    simp only at hs
    cases hs
    have hc := hc rfl
    refine ⟨h1, fun u hu => Nat.le_succ_of_le (h2 u hu), ?_, ?_, by simp⟩
    · intro u hu hw; rw [hc u hu] at hw; cases hw
    · intro u hu hg
      have := h2 u hu
      simp at hg; omega

/-- the connections are forgotten only when nobody has a session -/
def Calm (es : List Ev) : Prop := ∀ pre post s, es = pre ++ .clear :: post → run {} pre = some s → ∀ u, u ∈ s.uses → writes u = false

theorem run_append (es fs : List Ev) (s : S) : run s (es ++ fs) = (run s es).bind fun t => run t fs := by
  induction es generalizing s with
  | nil => rfl
  | cons e es ih =>
    simp only [List.cons_append, run]
    cases step s e with
    | none => rfl
    | some u => simp [ih]

theorem inv_run (es : List Ev) (t : S) (h : run {} es = some t) (hc : Calm es) : Inv t := by
  have : ∀ (fs pre : List Ev) (s : S), run {} pre = some s → Inv s → es = pre ++ fs → run s fs = some t → Inv t := by
    intro fs
    induction fs with
    | nil => intro pre s _ hi _ hr; simp [run] at hr; subst hr; exact hi
    | cons e fs ih =>
      intro pre s hp hi he hr
      simp only [run] at hr
      cases h1 : step s e with
      | none => simp [h1] at hr
      | some u =>
        simp [h1] at hr
        refine ih (pre ++ [e]) u ?_ (inv_step s e u hi h1 ?_) (by simp [he]) hr
        · rw [run_append, hp]; simp [run, h1]
        · intro hce; subst hce; exact hc pre fs s he hp
  exact this es [] {} rfl inv_init rfl h

/-! ### Theorems -/

/-- **C119**, limit (partial: if connections are only forgotten when nobody uses a session): after every history, no connection carries more
than 10 sessions, even counting those that are still being made, those that were given up, and those for sftp; and the program has not
died. -/
theorem C119_limit_partial (es : List Ev) (t : S) (h : run {} es = some t) (hc : Calm es) :
    t.dead = false ∧ ∀ i, (t.uses.filter fun u => u.gen = t.gen && u.idx = i).length ≤ 10 := by
  have hi := inv_run es t h hc
  refine ⟨hi.alive, ?_⟩
  intro i
  rw [← List.countP_eq_length_filter]
  by_cases hl : i < t.clients.length
  · have := hi.bound i _ (List.getElem?_eq_getElem hl)
    simp only [load, maxSessions] at this
    omega
  · have : t.uses.countP (fun u => decide (u.gen = t.gen) && decide (u.idx = i)) = 0 := by
      rw [List.countP_eq_zero]
      intro u hu hx
      simp at hx
      have := hi.here u hu hx.1
      omega
    omega

theorem calm_of_no_clear {es : List Ev} (h : .clear ∉ es) : Calm es := by
  intro pre post s he
  exact absurd (by rw [he]; simp) h

/-- eleven sessions: the eleventh needs a second connection; one that is given up comes up later; closing makes room -/
def story : List Ev :=
  List.replicate 11 (.get false true) ++ [.up 0, .up 1, .up 10, .timeout 5, .up 5, .close 0, .get false true, .get false true, .fail 10]

example : ∃ t, run {} story = some t ∧ Calm story ∧ t.clients = [9, 10] ∧ load t 0 = 9 ∧ load t 1 = 2 :=
  ⟨_, rfl, calm_of_no_clear (by decide), by decide +kernel, by decide +kernel, by decide +kernel⟩

/-- **C119**, reuse: a new connection is made only if the counters of all are at the maximum; otherwise the newest of those below it is
used, and its counter is one more. -/
theorem C119_reuse (s t : S) (file dial : Bool) (hd : s.dead = false) (h : step s (.get file dial) = some t) :
    ((∀ n, n ∈ s.clients → maxSessions ≤ n) ∧ (t = s ∨ (dial = true ∧ t.clients = s.clients ++ [1]))) ∨
    ∃ i n, s.clients[i]? = some n ∧ n < maxSessions ∧ (∀ j m, i < j → s.clients[j]? = some m → maxSessions ≤ m) ∧
      t.clients = s.clients.set i (n + 1) ∧ t.uses = s.uses ++ [⟨s.gen, i, file, .opening⟩] := by
  unfold step at h
  rw [if_neg (by simp [hd])] at h
  simp only at h
  cases hp : pick s.clients with
  | some i =>
    right
    obtain ⟨n, hn, hlt⟩ := pick_some hp
    rw [hp] at h
    simp only [write_of_lt hn] at h
    cases h
    exact ⟨i, n, hn, hlt, fun j m hij hj => pick_last hp j m hij hj, rfl, rfl⟩
  | none =>
    left
    rw [hp] at h
    simp only at h
    refine ⟨pick_none hp, ?_⟩
    split at h
    · cases h; right; exact ⟨by assumption, rfl⟩
    · cases h; left; rfl

/-- **C119**, given back: closing a session that came up through SSHSession makes its connection have room again. -/
theorem C119_given_back (es : List Ev) (s t : S) (i g x : Nat) (h : run {} es = some s) (hc : Calm es)
    (hu : s.uses[i]? = some ⟨g, x, false, .up⟩) (hs : step s (.close i) = some t) :
    ∃ n, s.clients[x]? = some n ∧ t.clients = s.clients.set x (n - 1) ∧ n - 1 < maxSessions := by
  have hi := inv_run es s h hc
  have hm := List.mem_of_getElem? hu
  have hg := hi.act _ hm (by simp [writes])
  have hx := hi.here _ hm hg
  have hn : s.clients[x]? = some s.clients[x] := List.getElem?_eq_getElem hx
  refine ⟨s.clients[x], hn, ?_, ?_⟩
  · unfold step at hs
    rw [if_neg (by simp [hi.alive])] at hs
    simp only [hu] at hs
    rw [write_of_lt (s := { s with uses := s.uses.eraseIdx i }) hn] at hs
    cases hs; rfl
  · have := (hi.bound x _ hn).2; omega

/-- a file is transferred and everything is closed -/
def upload : List Ev := [.get true true, .up 0, .close 0]

theorem upload_step (s : S) (hd : s.dead = false) (hu : s.uses = []) : ∃ t, run s upload = some t ∧ t.dead = false ∧ t.uses = [] ∧
    t.gen = s.gen ∧ t.clients = (match pick s.clients with
      | some i => (match s.clients[i]? with
        | some n => s.clients.set i (n + 1)
        | none => s.clients)
      | none => s.clients ++ [1]) := by
  cases hp : pick s.clients with
  | some i =>
    obtain ⟨n, hn, hlt⟩ := pick_some hp
    refine ⟨{ s with clients := s.clients.set i (n + 1) }, ?_, hd, hu, rfl, by simp [hn]⟩
    simp [upload, run, step, hd, hp, write_of_lt hn, hu]
  | none =>
    refine ⟨{ s with clients := s.clients ++ [1] }, ?_, hd, hu, rfl, rfl⟩
    simp [upload, run, step, hd, hp, hu]

theorem pick_full (k : Nat) : pick (List.replicate k maxSessions) = none := by
  induction k with
  | zero => rfl
  | succ k ih => simp [List.replicate_succ, pick, ih]

theorem pick_full_append (k : Nat) (n : Int) (h : n < maxSessions) : pick (List.replicate k maxSessions ++ [n]) = some k := by
  induction k with
  | zero => simp [pick, h]
  | succ k ih => simp [List.replicate_succ, pick, ih]

/-- the counters after n transfers: full ones, and one with the rest -/
def after (n : Nat) : List Int := List.replicate (n / 10) maxSessions ++ if n % 10 = 0 then [] else [((n % 10 : Nat) : Int)]

theorem after_succ (n : Nat) (s : S) (hd : s.dead = false) (hu : s.uses = []) (hc : s.clients = after n) :
    ∃ t, run s upload = some t ∧ t.dead = false ∧ t.uses = [] ∧ t.gen = s.gen ∧ t.clients = after (n + 1) := by
  obtain ⟨t, h1, h2, h3, h4, h5⟩ := upload_step s hd hu
  refine ⟨t, h1, h2, h3, h4, ?_⟩
  rw [h5, hc]
  by_cases h0 : n % 10 = 0
  · have e1 : (n + 1) % 10 = 1 := by omega
    have e2 : (n + 1) / 10 = n / 10 := by omega
    simp [after, h0, e1, e2, pick_full]
  · have hlt : ((n % 10 : Nat) : Int) < maxSessions := by simp only [maxSessions]; omega
    have ha : after n = List.replicate (n / 10) maxSessions ++ [((n % 10 : Nat) : Int)] := by simp only [after, if_neg h0]
    rw [ha, pick_full_append _ _ hlt]
    have hg : (List.replicate (n / 10) maxSessions ++ [((n % 10 : Nat) : Int)])[n / 10]? = some ((n % 10 : Nat) : Int) := by
      rw [List.getElem?_append_right (by simp)]; simp
    have hset : (List.replicate (n / 10) maxSessions ++ [((n % 10 : Nat) : Int)]).set (n / 10) (((n % 10 : Nat) : Int) + 1) =
        List.replicate (n / 10) maxSessions ++ [((n % 10 : Nat) : Int) + 1] := by
      rw [List.set_append_right _ _ (by simp)]; simp
    simp only [hg, hset]
    by_cases h9 : n % 10 = 9
    · have e1 : (n + 1) % 10 = 0 := by omega
      have e2 : (n + 1) / 10 = n / 10 + 1 := by omega
      simp only [after, e1, e2, if_true, List.append_nil, h9]
      rw [List.replicate_succ']; rfl
    · have e1 : (n + 1) % 10 = n % 10 + 1 := by omega
      have e2 : (n + 1) / 10 = n / 10 := by omega
      simp only [after, e1, e2]
      rw [if_neg (by omega)]
      congr 1

/-- n transfers, one after the other -/
def uploads : Nat → List Ev
  | 0 => []
  | n + 1 => uploads n ++ upload

/-- **C119**, violated by the code: the session of a file transfer is never given back. After n transfers, one after the other and all of
them finished, there are as many connections as tens were begun, whatever n; none carries a session, and all but the last are never used
again. -/
theorem C119_violated_transfer (n : Nat) : ∃ t, run {} (uploads n) = some t ∧ t.uses = [] ∧ t.clients.length = (n + 9) / 10 ∧
    ∀ i, i < n / 10 → t.clients[i]? = some maxSessions := by
  have : ∃ t, run {} (uploads n) = some t ∧ t.dead = false ∧ t.uses = [] ∧ t.clients = after n := by
    induction n with
    | zero => exact ⟨_, rfl, rfl, rfl, rfl⟩
    | succ n ih =>
      obtain ⟨t, h1, h2, h3, h4⟩ := ih
      obtain ⟨u, g1, g2, g3, -, g5⟩ := after_succ n t h2 h3 h4
      refine ⟨u, ?_, g2, g3, g5⟩
      simp only [uploads, run_append, h1, Option.bind_some, g1]
  obtain ⟨t, h1, -, h3, h4⟩ := this
  refine ⟨t, h1, h3, ?_, ?_⟩
  · rw [h4]
    by_cases h0 : n % 10 = 0
    · simp [after, h0]; omega
    · simp [after, h0]; omega
  · intro i hi
    rw [h4, after, List.getElem?_append_left (by simpa using hi)]
    simp [hi]

/-- a connection nobody will use again -/
def wasted (s : S) (i : Nat) : Prop := s.clients[i]? = some maxSessions ∧ ∀ u, u ∈ s.uses → u.idx = i → writes u = false

theorem write_clients (s : S) (x : Nat) (f : Int → Int) (i : Nat) (hx : x ≠ i) : (write s x f).clients[i]? = s.clients[i]? := by
  simp only [write]
  split
  · simp only; rw [List.getElem?_set_ne hx]
  · rfl

theorem write_uses (s : S) (x : Nat) (f : Int → Int) : (write s x f).uses = s.uses := by
  simp only [write]; split <;> rfl

theorem wasted_step (s : S) (e : Ev) (t : S) (i : Nat) (h : wasted s i) (he : e ≠ .clear) (hs : step s e = some t) : wasted t i := by
  obtain ⟨h1, h2⟩ := h
  have hil := (List.getElem?_eq_some_iff.1 h1).1
  unfold step at hs
  split at hs
  · cases hs
  cases e with
  | get file dial =>
    simp only at hs
    cases hp : pick s.clients with
    | some x =>
      obtain ⟨n, hn, hlt⟩ := pick_some hp
      have hx : x ≠ i := by
        intro hx; subst hx
        rw [h1] at hn; cases hn; omega
      rw [hp] at hs
      cases hs
      refine ⟨by rw [← h1]; exact write_clients s x _ i hx, ?_⟩
      intro u hu hui
      rcases List.mem_append.1 hu with hu | hu
      · exact h2 u hu hui
      · simp at hu; subst hu; exact absurd hui hx
    | none =>
      rw [hp] at hs
      simp only at hs
      split at hs
      · cases hs
        refine ⟨by rw [← h1]; exact List.getElem?_append_left hil, ?_⟩
        intro u hu hui
        rcases List.mem_append.1 hu with hu | hu
        · exact h2 u hu hui
        · simp at hu; subst hu; simp at hui; omega
      · cases hs; exact ⟨h1, h2⟩
  | up k =>
    simp only at hs
    split at hs
    · rename_i g x file hi
      cases hs
      refine ⟨h1, ?_⟩
      intro u hu hui
      rcases List.mem_or_eq_of_mem_set hu with hu | hu
      · exact h2 u hu hui
      · subst hu
        have := h2 _ (List.mem_of_getElem? hi) hui
        simp_all [writes]
    · rename_i g x file hi
      cases hs
      refine ⟨h1, ?_⟩
      intro u hu hui
      rcases List.mem_or_eq_of_mem_set hu with hu | hu
      · exact h2 u hu hui
      · subst hu; simp [writes]
    · cases hs
  | fail k =>
    simp only at hs
    split at hs
    · rename_i g x hi
      have hx : x ≠ i := by
        intro hx; subst hx
        have := h2 _ (List.mem_of_getElem? hi) rfl
        simp [writes] at this
      cases hs
      refine ⟨by rw [← h1]; exact write_clients { s with uses := s.uses.eraseIdx k } x _ i hx, ?_⟩
      intro u hu
      rw [write_uses] at hu
      exact h2 u (List.mem_of_mem_eraseIdx hu)
    · cases hs; exact ⟨h1, fun u hu => h2 u (List.mem_of_mem_eraseIdx hu)⟩
    · cases hs; exact ⟨h1, fun u hu => h2 u (List.mem_of_mem_eraseIdx hu)⟩
    · cases hs
  | timeout k =>
    simp only at hs
    split at hs
    · rename_i g x hi
      have hx : x ≠ i := by
        intro hx; subst hx
        have := h2 _ (List.mem_of_getElem? hi) rfl
        simp [writes] at this
      cases hs
      refine ⟨by rw [← h1]; exact write_clients { s with uses := s.uses.set k ⟨g, x, false, .timedOut⟩ } x _ i hx, ?_⟩
      intro u hu hui
      rw [write_uses] at hu
      rcases List.mem_or_eq_of_mem_set hu with hu | hu
      · exact h2 u hu hui
      · subst hu; simp [writes]
    · cases hs
  | close k =>
    simp only at hs
    split at hs
    · rename_i g x hi
      have hx : x ≠ i := by
        intro hx; subst hx
        have := h2 _ (List.mem_of_getElem? hi) rfl
        simp [writes] at this
      cases hs
      refine ⟨by rw [← h1]; exact write_clients { s with uses := s.uses.eraseIdx k } x _ i hx, ?_⟩
      intro u hu
      rw [write_uses] at hu
      exact h2 u (List.mem_of_mem_eraseIdx hu)
    · cases hs; exact ⟨h1, fun u hu => h2 u (List.mem_of_mem_eraseIdx hu)⟩
    · cases hs
  | clear => exact absurd rfl he

/-- **C119**, violated by the code: a session could not be made on a connection that has no other: the connection is not used again,
whatever is done (until WaitUntilReady forgets it). -/
theorem C119_violated_failed : ∃ (es : List Ev) (s : S), run {} es = some s ∧ s.uses = [] ∧ s.clients = [maxSessions] ∧
    ∀ (fs : List Ev) (t : S), .clear ∉ fs → run s fs = some t → t.clients[0]? = some maxSessions ∧
      ∀ u, u ∈ t.uses → u.idx = 0 → writes u = false := by
  refine ⟨[.get false true, .fail 0], _, rfl, by decide +kernel, by decide +kernel, ?_⟩
  intro fs
  have h0 : wasted { clients := [10], uses := [] } 0 := ⟨rfl, by simp⟩
  have : ∀ (fs : List Ev) (s t : S), wasted s 0 → .clear ∉ fs → run s fs = some t → wasted t 0 := by
    intro fs
    induction fs with
    | nil => intro s t h _ hr; simp [run] at hr; subst hr; exact h
    | cons e fs ih =>
      intro s t h hn hr
      simp only [run] at hr
      cases h1 : step s e with
      | none => simp [h1] at hr
      | some u =>
        simp [h1] at hr
        simp only [List.mem_cons, not_or] at hn
        exact ih u t (wasted_step s e u 0 h (fun hx => hn.1 hx.symm) h1) hn.2 hr
  intro t hn hr
  exact this fs _ t h0 hn hr

/-- **C119**, violated by the code: the connections are forgotten while somebody has a session: when that is closed the program dies. -/
theorem C119_violated_dies : ∃ (es : List Ev) (t : S), run {} es = some t ∧ t.dead = true :=
  ⟨[.get false true, .up 0, .clear, .close 0], _, rfl, by decide +kernel⟩

/-- **C119**, violated by the code: or it makes the counter of a new connection too small, which then carries more than 10 sessions. -/
theorem C119_violated_limit : ∃ (es : List Ev) (t : S), run {} es = some t ∧ load t 0 = 11 ∧ t.clients = [10] :=
  ⟨[.get false true, .up 0, .clear] ++ List.replicate 10 (.get false true) ++ [.close 0, .get false true], _, rfl, by decide +kernel,
    by decide +kernel⟩

end Verif.Cloud.Ssh
