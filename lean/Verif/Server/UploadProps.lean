/-
Properties of uploading files (C112).
-/
import Verif.Server.Upload

namespace Verif.Server.Upload

/-! ### Specification -/

/-- the uploads that arrived, in that order: the path asked for, and the body -/
def arrivals (es : List Ev) : List (Option Path × Bytes) :=
  es.filterMap fun e => match e with
    | .arrive w b => some (w, b)
    | _ => none

/-- no two bodies that were uploaded without a path have the same checksum -/
def NoClash (md5 : Bytes → Str) (es : List Ev) : Prop :=
  ∀ b b', (none, b) ∈ arrivals es → (none, b') ∈ arrivals es → md5 b = md5 b' → b = b'

/-- nobody asks for a path in the upload directory -/
def Outside (es : List Ev) : Prop := ∀ p b, (some p, b) ∈ arrivals es → ∃ k, p = .other k

/-! ### The invariant -/

@[simp] private theorem setF_same {α β : Type} [DecidableEq α] (f : α → β) (a : α) (b : β) : setF f a b a = b := by simp [setF]

private theorem setF_ne {α β : Type} [DecidableEq α] (f : α → β) (a x : α) (b : β) (h : x ≠ a) : setF f a b x = f x := by simp [setF, h]

private def tempOf (u : Upload) : Option Nat :=
  match u.phase with
  | .writing (.temp n) _ _ => some n
  | .closed (.temp n) => some n
  | .summed (.temp n) _ => some n
  | .looked (.temp n) _ _ => some n
  | _ => none

/-- the upload has its own temporary file with these contents -/
private def Owns (names : Path → Option Nat) (data : Nat → Bytes) (p : Path) (b : Bytes) : Prop :=
  ∃ n ino, p = .temp n ∧ names p = some ino ∧ data ino = b

private def Fine (md5 : Bytes → Str) (names : Path → Option Nat) (data : Nat → Bytes) (u : Upload) : Prop :=
  match u.want with
  | none =>
    match u.phase with
    | .arrived => True
    | .failed => True
    | .writing p ino off => (∃ n, p = .temp n) ∧ names p = some ino ∧ off ≤ u.body.length ∧ data ino = u.body.take off
    | .closed p => Owns names data p u.body
    | .summed p h => Owns names data p u.body ∧ h = md5 u.body
    | .looked p h there => Owns names data p u.body ∧ h = md5 u.body ∧ (there = true → (names (.hashed h)).isSome = true)
    | .done p => p = .hashed (md5 u.body) ∧ (names p).isSome = true
  | some q =>
    (∃ k, q = .other k) ∧
    match u.phase with
    | .arrived => True
    | .failed => True
    | .writing p ino off => p = q ∧ names p = some ino ∧ off ≤ u.body.length
    | .done p => p = q
    | _ => False

private theorem fine_frame {md5 : Bytes → Str} {names names' : Path → Option Nat} {data data' : Nat → Bytes} {u : Upload}
    (h : Fine md5 names data u)
    (ht : ∀ n ino, tempOf u = some n → names (.temp n) = some ino → names' (.temp n) = some ino ∧ data' ino = data ino)
    (ho : ∀ k ino, names (.other k) = some ino → names' (.other k) = some ino)
    (hh : ∀ x, (names (.hashed x)).isSome = true → (names' (.hashed x)).isSome = true) : Fine md5 names' data' u := by
  obtain ⟨w, b, ph⟩ := u
  have owns : ∀ p, (∀ n, p = .temp n → tempOf ⟨w, b, ph⟩ = some n) → Owns names data p b → Owns names' data' p b := by
    rintro p hp ⟨n, ino, rfl, h1, h2⟩
    obtain ⟨h3, h4⟩ := ht n ino (hp n rfl) h1
    exact ⟨n, ino, rfl, h3, by rw [h4, h2]⟩
  cases w with
  | none =>
    cases ph with
    | arrived => trivial
    | failed => trivial
    | writing p ino off =>
      obtain ⟨⟨n, rfl⟩, h1, h2, h3⟩ := h
      obtain ⟨h4, h5⟩ := ht n ino rfl h1
      exact ⟨⟨n, rfl⟩, h4, h2, by rw [h5]; exact h3⟩
    | closed p => exact owns p (by rintro n rfl; rfl) h
    | summed p x => exact ⟨owns p (by rintro n rfl; rfl) h.1, h.2⟩
    | looked p x b => exact ⟨owns p (by rintro n rfl; rfl) h.1, h.2.1, fun hb => hh _ (h.2.2 hb)⟩
    | done p =>
      obtain ⟨h1, h2⟩ := h
      refine ⟨h1, ?_⟩
      rw [h1] at h2 ⊢; exact hh _ h2
  | some q =>
    obtain ⟨⟨k, hk⟩, h⟩ := h
    subst hk
    refine ⟨⟨k, rfl⟩, ?_⟩
    cases ph with
    | writing p ino off => obtain ⟨rfl, h1, h2⟩ := h; exact ⟨rfl, ho _ _ h1, h2⟩
    | arrived => trivial
    | failed => trivial
    | done p => exact h
    | closed p => exact h
    | summed p x => exact h
    | looked p x b => exact h

private structure Inv (md5 : Bytes → Str) (es : List Ev) (s : S) : Prop where
  arr : s.ups.map (fun u => (u.want, u.body)) = arrivals es
  fresh : ∀ p ino, s.names p = some ino → ino < s.next
  inj : ∀ p q ino, s.names p = some ino → s.names q = some ino → p = q
  fine : ∀ (i : Nat) (u : Upload), s.ups[i]? = some u → Fine md5 s.names s.data u
  uniq : ∀ (i j : Nat) (u v : Upload) (n : Nat), s.ups[i]? = some u → s.ups[j]? = some v → tempOf u = some n → tempOf v = some n → i = j
  hash : ∀ h ino, s.names (.hashed h) = some ino → md5 (s.data ino) = h ∧ (none, s.data ino) ∈ arrivals es

private theorem owned {md5 : Bytes → Str} {names : Path → Option Nat} {data : Nat → Bytes} {u : Upload} {n : Nat}
    (h : Fine md5 names data u) (ht : tempOf u = some n) : (names (.temp n)).isSome = true := by
  obtain ⟨w, b, ph⟩ := u
  cases w with
  | none =>
    cases ph with
    | writing p ino off => obtain ⟨⟨m, rfl⟩, h1, -⟩ := h; cases ht; rw [h1]; rfl
    | closed p => obtain ⟨m, ino, rfl, h1, -⟩ := h; cases ht; rw [h1]; rfl
    | summed p x => obtain ⟨⟨m, ino, rfl, h1, -⟩, -⟩ := h; cases ht; rw [h1]; rfl
    | looked p x b => obtain ⟨⟨m, ino, rfl, h1, -⟩, -⟩ := h; cases ht; rw [h1]; rfl
    | _ => cases ht
  | some q =>
    obtain ⟨⟨k, rfl⟩, h⟩ := h
    cases ph with
    | writing p ino off => obtain ⟨rfl, -⟩ := h; cases ht
    | arrived => cases ht
    | failed => cases ht
    | done p => cases ht
    | closed p => exact h.elim
    | summed p x => exact h.elim
    | looked p x b => exact h.elim

private theorem inv_put {md5 : Bytes → Str} {es : List Ev} {s : S} (hI : Inv md5 es s) {i : Nat} {u : Upload} (hu : s.ups[i]? = some u)
    (ph : Phase) (names' : Path → Option Nat) (data' : Nat → Bytes) (next' : Nat)
    (hfine : Fine md5 names' data' { u with phase := ph })
    (hown : ∀ n, tempOf { u with phase := ph } = some n → tempOf u = some n ∨ s.names (.temp n) = none)
    (ht : ∀ n ino, tempOf u ≠ some n → s.names (.temp n) = some ino → names' (.temp n) = some ino ∧ data' ino = s.data ino)
    (ho : ∀ k ino, s.names (.other k) = some ino → names' (.other k) = some ino)
    (hh : ∀ x, (s.names (.hashed x)).isSome = true → (names' (.hashed x)).isSome = true)
    (hfresh : ∀ p ino, names' p = some ino → ino < next')
    (hinj : ∀ p q ino, names' p = some ino → names' q = some ino → p = q)
    (hhash : ∀ h ino, names' (.hashed h) = some ino → md5 (data' ino) = h ∧ (none, data' ino) ∈ arrivals es) :
    Inv md5 es ({ s with names := names', data := data', next := next' }.put i u ph) := by
  have hlt : i < s.ups.length := by
    rcases Nat.lt_or_ge i s.ups.length with h | h
    · exact h
    · rw [List.getElem?_eq_none h] at hu; cases hu
  have hget : ∀ j v, (s.ups.set i { u with phase := ph })[j]? = some v →
      (j = i ∧ v = { u with phase := ph }) ∨ (j ≠ i ∧ s.ups[j]? = some v) := by
    intro j v hv
    rw [List.getElem?_set] at hv
    by_cases hji : i = j
    · subst hji; simp [hlt] at hv; exact Or.inl ⟨rfl, hv.symm⟩
    · simp [hji] at hv; exact Or.inr ⟨fun h => hji h.symm, hv⟩
  refine ⟨?_, hfresh, hinj, ?_, ?_, hhash⟩
  · rw [← hI.arr]
    simp only [S.put, List.map_set]
    apply List.ext_getElem?
    intro j
    rw [List.getElem?_set]
    by_cases hji : i = j
    · subst hji; simp [hlt]
      rw [List.getElem?_eq_getElem hlt] at hu
      cases hu; exact ⟨rfl, rfl⟩
    · simp [hji]
  · intro j v hv
    rcases hget j v hv with ⟨-, rfl⟩ | ⟨hji, hv⟩
    · exact hfine
    · refine fine_frame (hI.fine j v hv) ?_ ho hh
      intro n ino htv hn
      refine ht n ino ?_ hn
      intro htu
      exact hji (hI.uniq j i v u n hv hu htv htu)
  · intro j k v w n hv hw htv htw
    have two : ∀ j v, s.ups[j]? = some v → j ≠ i → tempOf v = some n → tempOf { u with phase := ph } = some n → False := by
      intro j v hv hji htv hn
      rcases hown n hn with h | h
      · exact hji (hI.uniq j i v u n hv hu htv h)
      · have := owned (hI.fine j v hv) htv
        rw [h] at this; cases this
    rcases hget j v hv with ⟨h1, h2⟩ | ⟨hji, hv'⟩ <;> rcases hget k w hw with ⟨h3, h4⟩ | ⟨hki, hw'⟩
    · rw [h1, h3]
    · exact (two k w hw' hki htw (h2 ▸ htv)).elim
    · exact (two j v hv' hji htv (h4 ▸ htw)).elim
    · exact hI.uniq j k v w n hv' hw' htv htw

/-- an upload moves on and the disk is as it was -/
private theorem inv_move {md5 : Bytes → Str} {es : List Ev} {s : S} (hI : Inv md5 es s) {i : Nat} {u : Upload} (hu : s.ups[i]? = some u)
    (ph : Phase) (hfine : Fine md5 s.names s.data { u with phase := ph })
    (hown : ∀ n, tempOf { u with phase := ph } = some n → tempOf u = some n ∨ s.names (.temp n) = none) : Inv md5 es (s.put i u ph) :=
  inv_put hI hu ph s.names s.data s.next hfine hown (fun _ _ _ h => ⟨h, rfl⟩) (fun _ _ h => h) (fun _ h => h) hI.fresh hI.inj hI.hash

private theorem inv_failed {md5 : Bytes → Str} {es : List Ev} {s : S} (hI : Inv md5 es s) {i : Nat} {u : Upload} (hu : s.ups[i]? = some u) :
    Inv md5 es (s.put i u .failed) := by
  refine inv_move hI hu .failed ?_ (by intro n h; cases h)
  have := hI.fine i u hu
  unfold Fine at this ⊢
  cases hw : u.want with
  | none => trivial
  | some q => rw [hw] at this; exact ⟨this.1, trivial⟩

private theorem overwrite_take (b : Bytes) (off k : Nat) (h : off + k ≤ b.length) :
    overwrite (b.take off) off ((b.drop off).take k) = b.take (off + k) := by
  unfold overwrite
  have hd : (b.take off).drop (off + ((b.drop off).take k).length) = [] := List.drop_eq_nil_of_le (by simp; omega)
  rw [hd, List.take_take, Nat.min_self, List.append_nil, List.take_add]

private theorem inv_create {md5 : Bytes → Str} {es : List Ev} {s : S} (hI : Inv md5 es s) {i : Nat} {u : Upload} (hu : s.ups[i]? = some u)
    (ha : u.phase = .arrived) (p : Path) (hp : s.names p = none) (hw : (u.want = none ∧ ∃ n, p = .temp n) ∨ u.want = some p ∧ ∃ k, p = .other k) :
    Inv md5 es (create s i u p) := by
  have hne : ∀ ino, ino < s.next → ino ≠ s.next := fun _ h => by omega
  have hnp : ∀ q, q ≠ p → setF s.names p (some s.next) q = s.names q := fun q h => setF_ne _ _ _ _ h
  have hkeep : ∀ q ino, s.names q = some ino → setF s.names p (some s.next) q = some ino := by
    intro q ino hq
    rw [hnp q (by rintro rfl; rw [hp] at hq; cases hq)]; exact hq
  have hdata : ∀ q ino, s.names q = some ino → setF s.data s.next [] ino = s.data ino :=
    fun q ino hq => setF_ne _ _ _ _ (hne _ (hI.fresh q ino hq))
  refine inv_put hI hu _ _ _ _ ?_ ?_ ?_ ?_ ?_ ?_ ?_ ?_
  · rcases hw with ⟨h1, n, rfl⟩ | ⟨h1, k, rfl⟩
    · simp [Fine, h1]
    · simp [Fine, h1]
  · intro n hn
    rcases hw with ⟨h1, m, rfl⟩ | ⟨h1, k, rfl⟩
    · cases hn; exact Or.inr hp
    · cases hn
  · intro n ino _ hn; exact ⟨hkeep _ _ hn, hdata _ _ hn⟩
  · intro k ino hk; exact hkeep _ _ hk
  · intro x hx
    rw [hnp]; exact hx
    rintro rfl; rw [hp] at hx; cases hx
  · intro q ino hq
    by_cases h : q = p
    · subst h; rw [setF_same] at hq; cases hq; exact Nat.lt_succ_self _
    · rw [hnp q h] at hq; have := hI.fresh q ino hq; omega
  · intro q r ino hq hr
    by_cases h : q = p <;> by_cases h' : r = p
    · rw [h, h']
    · rw [h, setF_same] at hq; rw [hnp r h'] at hr; cases hq; exact absurd rfl (hne _ (hI.fresh r _ hr))
    · rw [h', setF_same] at hr; rw [hnp q h] at hq; cases hr; exact absurd rfl (hne _ (hI.fresh q _ hq))
    · rw [hnp q h] at hq; rw [hnp r h'] at hr; exact hI.inj q r ino hq hr
  · intro x ino hx
    rw [hnp (.hashed x) (by rcases hw with ⟨-, n, rfl⟩ | ⟨-, k, rfl⟩ <;> simp)] at hx
    rw [hdata _ _ hx]
    exact hI.hash x ino hx

private theorem inv_write {md5 : Bytes → Str} {es : List Ev} {s s' : S} (hI : Inv md5 es s) {i k : Nat} {u : Upload} (hu : s.ups[i]? = some u)
    (h : writeSome s i u k = some s') : Inv md5 es s' := by
  unfold writeSome at h
  split at h
  · rename_i p ino off hph
    split at h
    · rename_i hk
      cases h
      have hf := hI.fine i u hu
      have hpn : s.names p = some ino ∧ ((∃ n, p = .temp n ∧ tempOf u = some n) ∨ ∃ k, p = .other k) := by
        unfold Fine at hf
        cases hw : u.want with
        | none => simp only [hw, hph] at hf; obtain ⟨⟨n, rfl⟩, h1, -⟩ := hf; exact ⟨h1, Or.inl ⟨n, rfl, by simp [tempOf, hph]⟩⟩
        | some q => simp only [hw, hph] at hf; obtain ⟨⟨k, rfl⟩, rfl, h1, -⟩ := hf; exact ⟨h1, Or.inr ⟨k, rfl⟩⟩
      have hd : ∀ q ino', s.names q = some ino' → q ≠ p → ino' ≠ ino := by
        rintro q ino' hq hne rfl; exact hne (hI.inj q p ino' hq hpn.1)
      refine inv_put hI hu _ s.names _ s.next ?_ ?_ ?_ (fun _ _ h => h) (fun _ h => h) hI.fresh hI.inj ?_
      · unfold Fine at hf ⊢
        cases hw : u.want with
        | none =>
          simp only [hw, hph] at hf ⊢
          obtain ⟨⟨n, rfl⟩, h1, -, h3⟩ := hf
          exact ⟨⟨n, rfl⟩, h1, hk.2, by rw [setF_same, h3]; exact overwrite_take _ _ _ hk.2⟩
        | some q =>
          simp only [hw, hph] at hf ⊢
          exact ⟨hf.1, hf.2.1, hf.2.2.1, hk.2⟩
      · intro n hn
        refine Or.inl ?_
        rcases hpn.2 with ⟨m, rfl, h2⟩ | ⟨k, rfl⟩
        · cases hn; exact h2
        · cases hn
      · intro n ino' hn hname
        refine ⟨hname, setF_ne _ _ _ _ (hd _ _ hname ?_)⟩
        rintro rfl
        rcases hpn.2 with ⟨m, h1, h2⟩ | ⟨k, h1⟩
        · cases h1; exact hn h2
        · cases h1
      · intro x ino' hx
        rw [setF_ne _ _ _ _ (hd _ _ hx (by rintro rfl; rcases hpn.2 with ⟨m, h1, -⟩ | ⟨k, h1⟩ <;> cases h1))]
        exact hI.hash x ino' hx
    · cases h
  · cases h

private theorem inv_close {md5 : Bytes → Str} {es : List Ev} {s s' : S} (hI : Inv md5 es s) {i : Nat} {u : Upload} (hu : s.ups[i]? = some u)
    (h : closeFile s i u = some s') : Inv md5 es s' := by
  unfold closeFile at h
  split at h
  · rename_i p ino off hph
    split at h
    · rename_i hoff
      have hf := hI.fine i u hu
      unfold Fine at hf
      split at h <;> rename_i hw <;> cases h
      · simp only [hw, hph] at hf
        obtain ⟨⟨n, rfl⟩, h1, -, h3⟩ := hf
        refine inv_move hI hu _ ?_ ?_
        · simp only [Fine, hw]
          exact ⟨n, ino, rfl, h1, by rw [h3, hoff, List.take_length]⟩
        · intro m hm; cases hm; exact Or.inl (by simp [tempOf, hph])
      · simp only [hw, hph] at hf
        refine inv_move hI hu _ ?_ (by intro n hn; cases hn)
        simp only [Fine, hw]
        exact ⟨hf.1, hf.2.1⟩
    · cases h
  · cases h

private theorem inv_sum {md5 : Bytes → Str} {es : List Ev} {s s' : S} (hI : Inv md5 es s) {i : Nat} {u : Upload} (hu : s.ups[i]? = some u)
    (h : sumFile md5 s i u = some s') : Inv md5 es s' := by
  unfold sumFile at h
  split at h
  · rename_i p hph
    split at h <;> cases h
    · rename_i ino hn
      have hf := hI.fine i u hu
      unfold Fine at hf
      cases hw : u.want with
      | none =>
        simp only [hw, hph] at hf
        obtain ⟨n, ino', rfl, h1, h2⟩ := hf
        rw [h1] at hn; cases hn
        refine inv_move hI hu _ ?_ ?_
        · simp only [Fine, hw]
          exact ⟨⟨n, ino, rfl, h1, h2⟩, by rw [h2]⟩
        · intro m hm; cases hm; exact Or.inl (by simp [tempOf, hph])
      | some q => simp only [hw, hph] at hf; exact hf.2.elim
    · exact inv_failed hI hu
  · cases h

private theorem inv_look {md5 : Bytes → Str} {es : List Ev} {s s' : S} (hI : Inv md5 es s) {i : Nat} {u : Upload} (hu : s.ups[i]? = some u)
    (h : lookFile s i u = some s') : Inv md5 es s' := by
  unfold lookFile at h
  split at h
  · rename_i p x hph
    cases h
    have hf := hI.fine i u hu
    unfold Fine at hf
    cases hw : u.want with
    | none =>
      simp only [hw, hph] at hf
      refine inv_move hI hu _ ?_ ?_
      · simp only [Fine, hw]
        exact ⟨hf.1, hf.2, fun h => h⟩
      · intro m hm
        refine Or.inl ?_
        cases p <;> cases hm
        simp [tempOf, hph]
    | some q => simp only [hw, hph] at hf; exact hf.2.elim
  · cases h

private theorem body_mem {md5 : Bytes → Str} {es : List Ev} {s : S} (hI : Inv md5 es s) {i : Nat} {u : Upload} (hu : s.ups[i]? = some u) :
    (u.want, u.body) ∈ arrivals es := by
  rw [← hI.arr]
  exact List.mem_map.mpr ⟨u, List.mem_of_getElem? hu, rfl⟩

private theorem inv_finish {md5 : Bytes → Str} {es : List Ev} {s s' : S} (hI : Inv md5 es s) {i : Nat} {u : Upload} (hu : s.ups[i]? = some u)
    (h : finishFile s i u = some s') : Inv md5 es s' := by
  have hf := hI.fine i u hu
  have hb := body_mem hI hu
  unfold finishFile at h
  unfold Fine at hf
  split at h
  · rename_i p x hph
    split at h <;> cases h
    · rename_i ino hn
      cases hw : u.want with
      | some q => simp only [hw, hph] at hf; exact hf.2.elim
      | none =>
      simp only [hw, hph] at hf
      obtain ⟨⟨n, ino', rfl, h1, h2⟩, rfl, -⟩ := hf
      rw [h1] at hn; cases hn
      rw [hw] at hb
      have at_ : ∀ q, q ≠ .temp n → q ≠ .hashed (md5 u.body) →
          setF (setF s.names (.temp n) none) (.hashed (md5 u.body)) (some ino) q = s.names q := by
        intro q h3 h4; rw [setF_ne _ _ _ _ h4, setF_ne _ _ _ _ h3]
      have att : setF (setF s.names (.temp n) none) (.hashed (md5 u.body)) (some ino) (.temp n) = none := by
        rw [setF_ne _ _ _ _ (by simp), setF_same]
      have from_ : ∀ q ino', setF (setF s.names (.temp n) none) (.hashed (md5 u.body)) (some ino) q = some ino' →
          (q = .hashed (md5 u.body) ∧ ino' = ino) ∨ (q ≠ .hashed (md5 u.body) ∧ q ≠ .temp n ∧ s.names q = some ino') := by
        intro q ino' hq
        by_cases h3 : q = .hashed (md5 u.body)
        · subst h3; rw [setF_same] at hq; cases hq; exact Or.inl ⟨rfl, rfl⟩
        · by_cases h4 : q = .temp n
          · subst h4; rw [att] at hq; cases hq
          · rw [at_ q h4 h3] at hq; exact Or.inr ⟨h3, h4, hq⟩
      have diff : ∀ q ino', q ≠ .temp n → s.names q = some ino' → ino' ≠ ino := by
        rintro q ino' h3 h4 rfl; exact h3 (hI.inj _ _ _ h4 h1)
      refine inv_put hI hu _ _ s.data s.next ?_ (by intro m hm; cases hm) ?_ ?_ ?_ ?_ ?_ ?_
      · simp only [Fine, hw]
        exact ⟨trivial, by rw [setF_same]; rfl⟩
      · intro m ino' hm hname
        refine ⟨?_, rfl⟩
        rw [at_ _ (by rintro ⟨⟩; exact hm (by simp [tempOf, hph])) (by simp)]; exact hname
      · intro k ino' hk; rw [at_ _ (by simp) (by simp)]; exact hk
      · intro y hy
        by_cases h3 : Path.hashed y = .hashed (md5 u.body)
        · rw [h3, setF_same]; rfl
        · rw [at_ _ (by simp) h3]; exact hy
      · intro q ino' hq
        rcases from_ q ino' hq with ⟨-, rfl⟩ | ⟨-, -, hq⟩
        · exact hI.fresh _ _ h1
        · exact hI.fresh _ _ hq
      · intro q r ino' hq hr
        rcases from_ q ino' hq with ⟨rfl, rfl⟩ | ⟨h3, h4, hq⟩ <;> rcases from_ r _ hr with ⟨rfl, h5⟩ | ⟨h6, h7, hr⟩
        · rfl
        · exact absurd rfl (diff _ _ h7 hr)
        · exact absurd h5 (diff _ _ h4 hq)
        · exact hI.inj _ _ _ hq hr
      · intro y ino' hy
        rcases from_ _ _ hy with ⟨h3, rfl⟩ | ⟨-, -, hy⟩
        · cases h3; rw [h2]; exact ⟨rfl, hb⟩
        · exact hI.hash y ino' hy
    · exact inv_failed hI hu
  · rename_i p x hph
    cases h
    cases hw : u.want with
    | some q => simp only [hw, hph] at hf; exact hf.2.elim
    | none =>
    simp only [hw, hph] at hf
    obtain ⟨⟨n, ino', rfl, h1, h2⟩, rfl, h3⟩ := hf
    have at_ : ∀ q, q ≠ .temp n → setF s.names (.temp n) none q = s.names q := fun q h => setF_ne _ _ _ _ h
    have from_ : ∀ q ino', setF s.names (.temp n) none q = some ino' → s.names q = some ino' := by
      intro q ino' hq
      by_cases h4 : q = .temp n
      · subst h4; rw [setF_same] at hq; cases hq
      · rw [at_ q h4] at hq; exact hq
    refine inv_put hI hu _ _ s.data s.next ?_ (by intro m hm; cases hm) ?_ ?_ ?_ ?_ ?_ ?_
    · simp only [Fine, hw]
      exact ⟨trivial, by rw [at_ _ (by simp)]; exact h3 trivial⟩
    · intro m ino' hm hname
      refine ⟨?_, rfl⟩
      rw [at_ _ (by rintro ⟨⟩; exact hm (by simp [tempOf, hph]))]; exact hname
    · intro k ino' hk; rw [at_ _ (by simp)]; exact hk
    · intro y hy; rw [at_ _ (by simp)]; exact hy
    · intro q ino' hq; exact hI.fresh _ _ (from_ _ _ hq)
    · intro q r ino' hq hr; exact hI.inj _ _ _ (from_ _ _ hq) (from_ _ _ hr)
    · intro y ino' hy; exact hI.hash _ _ (from_ _ _ hy)
  · cases h

private theorem arrivals_snoc (es : List Ev) (e : Ev) : arrivals (es ++ [e]) = arrivals es ++ (match e with | .arrive w b => [(w, b)] | _ => []) := by
  cases e <;> simp [arrivals]

private theorem inv_same {md5 : Bytes → Str} {es : List Ev} {s : S} {e : Ev} (he : arrivals (es ++ [e]) = arrivals es) (h : Inv md5 es s) :
    Inv md5 (es ++ [e]) s := ⟨by rw [he]; exact h.arr, h.fresh, h.inj, h.fine, h.uniq, by rw [he]; exact h.hash⟩

private theorem bind_ups {s : S} {i : Nat} {f : Upload → Option S} {s' : S} (h : s.ups[i]?.bind f = some s') :
    ∃ u, s.ups[i]? = some u ∧ f u = some s' := by
  cases hu : s.ups[i]? with
  | none => rw [hu] at h; cases h
  | some u => rw [hu] at h; exact ⟨u, rfl, h⟩

private theorem tempOf_lost (u : Upload) : tempOf (lost u) = none := by
  obtain ⟨w, b, ph⟩ := u
  cases ph <;> rfl

private theorem fine_lost {md5 : Bytes → Str} {names : Path → Option Nat} {data : Nat → Bytes} {u : Upload} (h : Fine md5 names data u) :
    Fine md5 names data (lost u) := by
  obtain ⟨w, b, ph⟩ := u
  cases ph <;> cases w <;> first | exact h | exact ⟨h.1, trivial⟩ | trivial

private theorem inv_step {md5 : Bytes → Str} {es : List Ev} {s s' : S} {e : Ev} (hI : Inv md5 es s)
    (ho : ∀ p b, e = .arrive (some p) b → ∃ k, p = .other k) (h : step md5 s e = some s') : Inv md5 (es ++ [e]) s' := by
  cases e with
  | arrive w b =>
    cases h
    have harr : arrivals (es ++ [.arrive w b]) = arrivals es ++ [(w, b)] := arrivals_snoc _ _
    have hget : ∀ (j : Nat) (v : Upload), (s.ups ++ [⟨w, b, .arrived⟩])[j]? = some v → s.ups[j]? = some v ∨ v = ⟨w, b, .arrived⟩ := by
      intro j v hv
      rw [List.getElem?_append] at hv
      split at hv
      · exact Or.inl hv
      · have := List.mem_of_getElem? hv
        simp only [List.mem_singleton] at this
        exact Or.inr this
    refine ⟨?_, hI.fresh, hI.inj, ?_, ?_, ?_⟩
    · rw [harr, List.map_append, hI.arr]; rfl
    · intro j v hv
      rcases hget j v hv with hv | rfl
      · exact hI.fine j v hv
      · cases w with
        | none => trivial
        | some p => exact ⟨ho p b rfl, trivial⟩
    · intro i j u v n hu hv hn hm
      rcases hget i u hu with hu | rfl
      · rcases hget j v hv with hv | rfl
        · exact hI.uniq i j u v n hu hv hn hm
        · cases hm
      · cases hn
    · intro x ino hx
      rw [harr]
      exact ⟨(hI.hash x ino hx).1, List.mem_append_left _ (hI.hash x ino hx).2⟩
  | open_ i n =>
    obtain ⟨u, hu, h⟩ := bind_ups h
    refine inv_same (by simp [arrivals]) ?_
    split at h
    · rename_i ha
      unfold openFile at h
      have hf := hI.fine i u hu
      unfold Fine at hf
      split at h
      · rename_i hw
        split at h
        · rename_i hn
          cases h
          exact inv_create hI hu ha _ hn (Or.inl ⟨hw, n, rfl⟩)
        · cases h
      · rename_i p hw
        simp only [hw, ha] at hf
        obtain ⟨⟨k, rfl⟩, -⟩ := hf
        split at h <;> cases h
        · rename_i ino hn
          refine inv_move hI hu _ ?_ (by intro m hm; cases hm)
          simp only [Fine, hw]
          exact ⟨⟨k, rfl⟩, trivial, hn, Nat.zero_le _⟩
        · rename_i hn
          exact inv_create hI hu ha _ hn (Or.inr ⟨hw, k, rfl⟩)
    · cases h
  | write i k =>
    obtain ⟨u, hu, h⟩ := bind_ups h
    exact inv_same (by simp [arrivals]) (inv_write hI hu h)
  | close i =>
    obtain ⟨u, hu, h⟩ := bind_ups h
    exact inv_same (by simp [arrivals]) (inv_close hI hu h)
  | sum i =>
    obtain ⟨u, hu, h⟩ := bind_ups h
    exact inv_same (by simp [arrivals]) (inv_sum hI hu h)
  | look i =>
    obtain ⟨u, hu, h⟩ := bind_ups h
    exact inv_same (by simp [arrivals]) (inv_look hI hu h)
  | finish i =>
    obtain ⟨u, hu, h⟩ := bind_ups h
    exact inv_same (by simp [arrivals]) (inv_finish hI hu h)
  | fail i =>
    obtain ⟨u, hu, h⟩ := bind_ups h
    refine inv_same (by simp [arrivals]) ?_
    unfold failFile at h
    split at h <;> cases h
    exact inv_failed hI hu
  | crash =>
    cases h
    refine inv_same (by simp [arrivals]) ?_
    have hget : ∀ (j : Nat) (v : Upload), (s.ups.map lost)[j]? = some v → ∃ u, s.ups[j]? = some u ∧ v = lost u := by
      intro j v hv
      rw [List.getElem?_map] at hv
      cases hu : s.ups[j]? with
      | none => rw [hu] at hv; cases hv
      | some u => rw [hu] at hv; cases hv; exact ⟨u, rfl, rfl⟩
    refine ⟨?_, hI.fresh, hI.inj, ?_, ?_, hI.hash⟩
    · rw [← hI.arr, List.map_map]
      apply List.map_congr_left
      intro u _
      obtain ⟨w, b, ph⟩ := u
      cases ph <;> rfl
    · intro j v hv
      obtain ⟨u, hu, rfl⟩ := hget j v hv
      exact fine_lost (hI.fine j u hu)
    · intro i j u v n hu hv hn hm
      obtain ⟨u', -, rfl⟩ := hget i u hu
      rw [tempOf_lost] at hn; cases hn

private theorem run_snoc (md5 : Bytes → Str) : ∀ (es : List Ev) (s : S) (e : Ev), run md5 s (es ++ [e]) = (run md5 s es).bind (fun s => step md5 s e)
  | [], s, e => by
    simp only [List.nil_append, run, Option.bind_some]
    cases step md5 s e <;> rfl
  | x :: es, s, e => by
    simp only [List.cons_append, run]
    cases step md5 s x with
    | none => rfl
    | some s => exact run_snoc md5 es s e

private theorem run_append (md5 : Bytes → Str) : ∀ (es es' : List Ev) (s : S), run md5 s (es ++ es') = (run md5 s es).bind (fun s => run md5 s es')
  | [], es', s => rfl
  | x :: es, es', s => by
    simp only [List.cons_append, run]
    cases step md5 s x with
    | none => rfl
    | some s => exact run_append md5 es es' s

private theorem snoc_ind {α : Type} {P : List α → Prop} (h0 : P []) (h1 : ∀ l x, P l → P (l ++ [x])) (l : List α) : P l := by
  rw [← l.reverse_reverse]
  induction l.reverse with
  | nil => exact h0
  | cons x l ih => rw [List.reverse_cons]; exact h1 _ _ ih

private theorem start_ok : ∀ fs : List (Str × Bytes), (start fs).ups = [] ∧ (∀ p ino, (start fs).names p = some ino → ino < (start fs).next ∧ ∃ k, p = .other k) ∧
    (∀ p q ino, (start fs).names p = some ino → (start fs).names q = some ino → p = q)
  | [] => ⟨rfl, (by intro p ino h; cases h), (by intro p q ino h; cases h)⟩
  | (k, b) :: fs => by
    obtain ⟨h1, h2, h3⟩ := start_ok fs
    have key : ∀ p ino, (start ((k, b) :: fs)).names p = some ino → (p = .other k ∧ ino = (start fs).next) ∨ (p ≠ .other k ∧ (start fs).names p = some ino) := by
      intro p ino h
      by_cases hp : p = .other k
      · subst hp
        refine Or.inl ⟨rfl, ?_⟩
        simp only [start, setF_same, Option.some.injEq] at h
        exact h.symm
      · refine Or.inr ⟨hp, ?_⟩
        simp only [start] at h
        rw [setF_ne _ _ _ _ hp] at h; exact h
    refine ⟨h1, ?_, ?_⟩
    · intro p ino h
      rcases key p ino h with ⟨rfl, rfl⟩ | ⟨-, h⟩
      · exact ⟨Nat.lt_succ_self _, k, rfl⟩
      · exact ⟨Nat.lt_succ_of_lt (h2 p ino h).1, (h2 p ino h).2⟩
    · intro p q ino hp hq
      rcases key p ino hp with ⟨rfl, rfl⟩ | ⟨-, hp⟩ <;> rcases key q _ hq with ⟨rfl, h5⟩ | ⟨-, hq⟩
      · rfl
      · have := (h2 q _ hq).1; omega
      · have := (h2 p _ hp).1; omega
      · exact h3 p q ino hp hq

private theorem inv_start (md5 : Bytes → Str) (fs : List (Str × Bytes)) : Inv md5 [] (start fs) := by
  obtain ⟨h1, h2, h3⟩ := start_ok fs
  refine ⟨by rw [h1]; rfl, fun p ino h => (h2 p ino h).1, h3, ?_, ?_, ?_⟩
  · intro i u hu; rw [h1] at hu; simp at hu
  · intro i j u v n hu; rw [h1] at hu; simp at hu
  · intro x ino hx; obtain ⟨-, k, hk⟩ := h2 _ _ hx; cases hk

private theorem outside_init {es : List Ev} {e : Ev} (h : Outside (es ++ [e])) : Outside es := by
  intro p b hp
  refine h p b ?_
  rw [arrivals_snoc]
  exact List.mem_append_left _ hp

private theorem inv (md5 : Bytes → Str) (fs : List (Str × Bytes)) (es : List Ev) : ∀ s, Outside es → run md5 (start fs) es = some s → Inv md5 es s := by
  induction es using snoc_ind with
  | h0 => intro s _ h; cases h; exact inv_start md5 fs
  | h1 es e ih =>
    intro s ho h
    rw [run_snoc] at h
    cases h1 : run md5 (start fs) es with
    | none => rw [h1] at h; cases h
    | some s1 =>
      rw [h1] at h
      refine inv_step (ih s1 (outside_init ho) h1) ?_ h
      rintro p b rfl
      refine ho p b ?_
      rw [arrivals_snoc]
      simp

/-- answers stay -/
private theorem answer_step {md5 : Bytes → Str} {s s' : S} {e : Ev} {i : Nat} {p : Path} (ha : s.answer i = some p) (h : step md5 s e = some s') :
    s'.answer i = some p := by
  obtain ⟨u, hu, hph⟩ : ∃ u, s.ups[i]? = some u ∧ u.phase = .done p := by
    unfold S.answer at ha
    split at ha
    · rename_i u hu
      split at ha
      · rename_i q hq; cases ha; exact ⟨u, hu, hq⟩
      · cases ha
    · cases ha
  suffices hh : s'.ups[i]? = some u by
    simp [S.answer, hh, hph]
  have hput : ∀ (t : S) j v ph, t.ups = s.ups → s.ups[j]? = some v → v.phase ≠ .done p → (t.put j v ph).ups[i]? = some u := by
    intro t j v ph ht hv hne
    simp only [S.put, ht, List.getElem?_set]
    have : j ≠ i := by rintro rfl; rw [hu] at hv; cases hv; exact hne hph
    simp [this, hu]
  cases e with
  | arrive w b =>
    cases h
    simp only
    rw [List.getElem?_append_left]
    · exact hu
    · rcases Nat.lt_or_ge i s.ups.length with h | h
      · exact h
      · rw [List.getElem?_eq_none h] at hu; cases hu
  | crash =>
    cases h
    simp [hu, lost, hph]
  | open_ j n =>
    obtain ⟨v, hv, h⟩ := bind_ups h
    split at h
    · rename_i hva
      have hne : v.phase ≠ .done p := by rw [hva]; simp
      unfold openFile at h
      split at h
      · split at h
        · cases h; exact hput _ j v _ rfl hv hne
        · cases h
      · split at h <;> cases h
        · exact hput _ j v _ rfl hv hne
        · exact hput _ j v _ rfl hv hne
    · cases h
  | write j k =>
    obtain ⟨v, hv, h⟩ := bind_ups h
    unfold writeSome at h
    split at h
    · rename_i hva
      split at h <;> cases h
      exact hput _ j v _ rfl hv (by rw [hva]; simp)
    · cases h
  | close j =>
    obtain ⟨v, hv, h⟩ := bind_ups h
    unfold closeFile at h
    split at h
    · rename_i hva
      split at h
      · split at h <;> cases h <;> exact hput _ j v _ rfl hv (by rw [hva]; simp)
      · cases h
    · cases h
  | sum j =>
    obtain ⟨v, hv, h⟩ := bind_ups h
    unfold sumFile at h
    split at h
    · rename_i hva
      split at h <;> cases h <;> exact hput _ j v _ rfl hv (by rw [hva]; simp)
    · cases h
  | look j =>
    obtain ⟨v, hv, h⟩ := bind_ups h
    unfold lookFile at h
    split at h
    · rename_i hva
      cases h; exact hput _ j v _ rfl hv (by rw [hva]; simp)
    · cases h
  | finish j =>
    obtain ⟨v, hv, h⟩ := bind_ups h
    unfold finishFile at h
    split at h
    · rename_i hva
      split at h <;> cases h <;> exact hput _ j v _ rfl hv (by rw [hva]; simp)
    · rename_i hva
      cases h; exact hput _ j v _ rfl hv (by rw [hva]; simp)
    · cases h
  | fail j =>
    obtain ⟨v, hv, h⟩ := bind_ups h
    unfold failFile at h
    split at h
    · cases h
    · cases h
    · rename_i hva _
      cases h
      exact hput _ j v _ rfl hv (fun h => hva p h)

private theorem answer_run {md5 : Bytes → Str} {i : Nat} {p : Path} : ∀ (es : List Ev) (s s' : S), s.answer i = some p → run md5 s es = some s' →
    s'.answer i = some p
  | [], s, s', ha, h => by cases h; exact ha
  | e :: es, s, s', ha, h => by
    simp only [run] at h
    split at h
    · rename_i s1 h1
      exact answer_run es s1 s' (answer_step ha h1) h
    · cases h

private theorem answered {md5 : Bytes → Str} {es : List Ev} {s : S} (hI : Inv md5 es s) {i : Nat} {w : Option Path} {b : Bytes} {p : Path}
    (hi : (arrivals es)[i]? = some (w, b)) (ha : s.answer i = some p) : ∃ u, s.ups[i]? = some u ∧ u.want = w ∧ u.body = b ∧ u.phase = .done p := by
  rw [← hI.arr, List.getElem?_map] at hi
  unfold S.answer at ha
  split at ha
  · rename_i u hu
    rw [hu] at hi
    cases hi
    split at ha
    · rename_i hp; cases ha; exact ⟨u, hu, rfl, rfl, hp⟩
    · cases ha
  · cases ha

/-- C112: if an upload without a path is answered with a path, exactly the body that was sent is in the file there, from then on,
whatever other uploads there are, whenever their steps come and the server is killed. (Partial: it needs that no upload names a path in
the upload directory; see `C112_violated_inside`. That no two bodies have the same checksum is a matter of md5.) -/
theorem C112_content_partial (md5 : Bytes → Str) (fs : List (Str × Bytes)) (es es' : List Ev) (s s' : S) (ho : Outside (es ++ es'))
    (hc : NoClash md5 (es ++ es')) (h : run md5 (start fs) es = some s) (h' : run md5 s es' = some s') (i : Nat) (b : Bytes) (p : Path)
    (hi : (arrivals es)[i]? = some (none, b)) (ha : s.answer i = some p) : s'.content p = some b := by
  have hr : run md5 (start fs) (es ++ es') = some s' := by rw [run_append, h]; exact h'
  have hI := inv md5 fs _ s' ho hr
  have hi' : (arrivals (es ++ es'))[i]? = some (none, b) := by
    rw [arrivals, List.filterMap_append]
    exact (List.getElem?_append_left (by
      rcases Nat.lt_or_ge i (arrivals es).length with h | h
      · exact h
      · rw [List.getElem?_eq_none h] at hi; cases hi)).trans hi
  obtain ⟨u, hu, hw, hb, hph⟩ := answered hI hi' (answer_run es' s s' ha h')
  have hf := hI.fine i u hu
  simp only [Fine, hw, hph] at hf
  obtain ⟨rfl, hs⟩ := hf
  rw [Option.isSome_iff_exists] at hs
  obtain ⟨ino, hino⟩ := hs
  obtain ⟨h1, h2⟩ := hI.hash _ _ hino
  have hm := body_mem hI hu
  rw [hw] at hm
  simp only [S.content, hino, Option.map_some]
  rw [hc _ _ h2 hm h1, hb]

/-- C112: two uploads without a path are answered with the same path exactly if they sent the same. -/
theorem C112_same (md5 : Bytes → Str) (fs : List (Str × Bytes)) (es : List Ev) (s : S) (ho : Outside es) (hc : NoClash md5 es)
    (h : run md5 (start fs) es = some s) (i j : Nat) (b c : Bytes) (p q : Path) (hi : (arrivals es)[i]? = some (none, b))
    (hj : (arrivals es)[j]? = some (none, c)) (hp : s.answer i = some p) (hq : s.answer j = some q) : p = q ↔ b = c := by
  have hI := inv md5 fs es s ho h
  obtain ⟨u, hu, hw, rfl, hph⟩ := answered hI hi hp
  obtain ⟨v, hv, hw', rfl, hph'⟩ := answered hI hj hq
  have hf := hI.fine i u hu
  have hf' := hI.fine j v hv
  simp only [Fine, hw, hph] at hf
  simp only [Fine, hw', hph'] at hf'
  rw [hf.1, hf'.1]
  constructor
  · intro h
    exact hc _ _ (hw ▸ body_mem hI hu) (hw' ▸ body_mem hI hv) (by injection h)
  · intro h; rw [h]

/-- C112: at no time, so wherever the server is killed, is there part of a file under a name made of a checksum: whatever is there was
sent as the body of an upload, and has that checksum. -/
theorem C112_whole (md5 : Bytes → Str) (fs : List (Str × Bytes)) (es : List Ev) (s : S) (ho : Outside es)
    (h : run md5 (start fs) es = some s) (x : Str) (b : Bytes) (hx : s.content (.hashed x) = some b) :
    md5 b = x ∧ (none, b) ∈ arrivals es := by
  have hI := inv md5 fs es s ho h
  unfold S.content at hx
  cases hn : s.names (.hashed x) with
  | none => rw [hn] at hx; cases hx
  | some ino => rw [hn] at hx; cases hx; exact hI.hash x ino hn

/-! ### With a path -/

/-- the upload that an event is of -/
private def actor : Ev → Option Nat
  | .open_ i _ | .write i _ | .close i | .sum i | .look i | .finish i | .fail i => some i
  | _ => none

private theorem content_frame {md5 : Bytes → Str} {es : List Ev} {s s' : S} {e : Ev} (hI : Inv md5 es s) (h : step md5 s e = some s') (k : Str)
    (hn : ∀ i u, actor e = some i → s.ups[i]? = some u → u.want ≠ some (.other k)) : s'.content (.other k) = s.content (.other k) := by
  have created : ∀ i u p, p ≠ .other k → (create s i u p).content (.other k) = s.content (.other k) := by
    intro i u p hp
    simp only [create, S.put, S.content]
    rw [setF_ne _ _ _ _ hp.symm]
    cases hk : s.names (.other k) with
    | none => rfl
    | some ino =>
      simp only [Option.map_some]
      rw [setF_ne _ _ _ _ (by have := hI.fresh _ _ hk; omega)]
  cases e with
  | arrive w b => cases h; rfl
  | crash => cases h; rfl
  | open_ i n =>
    obtain ⟨u, hu, h⟩ := bind_ups h
    split at h
    · unfold openFile at h
      split at h
      · split at h
        · cases h; exact created i u _ (by simp)
        · cases h
      · rename_i p hw
        split at h <;> cases h
        · rfl
        · exact created i u p (by rintro rfl; exact hn i u rfl hu hw)
    · cases h
  | write i m =>
    obtain ⟨u, hu, h⟩ := bind_ups h
    unfold writeSome at h
    split at h
    · rename_i p ino off hph
      split at h
      · cases h
        have hf := hI.fine i u hu
        have hp : s.names p = some ino ∧ p ≠ .other k := by
          unfold Fine at hf
          cases hw : u.want with
          | none => simp only [hw, hph] at hf; obtain ⟨⟨n, rfl⟩, h1, -⟩ := hf; exact ⟨h1, by simp⟩
          | some q =>
            simp only [hw, hph] at hf
            obtain ⟨-, rfl, h1, -⟩ := hf
            exact ⟨h1, by rintro rfl; exact hn i u rfl hu hw⟩
        simp only [S.put, S.content]
        cases hk : s.names (.other k) with
        | none => rfl
        | some ino' =>
          simp only [Option.map_some]
          rw [setF_ne]
          rintro rfl
          exact hp.2 (hI.inj _ _ _ hp.1 hk)
      · cases h
    · cases h
  | close i =>
    obtain ⟨u, hu, h⟩ := bind_ups h
    unfold closeFile at h
    split at h
    · split at h
      · split at h <;> cases h <;> rfl
      · cases h
    · cases h
  | sum i =>
    obtain ⟨u, hu, h⟩ := bind_ups h
    unfold sumFile at h
    split at h
    · split at h <;> cases h <;> rfl
    · cases h
  | look i =>
    obtain ⟨u, hu, h⟩ := bind_ups h
    unfold lookFile at h
    split at h
    · cases h; rfl
    · cases h
  | finish i =>
    obtain ⟨u, hu, h⟩ := bind_ups h
    have hf := hI.fine i u hu
    have htemp : ∀ p x t, u.phase = .looked p x t → ∃ n, p = .temp n := by
      intro p x t hph
      unfold Fine at hf
      cases hw : u.want with
      | none => simp only [hw, hph] at hf; obtain ⟨⟨n, ino, rfl, -⟩, -⟩ := hf; exact ⟨n, rfl⟩
      | some q => simp only [hw, hph] at hf; exact hf.2.elim
    unfold finishFile at h
    split at h
    · rename_i p x hph
      obtain ⟨n, rfl⟩ := htemp _ _ _ hph
      split at h <;> cases h
      · simp only [S.put, S.content]
        rw [setF_ne _ _ _ _ (by simp), setF_ne _ _ _ _ (by simp)]
      · rfl
    · rename_i p x hph
      obtain ⟨n, rfl⟩ := htemp _ _ _ hph
      cases h
      simp only [S.put, S.content]
      rw [setF_ne _ _ _ _ (by simp)]
    · cases h
  | fail i =>
    obtain ⟨u, hu, h⟩ := bind_ups h
    unfold failFile at h
    split at h <;> cases h
    rfl

/-- C112: a file outside of the upload directory is left as it was by all uploads that don't name its path. -/
theorem C112_untouched (md5 : Bytes → Str) (fs : List (Str × Bytes)) (k : Str) (es : List Ev) : ∀ (s : S), Outside es →
    run md5 (start fs) es = some s → (∀ b, (some (.other k), b) ∉ arrivals es) → s.content (.other k) = (start fs).content (.other k) := by
  induction es using snoc_ind with
  | h0 => intro s _ h _; cases h; rfl
  | h1 es e ih =>
    intro s ho h hn
    rw [run_snoc] at h
    cases h1 : run md5 (start fs) es with
    | none => rw [h1] at h; cases h
    | some s1 =>
      rw [h1] at h
      have hI := inv md5 fs es s1 (outside_init ho) h1
      have hn' : ∀ b, (some (Path.other k), b) ∉ arrivals es := fun b hb => hn b (by rw [arrivals_snoc]; exact List.mem_append_left _ hb)
      rw [content_frame hI h k, ih s1 (outside_init ho) h1 hn']
      intro i u _ hu hw
      have := body_mem hI hu
      rw [hw] at this
      exact hn' _ this

/-- the first `n` bytes of `new`, then what is left of `old` -/
def over (old : Option Bytes) (new : Bytes) (n : Nat) : Bytes := new.take n ++ (old.getD []).drop n

private theorem over_write (old : Option Bytes) (new : Bytes) (n m : Nat) (h : n + m ≤ new.length) :
    overwrite (over old new n) n ((new.drop n).take m) = over old new (n + m) := by
  unfold overwrite over
  have hl : (new.take n).length = n := by simp; omega
  have hl2 : ((new.drop n).take m).length = m := by simp; omega
  have hd : (new.take n).drop (n + m) = [] := List.drop_eq_nil_of_le (by omega)
  rw [List.take_append_of_le_length (by omega), List.take_take, Nat.min_self, hl2, List.drop_append, hl,
    hd, List.nil_append, List.drop_drop, List.take_add, show n + (n + m - n) = n + m by omega]

private def Wrote (old : Option Bytes) (k : Str) (s : S) : Phase → Bytes → Prop
  | .writing _ _ off, b => s.content (.other k) = some (over old b off)
  | .done _, b => s.content (.other k) = some (over old b b.length)
  | .failed, b => s.content (.other k) = old ∨ ∃ n, n ≤ b.length ∧ s.content (.other k) = some (over old b n)
  | .arrived, _ => s.content (.other k) = old
  | _, _ => True

private def Sole (old : Option Bytes) (k : Str) (i : Nat) (s : S) : Prop :=
  match s.ups[i]? with
  | none => s.content (.other k) = old
  | some u => Wrote old k s u.phase u.body

private theorem wrote_content {old : Option Bytes} {k : Str} {s s' : S} {ph : Phase} {b : Bytes} (hc : s'.content (.other k) = s.content (.other k))
    (h : Wrote old k s ph b) : Wrote old k s' ph b := by
  cases ph <;> simp only [Wrote, hc] at h ⊢ <;> exact h

private theorem wrote_failed {old : Option Bytes} {k : Str} {s : S} {u : Upload} {md5 : Bytes → Str} (hf : Fine md5 s.names s.data u)
    (hw : u.want = some (.other k)) (h : Wrote old k s u.phase u.body) : Wrote old k s .failed u.body := by
  unfold Fine at hf
  rw [hw] at hf
  cases hph : u.phase with
  | arrived => rw [hph] at h; exact Or.inl h
  | writing p ino off => simp only [hph] at hf h; exact Or.inr ⟨off, hf.2.2.2, h⟩
  | done p => rw [hph] at h; exact Or.inr ⟨_, Nat.le_refl _, h⟩
  | failed => rw [hph] at h; exact h
  | closed p => simp only [hph] at hf; exact hf.2.elim
  | summed p x => simp only [hph] at hf; exact hf.2.elim
  | looked p x b => simp only [hph] at hf; exact hf.2.elim

private theorem get_put {s t : S} {i : Nat} {u : Upload} {ph : Phase} (ht : t.ups = s.ups) (hu : s.ups[i]? = some u) :
    (t.put i u ph).ups[i]? = some { u with phase := ph } := by
  have : i < s.ups.length := by
    rcases Nat.lt_or_ge i s.ups.length with h | h
    · exact h
    · rw [List.getElem?_eq_none h] at hu; cases hu
  simp [S.put, ht, this]

private theorem put_other {t : S} {i j : Nat} {u : Upload} {ph : Phase} (h : j ≠ i) : (t.put j u ph).ups[i]? = t.ups[i]? := by
  simp [S.put, h]

/-- which upload a step moves -/
private theorem step_ups {md5 : Bytes → Str} {s s' : S} {e : Ev} {j : Nat} (h : step md5 s e = some s') (ha : actor e = some j) (i : Nat) (hij : j ≠ i) :
    s'.ups[i]? = s.ups[i]? := by
  cases e with
  | arrive w b => cases ha
  | crash => cases ha
  | open_ j' n =>
    cases ha
    obtain ⟨v, hv, h⟩ := bind_ups h
    split at h
    · unfold openFile at h
      split at h
      · split at h <;> cases h; exact put_other hij
      · split at h <;> cases h <;> exact put_other hij
    · cases h
  | write j' k =>
    cases ha
    obtain ⟨v, hv, h⟩ := bind_ups h
    unfold writeSome at h
    split at h
    · split at h <;> cases h; exact put_other hij
    · cases h
  | close j' =>
    cases ha
    obtain ⟨v, hv, h⟩ := bind_ups h
    unfold closeFile at h
    split at h
    · split at h
      · split at h <;> cases h <;> exact put_other hij
      · cases h
    · cases h
  | sum j' =>
    cases ha
    obtain ⟨v, hv, h⟩ := bind_ups h
    unfold sumFile at h
    split at h
    · split at h <;> cases h <;> exact put_other hij
    · cases h
  | look j' =>
    cases ha
    obtain ⟨v, hv, h⟩ := bind_ups h
    unfold lookFile at h
    split at h
    · cases h; exact put_other hij
    · cases h
  | finish j' =>
    cases ha
    obtain ⟨v, hv, h⟩ := bind_ups h
    unfold finishFile at h
    split at h
    · split at h <;> cases h <;> exact put_other hij
    · cases h; exact put_other hij
    · cases h
  | fail j' =>
    cases ha
    obtain ⟨v, hv, h⟩ := bind_ups h
    unfold failFile at h
    split at h <;> cases h; exact put_other hij

private theorem sole_step {md5 : Bytes → Str} {es : List Ev} {s s' : S} {e : Ev} {old : Option Bytes} {k : Str} {i : Nat} (hI : Inv md5 es s)
    (hi : ∀ j u, s.ups[j]? = some u → u.want = some (.other k) → j = i)
    (hw : ∀ u, s.ups[i]? = some u → u.want = some (.other k)) (hS : Sole old k i s) (h : step md5 s e = some s') : Sole old k i s' := by
  by_cases hact : actor e = some i
  · -- the upload itself
    have moved : ∀ u (hu : s.ups[i]? = some u) (t : S) (ph : Phase), t.ups = s.ups → Wrote old k t ph u.body → Sole old k i (t.put i u ph) := by
      intro u hu t ph ht hwr
      unfold Sole
      rw [get_put ht hu]
      exact wrote_content rfl hwr
    have hcur : ∀ u, s.ups[i]? = some u → Wrote old k s u.phase u.body := by
      intro u hu
      unfold Sole at hS
      rw [hu] at hS; exact hS
    cases e with
    | arrive w b => cases hact
    | crash => cases hact
    | open_ j n =>
      cases hact
      obtain ⟨u, hu, h⟩ := bind_ups h
      have hwu := hw u hu
      have hc := hcur u hu
      split at h
      · rename_i ha
        rw [ha] at hc
        unfold openFile at h
        rw [hwu] at h
        simp only at h
        have hc' : s.content (.other k) = old := hc
        unfold S.content at hc'
        split at h <;> cases h
        · rename_i ino hn
          rw [hn] at hc'
          refine moved u hu s _ rfl ?_
          simp [Wrote, over, ← hc', S.content, hn]
        · rename_i hn
          rw [hn] at hc'
          refine moved u hu _ _ rfl ?_
          simp [Wrote, over, ← hc', S.content]
      · cases h
    | write j m =>
      cases hact
      obtain ⟨u, hu, h⟩ := bind_ups h
      have hwu := hw u hu
      have hc := hcur u hu
      have hf := hI.fine i u hu
      unfold writeSome at h
      split at h
      · rename_i p ino off hph
        split at h
        · rename_i hm
          cases h
          rw [hph] at hc
          simp only [Fine, hwu, hph] at hf
          obtain ⟨-, rfl, h1, -⟩ := hf
          refine moved u hu _ _ rfl ?_
          simp only [Wrote, S.content, h1, Option.map_some, Option.some.injEq] at hc ⊢
          rw [setF_same, hc]
          exact over_write _ _ _ _ hm.2
        · cases h
      · cases h
    | close j =>
      cases hact
      obtain ⟨u, hu, h⟩ := bind_ups h
      have hwu := hw u hu
      have hc := hcur u hu
      unfold closeFile at h
      split at h
      · rename_i p ino off hph
        split at h
        · rename_i hoff
          rw [hwu] at h
          cases h
          rw [hph] at hc
          refine moved u hu s _ rfl ?_
          simp only [Wrote] at hc ⊢
          rw [hc, hoff]
        · cases h
      · cases h
    | sum j =>
      cases hact
      obtain ⟨u, hu, h⟩ := bind_ups h
      have hf := hI.fine i u hu
      unfold sumFile at h
      split at h
      · rename_i p hph; simp only [Fine, hw u hu, hph] at hf; exact hf.2.elim
      · cases h
    | look j =>
      cases hact
      obtain ⟨u, hu, h⟩ := bind_ups h
      have hf := hI.fine i u hu
      unfold lookFile at h
      split at h
      · rename_i p x hph; simp only [Fine, hw u hu, hph] at hf; exact hf.2.elim
      · cases h
    | finish j =>
      cases hact
      obtain ⟨u, hu, h⟩ := bind_ups h
      have hf := hI.fine i u hu
      unfold finishFile at h
      split at h
      · rename_i p x hph; simp only [Fine, hw u hu, hph] at hf; exact hf.2.elim
      · rename_i p x hph; simp only [Fine, hw u hu, hph] at hf; exact hf.2.elim
      · cases h
    | fail j =>
      cases hact
      obtain ⟨u, hu, h⟩ := bind_ups h
      unfold failFile at h
      split at h <;> cases h
      exact moved u hu s _ rfl (wrote_failed (hI.fine i u hu) (hw u hu) (hcur u hu))
  · have hc : s'.content (.other k) = s.content (.other k) := by
      refine content_frame hI h k ?_
      intro j u hj hu hwj
      exact hact (by rw [hj, hi j u hu hwj])
    cases ha : actor e with
    | some j =>
      have hji : j ≠ i := by rintro rfl; exact hact ha
      unfold Sole at hS ⊢
      rw [step_ups h ha i hji]
      cases hu : s.ups[i]? with
      | none => rw [hu] at hS; simp only at hS ⊢; rw [hc]; exact hS
      | some u => rw [hu] at hS; exact wrote_content hc hS
    | none =>
      cases e with
      | arrive w b =>
        cases h
        unfold Sole at hS ⊢
        cases hu : s.ups[i]? with
        | some u =>
          rw [hu] at hS
          have : i < s.ups.length := by
            rcases Nat.lt_or_ge i s.ups.length with h | h
            · exact h
            · rw [List.getElem?_eq_none h] at hu; cases hu
          simp only [List.getElem?_append_left this, hu]
          exact wrote_content rfl hS
        | none =>
          rw [hu] at hS
          have : s.ups.length ≤ i := List.getElem?_eq_none_iff.mp hu
          simp only [List.getElem?_append_right this]
          cases hd : i - s.ups.length with
          | zero => simp only [List.getElem?_cons_zero]; exact hS
          | succ n => simp only [List.getElem?_cons_succ, List.getElem?_nil]; exact hS
      | crash =>
        cases h
        unfold Sole at hS ⊢
        simp only [List.getElem?_map]
        cases hu : s.ups[i]? with
        | none => rw [hu] at hS; exact hS
        | some u =>
          rw [hu] at hS
          simp only [Option.map_some]
          have hfail := wrote_failed (hI.fine i u hu) (hw u hu) hS
          obtain ⟨w, b, ph⟩ := u
          cases ph <;> first | exact wrote_content rfl hS | exact wrote_content (s := s) rfl hfail
      | open_ j n => cases ha
      | write j n => cases ha
      | close j => cases ha
      | sum j => cases ha
      | look j => cases ha
      | finish j => cases ha
      | fail j => cases ha

private theorem sole_run (md5 : Bytes → Str) (fs : List (Str × Bytes)) (k : Str) (i : Nat) (es : List Ev) : ∀ (s : S), Outside es →
    (∀ j w b, (arrivals es)[j]? = some (w, b) → (w = some (.other k) ↔ j = i)) → run md5 (start fs) es = some s →
    Sole ((start fs).content (.other k)) k i s := by
  induction es using snoc_ind with
  | h0 =>
    intro s _ _ h
    cases h
    unfold Sole
    rw [(start_ok fs).1]
    rfl
  | h1 es e ih =>
    intro s ho hj h
    rw [run_snoc] at h
    cases h1 : run md5 (start fs) es with
    | none => rw [h1] at h; cases h
    | some s1 =>
      rw [h1] at h
      have hI := inv md5 fs es s1 (outside_init ho) h1
      have hj' : ∀ j w b, (arrivals es)[j]? = some (w, b) → (w = some (.other k) ↔ j = i) := by
        intro j w b hjw
        refine hj j w b ?_
        rw [arrivals_snoc, List.getElem?_append_left]
        · exact hjw
        · rcases Nat.lt_or_ge j (arrivals es).length with h | h
          · exact h
          · rw [List.getElem?_eq_none h] at hjw; cases hjw
      have hups : ∀ (j : Nat) (u : Upload), s1.ups[j]? = some u → (arrivals es)[j]? = some (u.want, u.body) := by
        intro j u hu
        rw [← hI.arr, List.getElem?_map, hu]; rfl
      refine sole_step hI ?_ ?_ (ih s1 (outside_init ho) hj' h1) h
      · intro j u hu hw
        exact (hj' j _ _ (hups j u hu)).mp hw
      · intro u hu
        exact (hj' i _ _ (hups i u hu)).mpr rfl

/-- C112: an upload to a path outside of the upload directory that is the only one to that path and was answered is answered with that
path; its body is there, followed by what was there before beyond the length of the body. -/
theorem C112_path (md5 : Bytes → Str) (fs : List (Str × Bytes)) (es : List Ev) (s : S) (ho : Outside es)
    (h : run md5 (start fs) es = some s) (i : Nat) (k : Str) (b : Bytes) (hi : (arrivals es)[i]? = some (some (.other k), b))
    (hone : ∀ j c, (arrivals es)[j]? = some (some (.other k), c) → j = i) (p : Path) (ha : s.answer i = some p) :
    p = .other k ∧ s.content p = some (b ++ (((start fs).content (.other k)).getD []).drop b.length) := by
  have hI := inv md5 fs es s ho h
  have hS := sole_run md5 fs k i es s ho (by
    intro j w c hj
    constructor
    · rintro rfl; exact hone j c hj
    · rintro rfl; rw [hi] at hj; cases hj; rfl) h
  obtain ⟨u, hu, hw, rfl, hph⟩ := answered hI hi ha
  have hf := hI.fine i u hu
  simp only [Fine, hw, hph] at hf
  obtain ⟨-, rfl⟩ := hf
  refine ⟨rfl, ?_⟩
  unfold Sole at hS
  rw [hu] at hS
  simp only [Wrote, hph, over, List.take_length] at hS
  exact hS

/-- C112: so exactly the body is there, if there was no file there, or none that was longer. (Partial: see `C112_violated_tail`,
`C112_violated_mixed`.) -/
theorem C112_path_partial (md5 : Bytes → Str) (fs : List (Str × Bytes)) (es : List Ev) (s : S) (ho : Outside es)
    (h : run md5 (start fs) es = some s) (i : Nat) (k : Str) (b : Bytes) (hi : (arrivals es)[i]? = some (some (.other k), b))
    (hone : ∀ j c, (arrivals es)[j]? = some (some (.other k), c) → j = i) (p : Path) (ha : s.answer i = some p)
    (hold : ∀ old, (start fs).content (.other k) = some old → old.length ≤ b.length) : p = .other k ∧ s.content p = some b := by
  obtain ⟨h1, h2⟩ := C112_path md5 fs es s ho h i k b hi hone p ha
  refine ⟨h1, ?_⟩
  rw [h2]
  cases hc : (start fs).content (.other k) with
  | none => simp
  | some old => rw [Option.getD_some, List.drop_eq_nil_of_le (hold old hc), List.append_nil]

/-! ### Cases -/

/-- some checksum that tells these bodies apart -/
private def exSum (b : Bytes) : Str := b.map fun n => Char.ofNat (97 + n)

/-- two uploads of the same at the same time, both of which find no file of that name, and one to a path -/
private def exRun : List Ev :=
  [.arrive none [1, 2, 3], .arrive none [1, 2, 3], .arrive (some (.other ['p'])) [7], .open_ 0 5, .open_ 1 6, .write 0 2, .open_ 2 0, .write 1 3,
   .write 0 1, .close 1, .close 0, .sum 1, .sum 0, .look 0, .write 2 1, .look 1, .finish 1, .close 2, .finish 0, .crash]

example : ∃ s, run exSum (start [(['p'], [9])]) exRun = some s ∧ s.answer 0 = some (.hashed ['b', 'c', 'd']) ∧
    s.answer 1 = some (.hashed ['b', 'c', 'd']) ∧ s.content (.hashed ['b', 'c', 'd']) = some [1, 2, 3] ∧ s.answer 2 = some (.other ['p']) ∧
    s.content (.other ['p']) = some [7] := ⟨_, rfl, by decide, by decide, by decide, by decide, by decide⟩
example : Outside exRun := by
  intro p b h
  simp only [arrivals, exRun, List.filterMap, List.mem_cons, Prod.mk.injEq, reduceCtorEq, false_and, Option.some.injEq, List.not_mem_nil, or_false, false_or] at h
  exact ⟨_, h.1⟩
example : NoClash exSum exRun := by
  intro b b' h h' _
  simp only [arrivals, exRun, List.filterMap, List.mem_cons, Prod.mk.injEq, reduceCtorEq, false_and, true_and, List.not_mem_nil, or_false, or_self] at h h'
  rw [h, h']

/-- C112 is violated: uploading something shorter than the file that is at the path given leaves the end of the old file there. -/
theorem C112_violated_tail (md5 : Bytes → Str) (k : Str) (old b : Bytes) (hl : b.length < old.length) (hb : b ≠ []) :
    ∃ es s, run md5 (start [(k, old)]) es = some s ∧ arrivals es = [(some (.other k), b)] ∧ s.answer 0 = some (.other k) ∧
      s.content (.other k) = some (b ++ old.drop b.length) ∧ s.content (.other k) ≠ some b := by
  have hb' : 0 < b.length := List.length_pos_iff.mpr hb
  obtain ⟨s, hs, ha⟩ : ∃ s, run md5 (start [(k, old)]) [.arrive (some (.other k)) b, .open_ 0 0, .write 0 b.length, .close 0] = some s ∧
      s.answer 0 = some (.other k) := by
    simp [run, step, openFile, start, S.put, writeSome, closeFile, setF, hb', S.answer]
  have hp := C112_path md5 [(k, old)] _ s (by
    intro p c h
    simp only [arrivals, List.filterMap, List.mem_cons, Prod.mk.injEq, Option.some.injEq, List.not_mem_nil, or_false] at h
    exact ⟨k, h.1⟩) hs 0 k b rfl (by
    intro j c hj
    cases j with
    | zero => rfl
    | succ j => simp [arrivals] at hj) _ ha
  have hc : (start [(k, old)]).content (.other k) = some old := by simp [start, S.content]
  rw [hc, Option.getD_some] at hp
  refine ⟨_, s, hs, rfl, ha, hp.2, ?_⟩
  rw [hp.2]
  intro h
  have := congrArg List.length (Option.some.inj h)
  simp at this
  omega

/-- C112 is violated: of two uploads to the same path at the same time, both answered, neither may be there. -/
theorem C112_violated_mixed (md5 : Bytes → Str) : ∃ es s, run md5 (start []) es = some s ∧
    arrivals es = [(some (.other ['p']), [1, 2]), (some (.other ['p']), [3, 4])] ∧ s.answer 0 = some (.other ['p']) ∧
    s.answer 1 = some (.other ['p']) ∧ s.content (.other ['p']) = some [3, 2] :=
  ⟨[.arrive (some (.other ['p'])) [1, 2], .arrive (some (.other ['p'])) [3, 4], .open_ 0 0, .open_ 1 0, .write 0 1, .write 1 2, .write 0 1,
    .close 0, .close 1], _, rfl, rfl, rfl, rfl, rfl⟩

/-- C112 is violated: an upload that fails (here: its body ends early) leaves neither the old nor the new file at its path. -/
theorem C112_violated_failed (md5 : Bytes → Str) : ∃ es s, run md5 (start [(['p'], [1, 2, 3])]) es = some s ∧
    arrivals es = [(some (.other ['p']), [4, 5, 6])] ∧ s.answer 0 = none ∧ s.content (.other ['p']) = some [4, 2, 3] :=
  ⟨[.arrive (some (.other ['p'])) [4, 5, 6], .open_ 0 0, .write 0 1, .fail 0], _, rfl, rfl, rfl, rfl⟩

/-- C112 is violated: an upload that names a path in the upload directory can change the file that another was answered with. -/
theorem C112_violated_inside (md5 : Bytes → Str) : ∃ es s, run md5 (start []) es = some s ∧
    (arrivals es)[0]? = some (none, [1]) ∧ s.answer 0 = some (.hashed (md5 [1])) ∧ s.content (.hashed (md5 [1])) = some [2] := by
  refine ⟨[.arrive none [1], .open_ 0 0, .write 0 1, .close 0, .sum 0, .look 0, .finish 0, .arrive (some (.hashed (md5 [1]))) [2], .open_ 1 0,
    .write 1 1, .close 1], ?_⟩
  simp [run, step, openFile, create, start, S.put, writeSome, closeFile, sumFile, lookFile, finishFile, setF, overwrite, arrivals, S.answer, S.content]

/-- C112 is violated: the temporary file of an upload that fails, or that the server is killed during, stays for ever. -/
theorem C112_violated_left (md5 : Bytes → Str) : ∃ es s, run md5 (start []) es = some s ∧ s.ups.map (·.phase) = [.failed, .failed] ∧
    s.content (.temp 0) = some [1] ∧ s.content (.temp 1) = some [1] :=
  ⟨[.arrive none [1, 2], .open_ 0 0, .write 0 1, .fail 0, .arrive none [1, 2], .open_ 1 1, .write 1 1, .crash], _, rfl, rfl, rfl, rfl⟩

/-! ### Names -/

/-- C112: a path that begins with ~/ is taken to be in the home directory. (Partial: see `C112_violated_home`.) -/
theorem C112_home_partial (home rest : Str) (hh : home ≠ []) (hr : ∀ c ∈ rest.head?, c ≠ '~' ∧ c ≠ '/') :
    tildaToHome (some home) ('~' :: '/' :: rest) = home ++ '/' :: rest := by
  have : (['~', '/'] <+: '~' :: '/' :: rest) := ⟨rest, rfl⟩
  simp only [tildaToHome, hh, this, ne_eq, not_false_eq_true, and_self, if_true]
  congr 2
  rw [List.dropWhile_cons_of_pos (by simp), List.dropWhile_cons_of_pos (by simp)]
  cases rest with
  | nil => rfl
  | cons c rest =>
    obtain ⟨h1, h2⟩ := hr c rfl
    exact List.dropWhile_cons_of_neg (by simp [h1, h2])

/-- C112: any other path is taken as it is. -/
theorem C112_otherwise (home : Option Str) (p : Str) (h : ∀ rest, p ≠ '~' :: '/' :: rest) : tildaToHome home p = p := by
  cases home with
  | none => rfl
  | some x =>
    simp only [tildaToHome]
    rw [if_neg]
    rintro ⟨-, t, ht⟩
    exact h t ht.symm

example : tildaToHome (some ['/', 'h']) ['~', '/', 'a', '~'] = ['/', 'h', '/', 'a', '~'] := by decide

/-- C112 is violated: the tildes that the name of a file in the home directory begins with are dropped, so that two files become one. -/
theorem C112_violated_home (home rest : Str) (hh : home ≠ []) :
    tildaToHome (some home) ('~' :: '/' :: '~' :: rest) = tildaToHome (some home) ('~' :: '/' :: rest) := by
  have h1 : (['~', '/'] <+: '~' :: '/' :: '~' :: rest) := ⟨_, rfl⟩
  have h2 : (['~', '/'] <+: '~' :: '/' :: rest) := ⟨_, rfl⟩
  simp [tildaToHome, hh, h1, h2]

/-- C112: different checksums make different names. -/
theorem C112_names (x y : Str) (h : hashedDir x = hashedDir y) : x = y := by
  simp only [hashedDir, Prod.mk.injEq] at h
  have h1 : x.take 3 = y.take 3 := by
    have inj : ∀ a b : Str, a.map (fun c => [c]) = b.map (fun c => [c]) → a = b := by
      intro a
      induction a with
      | nil => intro b hb; cases b <;> simp_all
      | cons c a ih =>
        intro b hb
        cases b with
        | nil => cases hb
        | cons d b =>
          simp only [List.map_cons, List.cons.injEq, and_true] at hb
          rw [hb.1, ih b hb.2]
    exact inj _ _ h.1
  rw [← List.take_append_drop 3 x, ← List.take_append_drop 3 y, h1, h.2]

end Verif.Server.Upload
