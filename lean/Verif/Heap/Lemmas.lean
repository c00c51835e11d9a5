import Verif.Heap.Model
/-! Lemmas about the heap model: effect of `swap`, permutation, recorded positions, heap order. -/
namespace Verif.Heap

/-- The order used by a sub-queue is a strict weak order. -/
structure SWO (less : Nat → Nat → Bool) : Prop where
  asymm : ∀ a b, less a b = true → less b a = false
  trans : ∀ a b c, less b a = false → less c b = false → less c a = false

theorem SWO.irrefl {less} (h : SWO less) (a : Nat) : less a a = false := by
  cases hc : less a a
  · rfl
  · have := h.asymm a a hc; simp_all

/-- position permutation of a swap -/
def sg (i j x : Nat) : Nat := if x = i then j else if x = j then i else x

theorem swapArr_length (l : List Nat) (i j : Nat) : (swapArr l i j).length = l.length := by
  unfold swapArr; split <;> simp

theorem swapArr_getElem? (l : List Nat) (i j : Nat) (hi : i < l.length) (hj : j < l.length) (x : Nat) :
    (swapArr l i j)[x]? = l[sg i j x]? := by
  unfold swapArr sg
  rw [List.getElem?_eq_getElem hi, List.getElem?_eq_getElem hj]
  simp only [List.getElem?_set]
  grind

theorem swap_arr (h : IHeap) (i j : Nat) : (h.swap i j).arr = swapArr h.arr i j := by
  unfold IHeap.swap
  split
  · rfl
  · unfold swapArr; split
    · simp_all
    · rfl

theorem swapArr_perm (l : List Nat) (i j : Nat) : (swapArr l i j).Perm l := by
  unfold swapArr
  split
  · rename_i a b ha hb
    have hi : i < l.length := by grind
    have hj : j < l.length := by grind
    have := List.set_set_perm (as := l) hi hj
    grind
  · exact List.Perm.refl _

/-- slice and recorded positions agree -/
structure WF (h : IHeap) : Prop where
  nodup : h.arr.Nodup
  idx : ∀ (i a : Nat), h.arr[i]? = some a → h.idx a = (i : Int)

theorem WF.inj {h : IHeap} (w : WF h) {i j a : Nat} (hi : h.arr[i]? = some a) (hj : h.arr[j]? = some a) : i = j := by
  have h1 := w.idx _ _ hi
  have h2 := w.idx _ _ hj
  omega

theorem swap_WF (h : IHeap) (i j : Nat) (w : WF h) : WF (h.swap i j) := by
  constructor
  · rw [swap_arr]; exact (swapArr_perm _ _ _).nodup_iff.2 w.nodup
  · intro x c hx
    rw [swap_arr] at hx
    unfold IHeap.swap
    split
    · rename_i a b ha hb
      have hi : i < h.arr.length := by grind
      have hj : j < h.arr.length := by grind
      rw [swapArr_getElem? _ _ _ hi hj] at hx
      simp only [upd]
      have w1 := w.idx _ _ ha
      have w2 := w.idx _ _ hb
      have w3 := w.idx _ _ hx
      unfold sg at w3 hx
      grind
    · rename_i hn
      apply w.idx
      unfold swapArr at hx
      split at hx
      · simp_all
      · exact hx

/-- items outside the slice are not touched -/
theorem swap_idx_other (h : IHeap) (i j x : Nat) (hx : x ∉ h.arr) : (h.swap i j).idx x = h.idx x := by
  unfold IHeap.swap
  split
  · rename_i a b ha hb
    have := List.mem_of_getElem? ha
    have := List.mem_of_getElem? hb
    simp only [upd]; grind
  · rfl

/-- What every reordering step preserves. -/
structure Reorder (h h' : IHeap) : Prop where
  perm : h'.arr.Perm h.arr
  wf : WF h → WF h'
  other : ∀ x, x ∉ h.arr → h'.idx x = h.idx x

theorem Reorder.refl (h : IHeap) : Reorder h h := ⟨List.Perm.refl _, id, fun _ _ => rfl⟩

theorem Reorder.trans {a b c : IHeap} (h1 : Reorder a b) (h2 : Reorder b c) : Reorder a c :=
  ⟨h2.perm.trans h1.perm, fun w => h2.wf (h1.wf w), fun x hx => by
    rw [h2.other x (fun hb => hx (h1.perm.mem_iff.1 hb)), h1.other x hx]⟩

theorem Reorder.len {a b : IHeap} (h : Reorder a b) : b.arr.length = a.arr.length := h.perm.length_eq

theorem swap_reorder (h : IHeap) (i j : Nat) : Reorder h (h.swap i j) :=
  ⟨by rw [swap_arr]; exact swapArr_perm _ _ _, swap_WF h i j, fun x hx => swap_idx_other h i j x hx⟩

theorem up_reorder (less : Nat → Nat → Bool) (h : IHeap) (j : Nat) : Reorder h (up less h j) := by
  fun_induction up less h j with
  | case1 => exact Reorder.refl _
  | case2 h j hj hl ih => exact (swap_reorder _ _ _).trans ih
  | case3 => exact Reorder.refl _

theorem down_reorder (less : Nat → Nat → Bool) (h : IHeap) (i n : Nat) : Reorder h (down less h i n).1 := by
  fun_induction down less h i n with
  | case1 h i hn hl ih => exact (swap_reorder _ _ _).trans ih
  | case2 => exact Reorder.refl _
  | case3 => exact Reorder.refl _

theorem settle_reorder (less : Nat → Nat → Bool) (h : IHeap) (i n : Nat) : Reorder h (settle less h i n) := by
  unfold settle
  simp only
  split
  · exact (down_reorder _ _ _ _).trans (up_reorder _ _ _)
  · exact down_reorder _ _ _ _

/-! ### Heap order -/

/-- position `c` is in order with its parent -/
def Ok (less : Nat → Nat → Bool) (l : List Nat) (c : Nat) : Prop := lessAt less l c ((c - 1) / 2) = false

/-- Heap order of the first `n` positions. -/
def HeapN (less : Nat → Nat → Bool) (l : List Nat) (n : Nat) : Prop := ∀ c, 0 < c → c < n → Ok less l c

/-- Heap order of the whole slice: no position precedes its parent. -/
def IsHeap (less : Nat → Nat → Bool) (l : List Nat) : Prop := HeapN less l l.length

def Grand (less : Nat → Nat → Bool) (l : List Nat) (n i : Nat) : Prop :=
  ∀ c, 0 < c → c < n → (c - 1) / 2 = i → 0 < i → lessAt less l c ((i - 1) / 2) = false

/-- order everywhere except at `i` and at its children -/
def Hole (less : Nat → Nat → Bool) (l : List Nat) (n i : Nat) : Prop :=
  (∀ c, 0 < c → c < n → c ≠ i → (c - 1) / 2 ≠ i → Ok less l c) ∧ Grand less l n i

def UpPre (less : Nat → Nat → Bool) (l : List Nat) (n i : Nat) : Prop :=
  (∀ c, 0 < c → c < n → c ≠ i → Ok less l c) ∧ Grand less l n i

def DownPre (less : Nat → Nat → Bool) (l : List Nat) (n i : Nat) : Prop :=
  (∀ c, 0 < c → c < n → (c - 1) / 2 ≠ i → Ok less l c) ∧ Grand less l n i

theorem lessAt_swap (less : Nat → Nat → Bool) (l : List Nat) (i j x y : Nat) (hi : i < l.length) (hj : j < l.length) :
    lessAt less (swapArr l i j) x y = lessAt less l (sg i j x) (sg i j y) := by
  unfold lessAt; rw [swapArr_getElem? l i j hi hj, swapArr_getElem? l i j hi hj]

theorem lessAt_asymm {less} (s : SWO less) (l : List Nat) (a b : Nat) (h : lessAt less l a b = true) :
    lessAt less l b a = false := by
  unfold lessAt at *
  split at h
  · simp_all; exact s.asymm _ _ h
  · simp at h

theorem lessAt_trans {less} (s : SWO less) (l : List Nat) (a b c : Nat) (hb : b < l.length)
    (h1 : lessAt less l b a = false) (h2 : lessAt less l c b = false) : lessAt less l c a = false := by
  unfold lessAt at *
  rw [List.getElem?_eq_getElem hb] at h1 h2
  cases ha : l[a]? <;> cases hc : l[c]? <;> simp_all
  exact s.trans _ _ _ h1 h2

theorem up_heap {less} (s : SWO less) (h : IHeap) (n j : Nat) (hj : j < n) (hn : n ≤ h.arr.length)
    (p : UpPre less h.arr n j) : HeapN less (up less h j).arr n := by
  fun_induction up less h j with
  | case1 h => intro c hc hcn; exact p.1 c hc hcn (by omega)
  | case2 h j hj0 hl ih =>
    apply ih (by omega) (by rw [swap_arr, swapArr_length]; exact hn)
    have hi : (j - 1) / 2 < h.arr.length := by omega
    have hjl : j < h.arr.length := by omega
    generalize hk : (j - 1) / 2 = k at *
    have hba := lessAt_asymm s _ _ _ hl
    rw [swap_arr]
    constructor
    · intro c hc hcn hck
      unfold Ok
      rw [lessAt_swap _ _ _ _ _ _ hi hjl]
      by_cases hcj : c = j
      · subst hcj; rw [hk]; simp only [sg]; grind
      · by_cases hpj : (c - 1) / 2 = j
        · have := p.2 c hc hcn hpj (by omega)
          rw [hk] at this
          have e1 : sg k j c = c := by unfold sg; grind
          have e2 : sg k j ((c - 1) / 2) = k := by unfold sg; grind
          rw [e1, e2]; exact this
        · have hok := p.1 c hc hcn hcj
          have e1 : sg k j c = c := by unfold sg; grind
          rw [e1]
          by_cases hpk : (c - 1) / 2 = k
          · have e2 : sg k j ((c - 1) / 2) = j := by unfold sg; grind
            rw [e2]
            unfold Ok at hok
            rw [hpk] at hok
            -- c ≥ k ≥ j
            exact lessAt_trans s _ j k c hi hba hok
          · have e2 : sg k j ((c - 1) / 2) = (c - 1) / 2 := by unfold sg; grind
            rw [e2]; exact hok
    · intro c hc hcn hpk hk0
      rw [lessAt_swap _ _ _ _ _ _ hi hjl]
      have e2 : sg k j ((k - 1) / 2) = (k - 1) / 2 := by unfold sg; grind
      rw [e2]
      have hkok := p.1 k hk0 (by omega) (by omega)
      unfold Ok at hkok
      by_cases hcj : c = j
      · have e1 : sg k j c = k := by unfold sg; grind
        rw [e1]; exact hkok
      · have e1 : sg k j c = c := by unfold sg; grind
        rw [e1]
        have hok := p.1 c hc hcn hcj
        unfold Ok at hok; rw [hpk] at hok
        exact lessAt_trans s _ _ k c hi hkok hok
  | case3 h j hj0 hl =>
    intro c hc hcn
    by_cases hcj : c = j
    · subst hcj; unfold Ok; simpa using hl
    · exact p.1 c hc hcn hcj

/-- the picked child precedes (or ties with) both children -/
theorem child_min {less} (s : SWO less) (l : List Nat) (i n : Nat) (_hn : 2 * i + 1 < n) (c : Nat)
    (hc : 0 < c) (hcn : c < n) (hp : (c - 1) / 2 = i) : lessAt less l c (child less l i n) = false := by
  have hirr : ∀ x, lessAt less l x x = false := by
    intro x; cases h : lessAt less l x x
    · rfl
    · have := lessAt_asymm s _ _ _ h; simp_all
  have : c = 2 * i + 1 ∨ c = 2 * i + 2 := by omega
  unfold child
  split
  · rename_i h
    rcases this with rfl | rfl
    · exact lessAt_asymm s _ _ _ h.2
    · exact hirr _
  · rename_i h
    rcases this with rfl | rfl
    · exact hirr _
    · cases h2 : lessAt less l (2 * i + 2) (2 * i + 1)
      · rfl
      · exact absurd ⟨hcn, h2⟩ h

theorem child_parent (less : Nat → Nat → Bool) (l : List Nat) (i n : Nat) : (child less l i n - 1) / 2 = i := by
  unfold child; split <;> omega

/-- One downward swap turns a hole at `i` into a downward obligation at the child. -/
theorem swap_down {less} (s : SWO less) (l : List Nat) (i n : Nat) (hn : 2 * i + 1 < n) (hl : n ≤ l.length)
    (p : Hole less l n i) (hlt : lessAt less l (child less l i n) i = true) :
    DownPre less (swapArr l i (child less l i n)) n (child less l i n) := by
  have hcl := child_lt less l i n hn
  have hcg := child_gt less l i n
  have hcp := child_parent less l i n
  have hmin := child_min s l i n hn
  generalize child less l i n = j at *
  have hi : i < l.length := by omega
  have hj : j < l.length := by omega
  have hasy := lessAt_asymm s _ _ _ hlt
  constructor
  · intro c hc hcn hpj
    unfold Ok
    rw [lessAt_swap _ _ _ _ _ _ hi hj]
    by_cases hcj : c = j
    · have e1 : sg i j c = i := by unfold sg; grind
      have e2 : sg i j ((c - 1) / 2) = j := by unfold sg; grind
      rw [e1, e2]; exact hasy
    · by_cases hci : c = i
      · have e1 : sg i j c = j := by unfold sg; grind
        have e2 : sg i j ((c - 1) / 2) = (c - 1) / 2 := by unfold sg; grind
        rw [e1, e2]
        have := p.2 j (by omega) hcl hcp (by omega)
        rw [hci]; exact this
      · have e1 : sg i j c = c := by unfold sg; grind
        rw [e1]
        by_cases hpi : (c - 1) / 2 = i
        · have e2 : sg i j ((c - 1) / 2) = j := by unfold sg; grind
          rw [e2]; exact hmin c hc hcn hpi
        · have e2 : sg i j ((c - 1) / 2) = (c - 1) / 2 := by unfold sg; grind
          rw [e2]; exact p.1 c hc hcn hci hpi
  · intro c hc hcn hpj hj0
    rw [lessAt_swap _ _ _ _ _ _ hi hj]
    have e1 : sg i j c = c := by unfold sg; grind
    have e2 : sg i j ((j - 1) / 2) = j := by unfold sg; grind
    rw [e1, e2]
    have := p.1 c hc hcn (by omega) (by omega)
    unfold Ok at this; rwa [hpj] at this

theorem DownPre.hole {less l n i} (p : DownPre less l n i) : Hole less l n i :=
  ⟨fun c hc hcn _ hp => p.1 c hc hcn hp, p.2⟩

/-- children of `i` in order when `down` stops at `i` -/
theorem stop_children {less} (s : SWO less) (l : List Nat) (i n : Nat) (hl : n ≤ l.length)
    (hstop : 2 * i + 1 < n → lessAt less l (child less l i n) i = false) (c : Nat) (hc : 0 < c) (hcn : c < n)
    (hp : (c - 1) / 2 = i) : Ok less l c := by
  have hn : 2 * i + 1 < n := by omega
  have h1 := child_min s l i n hn c hc hcn hp
  have h2 := hstop hn
  have h3 := child_lt less l i n hn
  unfold Ok; rw [hp]
  exact lessAt_trans s l i _ c (by omega) h2 h1

theorem down_heap {less} (s : SWO less) (h : IHeap) (i n : Nat) (hn : n ≤ h.arr.length)
    (p : DownPre less h.arr n i) : HeapN less (down less h i n).1.arr n := by
  fun_induction down less h i n with
  | case1 h i hin hl ih =>
    apply ih
    · rw [swap_arr, swapArr_length]; exact hn
    · rw [swap_arr]; exact swap_down s _ _ _ hin hn p.hole hl
  | case2 h i hin hl =>
    intro c hc hcn
    by_cases hp : (c - 1) / 2 = i
    · exact stop_children s _ i n hn (fun _ => by simpa using hl) c hc hcn hp
    · exact p.1 c hc hcn hp
  | case3 h i hin =>
    intro c hc hcn
    exact p.1 c hc hcn (by omega)

theorem down_pos (less : Nat → Nat → Bool) (h : IHeap) (i n : Nat) : i ≤ (down less h i n).2 := by
  fun_induction down less h i n with
  | case1 h i hin hl ih => have := child_gt less h.arr i n; omega
  | case2 => exact Nat.le_refl _
  | case3 => exact Nat.le_refl _

theorem settle_heap {less} (s : SWO less) (h : IHeap) (i n : Nat) (hi : i < n) (hn : n ≤ h.arr.length)
    (p : Hole less h.arr n i) : HeapN less (settle less h i n).arr n := by
  unfold settle
  simp only
  by_cases hin : 2 * i + 1 < n
  · by_cases hl : lessAt less h.arr (child less h.arr i n) i = true
    · have hd : down less h i n = down less (h.swap i (child less h.arr i n)) (child less h.arr i n) n := by
        conv => lhs; unfold down
        rw [dif_pos hin, if_pos hl]
      have hgt := child_gt less h.arr i n
      have hpos := down_pos less (h.swap i (child less h.arr i n)) (child less h.arr i n) n
      rw [hd, if_neg (by omega)]
      apply down_heap s
      · rw [swap_arr, swapArr_length]; exact hn
      · rw [swap_arr]; exact swap_down s _ _ _ hin hn p hl
    · have hd : down less h i n = (h, i) := by unfold down; rw [dif_pos hin, if_neg hl]
      rw [hd]; simp only [if_true]
      apply up_heap s _ _ _ hi hn
      refine ⟨fun c hc hcn hci => ?_, p.2⟩
      by_cases hp : (c - 1) / 2 = i
      · exact stop_children s _ i n hn (fun _ => by simpa using hl) c hc hcn hp
      · exact p.1 c hc hcn hci hp
  · have hd : down less h i n = (h, i) := by unfold down; rw [dif_neg hin]
    rw [hd]; simp only [if_true]
    apply up_heap s _ _ _ hi hn
    exact ⟨fun c hc hcn hci => p.1 c hc hcn hci (by omega), p.2⟩

/-- order depends only on the prefix -/
theorem HeapN.congr {less} {l l' : List Nat} {n : Nat} (h : HeapN less l n) (e : ∀ x, x < n → l'[x]? = l[x]?) :
    HeapN less l' n := by
  intro c hc hcn
  have := h c hc hcn
  unfold Ok lessAt at *
  rw [e c hcn, e ((c - 1) / 2) (by omega)]; exact this

theorem isHeap_root {less} (s : SWO less) (l : List Nat) (h : IsHeap less l) :
    ∀ c, c < l.length → lessAt less l c 0 = false := by
  intro c
  induction c using Nat.strongRecOn with
  | ind c ih =>
    intro hc
    by_cases h0 : c = 0
    · subst h0
      cases h : lessAt less l 0 0
      · rfl
      · have := lessAt_asymm s _ _ _ h; simp_all
    · have h1 := h c (by omega) hc
      have h2 := ih ((c - 1) / 2) (by omega) (by omega)
      exact lessAt_trans s l 0 _ c (by omega) h2 h1

/-! ### The operations -/

theorem rawPush_WF (h : IHeap) (x : Nat) (w : WF h) (hx : x ∉ h.arr) : WF (h.rawPush x) := by
  constructor
  · simp only [IHeap.rawPush]; rw [List.nodup_append]; simp; exact ⟨w.nodup, fun a ha he => hx (he ▸ ha)⟩
  · intro i a hi
    simp only [IHeap.rawPush, upd] at *
    rw [List.getElem?_append] at hi
    split at hi
    · have := List.mem_of_getElem? hi
      rw [if_neg (by grind)]; exact w.idx i a hi
    · grind

theorem push_spec {less} (h : IHeap) (x : Nat) (w : WF h) (hx : x ∉ h.arr) :
    WF (push less h x) ∧ (push less h x).arr.Perm (x :: h.arr) ∧
    (∀ y, y ≠ x → y ∉ h.arr → (push less h x).idx y = h.idx y) := by
  have r := up_reorder less (h.rawPush x) h.arr.length
  refine ⟨r.wf (rawPush_WF h x w hx), ?_, ?_⟩
  · apply r.perm.trans
    simp only [IHeap.rawPush]
    exact List.perm_append_comm
  · intro y hy hy2
    unfold push
    rw [r.other y (by simp [IHeap.rawPush]; exact ⟨hy2, hy⟩)]
    simp [IHeap.rawPush, upd, hy]

theorem push_isHeap {less} (s : SWO less) (h : IHeap) (x : Nat) (hh : IsHeap less h.arr) :
    IsHeap less (push less h x).arr := by
  have r := up_reorder less (h.rawPush x) h.arr.length
  unfold IsHeap push
  rw [r.len]
  have hlen : (h.rawPush x).arr.length = h.arr.length + 1 := by simp [IHeap.rawPush]
  rw [hlen]
  apply up_heap s _ _ _ (by omega) (by omega)
  constructor
  · intro c hc hcn hne
    have := hh c hc (by omega)
    unfold Ok lessAt at *
    simp only [IHeap.rawPush]
    rw [List.getElem?_append_left (by omega), List.getElem?_append_left (by omega)]
    exact this
  · intro c hc hcn hp h0; omega

theorem rawPop_spec (h : IHeap) (x : Nat) (h' : IHeap) (w : WF h) (hp : h.rawPop = some (x, h')) :
    WF h' ∧ h.arr = h'.arr ++ [x] ∧ h'.idx x = -1 ∧ (∀ y, y ≠ x → h'.idx y = h.idx y) := by
  unfold IHeap.rawPop at hp
  split at hp
  · simp at hp
  · rename_i y hy
    simp only [Option.some.injEq, Prod.mk.injEq] at hp
    obtain ⟨rfl, rfl⟩ := hp
    have hne : h.arr ≠ [] := by intro h0; simp [h0] at hy
    have hl : h.arr = h.arr.dropLast ++ [y] := by
      have := List.dropLast_concat_getLast hne
      rw [List.getLast?_eq_some_getLast hne] at hy
      simp only [Option.some.injEq] at hy
      rw [← hy]; exact this.symm
    refine ⟨⟨?_, ?_⟩, hl, by simp [upd], fun z hz => by simp [upd, hz]⟩
    · have := w.nodup; rw [hl] at this; exact (List.nodup_append.1 this).1
    · intro i a hi
      simp only at hi
      have hlt : i < h.arr.dropLast.length := by grind
      have hii : h.arr[i]? = some a := by rw [hl, List.getElem?_append_left hlt]; exact hi
      simp only [upd]
      have hnd := w.nodup
      rw [hl, List.nodup_append] at hnd
      have : a ≠ y := hnd.2.2 a (List.mem_of_getElem? hi) y (by simp)
      rw [if_neg this]; exact w.idx i a hii

theorem rawPop_isHeap {less} (h : IHeap) (x : Nat) (h' : IHeap) (hp : h.rawPop = some (x, h'))
    (hh : HeapN less h.arr (h.arr.length - 1)) : IsHeap less h'.arr := by
  unfold IHeap.rawPop at hp
  split at hp
  · simp at hp
  · simp only [Option.some.injEq, Prod.mk.injEq] at hp
    obtain ⟨_, rfl⟩ := hp
    unfold IsHeap
    simp only [List.length_dropLast]
    apply hh.congr
    intro y hy
    rw [List.getElem?_dropLast, if_pos hy]

theorem rawPop_some (h : IHeap) (hne : h.arr ≠ []) : ∃ r, h.rawPop = some r := by
  unfold IHeap.rawPop
  rw [List.getLast?_eq_some_getLast hne]
  exact ⟨_, rfl⟩

theorem removeAt_some (less : Nat → Nat → Bool) (h : IHeap) (i : Nat) (hi : i < h.arr.length) :
    ∃ r, removeAt less h (i : Int) = some r := by
  unfold removeAt
  rw [if_neg (by omega)]
  split
  · apply rawPop_some; intro h0; simp [h0] at hi
  · apply rawPop_some
    intro h0
    have r := (swap_reorder h (i : Int).toNat (h.arr.length - 1)).trans (settle_reorder less _ (i : Int).toNat (h.arr.length - 1))
    have := r.len
    rw [h0] at this; simp at this; omega

/-- the last position of a slice is not moved by reorderings below it -/
theorem swap_last (h : IHeap) (i j n : Nat) (hi : i < n) (hj : j < n) : (h.swap i j).arr[n]? = h.arr[n]? := by
  rw [swap_arr]; unfold swapArr; split
  · simp only [List.getElem?_set]; grind
  · rfl

theorem up_last (less : Nat → Nat → Bool) (h : IHeap) (j n : Nat) (hj : j < n) : (up less h j).arr[n]? = h.arr[n]? := by
  fun_induction up less h j with
  | case1 => rfl
  | case2 h j hj0 hl ih => rw [ih (by omega), swap_last _ _ _ _ (by omega) hj]
  | case3 => rfl

theorem down_last (less : Nat → Nat → Bool) (h : IHeap) (i n : Nat) (hi : i < n ∨ n ≤ 2 * i + 1) : (down less h i n).1.arr[n]? = h.arr[n]? := by
  fun_induction down less h i n with
  | case1 h i hin hl ih =>
    have := child_lt less h.arr i n hin
    rw [ih (by omega), swap_last _ _ _ _ (by omega) (by omega)]
  | case2 => rfl
  | case3 => rfl

theorem settle_last (less : Nat → Nat → Bool) (h : IHeap) (i n : Nat) (hi : i < n) : (settle less h i n).arr[n]? = h.arr[n]? := by
  unfold settle; simp only
  split
  · rw [up_last _ _ _ _ hi, down_last _ _ _ _ (Or.inl hi)]
  · exact down_last _ _ _ _ (Or.inl hi)

theorem removeAt_spec {less} (h : IHeap) (i : Int) (x : Nat) (h' : IHeap) (w : WF h)
    (hr : removeAt less h i = some (x, h')) :
    h.arr[i.toNat]? = some x ∧ 0 ≤ i ∧ WF h' ∧ h.arr.Perm (x :: h'.arr) ∧ h'.idx x = -1 ∧
    (∀ y, y ∉ h.arr → h'.idx y = h.idx y) := by
  unfold removeAt at hr
  split at hr
  · simp at hr
  · rename_i hb
    have hlt : i.toNat < h.arr.length := by omega
    split at hr
    · rename_i hlast
      obtain ⟨w', e, hx, ho⟩ := rawPop_spec h x h' w hr
      refine ⟨?_, by omega, w', ?_, hx, ?_⟩
      · rw [hlast]; rw [e]; simp
      · rw [e]; exact List.perm_append_comm
      · intro y hy; apply ho; intro h0; subst h0; apply hy; rw [e]; simp
    · rename_i hlast
      have r := (swap_reorder h i.toNat (h.arr.length - 1)).trans (settle_reorder less _ i.toNat (h.arr.length - 1))
      obtain ⟨w', e, hx, ho⟩ := rawPop_spec _ x h' (r.wf w) hr
      refine ⟨?_, by omega, w', ?_, hx, ?_⟩
      · have hl := settle_last less (h.swap i.toNat (h.arr.length - 1)) i.toNat (h.arr.length - 1) (by omega)
        rw [swap_arr, swapArr_getElem? _ _ _ hlt (by omega)] at hl
        have hlen := r.len
        rw [e] at hl hlen
        simp only [List.length_append, List.length_singleton] at hlen
        rw [List.getElem?_append_right (by omega)] at hl
        have : h.arr.length - 1 - h'.arr.length = 0 := by omega
        rw [this] at hl
        simp only [List.getElem?_cons_zero] at hl
        have e2 : sg i.toNat (h.arr.length - 1) (h.arr.length - 1) = i.toNat := by unfold sg; grind
        rw [e2] at hl; exact hl.symm
      · exact (r.perm.symm.trans (by rw [e]; exact List.perm_append_comm))
      · intro y hy
        rw [ho y, r.other y hy]
        intro h0; subst h0; apply hy
        rw [← r.perm.mem_iff, e]; simp

theorem hole_of_swap {less} (l : List Nat) (i : Nat) (s : SWO less) (hi : i < l.length - 1) (hh : IsHeap less l) :
    Hole less (swapArr l i (l.length - 1)) (l.length - 1) i := by
  have hil : i < l.length := by omega
  have hnl : l.length - 1 < l.length := by omega
  constructor
  · intro c hc hcn hci hpi
    unfold Ok
    rw [lessAt_swap _ _ _ _ _ _ hil hnl]
    have e1 : sg i (l.length - 1) c = c := by unfold sg; grind
    have e2 : sg i (l.length - 1) ((c - 1) / 2) = (c - 1) / 2 := by unfold sg; grind
    rw [e1, e2]; exact hh c hc (by omega)
  · intro c hc hcn hp h0
    rw [lessAt_swap _ _ _ _ _ _ hil hnl]
    have e1 : sg i (l.length - 1) c = c := by unfold sg; grind
    have e2 : sg i (l.length - 1) ((i - 1) / 2) = (i - 1) / 2 := by unfold sg; grind
    rw [e1, e2]
    have h1 := hh c hc (by omega)
    unfold Ok at h1; rw [hp] at h1
    exact lessAt_trans s l _ i c hil (hh i h0 hil) h1

theorem removeAt_isHeap {less} (s : SWO less) (h : IHeap) (i : Int) (x : Nat) (h' : IHeap)
    (hr : removeAt less h i = some (x, h')) (hh : IsHeap less h.arr) : IsHeap less h'.arr := by
  unfold removeAt at hr
  split at hr
  · simp at hr
  · rename_i hb
    split at hr
    · apply rawPop_isHeap h x h' hr
      intro c hc hcn; exact hh c hc (by omega)
    · rename_i hlast
      have r := (swap_reorder h i.toNat (h.arr.length - 1)).trans (settle_reorder less _ i.toNat (h.arr.length - 1))
      apply rawPop_isHeap _ x h' hr
      rw [r.len]
      apply settle_heap s
      · omega
      · rw [swap_arr, swapArr_length]; omega
      · rw [swap_arr]; exact hole_of_swap _ _ s (by omega) hh

theorem pop_spec {less} (h : IHeap) (x : Nat) (h' : IHeap) (w : WF h) (hr : pop less h = some (x, h')) :
    h.arr[0]? = some x ∧ WF h' ∧ h.arr.Perm (x :: h'.arr) ∧ h'.idx x = -1 ∧
    (∀ y, y ∉ h.arr → h'.idx y = h.idx y) := by
  unfold pop at hr
  split at hr
  · simp at hr
  · rename_i hne
    have r := (swap_reorder h 0 (h.arr.length - 1)).trans (down_reorder less _ 0 (h.arr.length - 1))
    obtain ⟨w', e, hx, ho⟩ := rawPop_spec _ x h' (r.wf w) hr
    refine ⟨?_, w', ?_, hx, ?_⟩
    · have hl := down_last less (h.swap 0 (h.arr.length - 1)) 0 (h.arr.length - 1) (by omega)
      rw [swap_arr, swapArr_getElem? _ _ _ (by omega) (by omega)] at hl
      have hlen := r.len
      rw [e] at hl hlen
      simp only [List.length_append, List.length_singleton] at hlen
      rw [List.getElem?_append_right (by omega)] at hl
      have : h.arr.length - 1 - h'.arr.length = 0 := by omega
      rw [this] at hl
      simp only [List.getElem?_cons_zero] at hl
      have e2 : sg 0 (h.arr.length - 1) (h.arr.length - 1) = 0 := by unfold sg; grind
      rw [e2] at hl; exact hl.symm
    · exact (r.perm.symm.trans (by rw [e]; exact List.perm_append_comm))
    · intro y hy
      rw [ho y, r.other y hy]
      intro h0; subst h0; apply hy
      rw [← r.perm.mem_iff, e]; simp

theorem pop_isHeap {less} (s : SWO less) (h : IHeap) (x : Nat) (h' : IHeap)
    (hr : pop less h = some (x, h')) (hh : IsHeap less h.arr) : IsHeap less h'.arr := by
  unfold pop at hr
  split at hr
  · simp at hr
  · rename_i hne
    have r := (swap_reorder h 0 (h.arr.length - 1)).trans (down_reorder less _ 0 (h.arr.length - 1))
    apply rawPop_isHeap _ x h' hr
    rw [r.len]
    by_cases h1 : h.arr.length - 1 = 0
    · intro c hc hcn; omega
    · have hole := hole_of_swap h.arr 0 s (by omega) hh
      apply down_heap s
      · rw [swap_arr, swapArr_length]; omega
      · rw [swap_arr]
        exact ⟨fun c hc hcn hp => hole.1 c hc hcn (by omega) hp, hole.2⟩

theorem pop_some (less : Nat → Nat → Bool) (h : IHeap) (hne : h.arr ≠ []) : ∃ r, pop less h = some r := by
  unfold pop
  rw [if_neg (by simpa using hne)]
  apply rawPop_some
  intro h0
  have r := (swap_reorder h 0 (h.arr.length - 1)).trans (down_reorder less _ 0 (h.arr.length - 1))
  have := r.perm
  rw [h0] at this
  exact hne (List.nil_perm.1 this)

theorem fix_reorder {less} (h : IHeap) (i : Int) (h' : IHeap) (hf : fix less h i = some h') : Reorder h h' := by
  unfold fix at hf
  split at hf
  · simp at hf; subst hf; exact Reorder.refl _
  · split at hf
    · split at hf
      · simp at hf; subst hf; exact Reorder.refl _
      · simp at hf
    · simp at hf; subst hf; exact settle_reorder _ _ _ _

/-- Heap order of the items except those at position `i`, from the order before the item's fields changed. -/
theorem fix_isHeap {less less'} (s : SWO less) (s' : SWO less') (h : IHeap) (i : Nat) (h' : IHeap) (x : Nat)
    (w : WF h) (hi : h.arr[i]? = some x) (hold : IsHeap less h.arr)
    (hsame : ∀ a b, a ≠ x → b ≠ x → less' a b = less a b)
    (hf : fix less' h (i : Int) = some h') : IsHeap less' h'.arr := by
  have hlt : i < h.arr.length := by grind
  unfold fix at hf
  rw [if_neg (by omega), if_neg (by omega)] at hf
  simp only [Option.some.injEq, Int.toNat_natCast] at hf
  subst hf
  have hne : ∀ c a, h.arr[c]? = some a → c ≠ i → a ≠ x := by
    intro c a hc hci hax; subst hax; exact hci (w.inj hc hi)
  have htr : ∀ c d, c ≠ i → d ≠ i → lessAt less' h.arr c d = lessAt less h.arr c d := by
    intro c d hc hd
    unfold lessAt
    cases hc' : h.arr[c]? <;> cases hd' : h.arr[d]? <;> simp
    exact hsame _ _ (hne _ _ hc' hc) (hne _ _ hd' hd)
  unfold IsHeap
  rw [(settle_reorder less' h i h.arr.length).len]
  apply settle_heap s' _ _ _ hlt (Nat.le_refl _)
  constructor
  · intro c hc hcn hci hp
    unfold Ok; rw [htr _ _ hci hp]; exact hold c hc hcn
  · intro c hc hcn hp h0
    rw [htr _ _ (by omega) (by omega)]
    have h1 := hold c hc hcn
    unfold Ok at h1; rw [hp] at h1
    exact lessAt_trans s _ _ i c hlt (hold i h0 hlt) h1

end Verif.Heap
