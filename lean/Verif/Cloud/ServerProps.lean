import Verif.Cloud.Server
/-!
# C45: a cloud server is never allocated beyond its flavor
-/
namespace Verif.Cloud

/-- specification: the requirements are not negative -/
def Req.Sensible (r : Req) : Prop := 0 ≤ r.cores ∧ 0 ≤ r.ram ∧ 0 ≤ r.disk

/-- specification: the allocations that are outstanding fit on the server; the cap for those without cores is twice the
number of cores, or four on a server without cores -/
def Fits (f : Flavor) (disk : Int) (out : List Req) : Prop :=
  (out.map (·.cores)).sum ≤ f.cores * 1000 ∧ (out.map (·.ram)).sum ≤ f.ram ∧ (out.map (·.disk)).sum ≤ disk ∧
    ((out.filter fun r => r.cores = 0).length : Int) ≤ (if f.cores = 0 then 4 else f.cores * 2)

/-- specification: all allocations asked for in the history are sensible -/
def SensibleEv : Ev → Prop
  | .allocate r => r.Sensible
  | _ => True

/-- specification: `k` calls of `Allocate` in a row succeed -/
def AllSucceed (s : Srv) (r : Req) : Nat → Prop
  | 0 => True
  | k + 1 => (allocate s r).2 = true ∧ AllSucceed (allocate s r).1 r k

/-! ### Space -/

/-- what remains is not negative -/
structure Room (s : Srv) : Prop where
  cores : s.usedCores ≤ s.flavor.cores * 1000
  ram : s.usedRAM ≤ s.flavor.ram
  disk : s.usedDisk ≤ s.disk
  zero : s.usedZeroCores ≤ zeroCap s

private theorem le_fdiv {a b k : Int} (hb : 0 < b) : k ≤ Int.fdiv a b ↔ k * b ≤ a := by
  rw [Int.fdiv_eq_ediv_of_nonneg _ (by omega)]; exact Int.le_ediv_iff_mul_le hb

private theorem le_tdiv {a b k : Int} (ha : 0 ≤ a) (hb : 0 < b) : k ≤ Int.tdiv a b ↔ k * b ≤ a := by
  rw [Int.tdiv_eq_ediv_of_nonneg ha]; exact Int.le_ediv_iff_mul_le hb

private theorem le_mul_self {k b : Int} (hk : 1 ≤ k) (hb : 0 ≤ b) : b ≤ k * b := by
  have := Int.mul_le_mul_of_nonneg_right hk hb; omega

/-- `k` more commands fit -/
private def More (s : Srv) (r : Req) (k : Int) : Prop :=
  s.destroyed = false ∧ k * r.cores ≤ s.flavor.cores * 1000 - s.usedCores ∧ k * r.ram ≤ s.flavor.ram - s.usedRAM ∧
    k * r.disk ≤ s.disk - s.usedDisk ∧ (r.cores = 0 → k ≤ zeroCap s - s.usedZeroCores)

private theorem checkSpace_spec {s : Srv} (h : Room s) {r : Req} (hr : r.Sensible) :
    0 ≤ checkSpace s r ∧ ∀ k, 1 ≤ k → (k ≤ checkSpace s r ↔ More s r k) := by
  obtain ⟨h1, h2, h3, h4⟩ := h
  obtain ⟨r1, r2, r3⟩ := hr
  unfold checkSpace More
  by_cases hd : s.destroyed = true
  · simp only [hd, if_true, Bool.true_eq_false, false_and, iff_false]
    exact ⟨by omega, fun k hk => by omega⟩
  · simp only [hd, if_false, Bool.false_eq_true, true_and]
    by_cases hf : s.flavor.cores * 1000 - s.usedCores < r.cores ∨ s.flavor.ram - s.usedRAM < r.ram ∨ s.disk - s.usedDisk < r.disk
    · rw [if_pos hf]
      refine ⟨by omega, fun k hk => ?_⟩
      have e1 := le_mul_self hk r1
      have e2 := le_mul_self hk r2
      have e3 := le_mul_self hk r3
      constructor
      · intro h; omega
      · rintro ⟨a, b, c, d⟩; omega
    · rw [if_neg hf]
      generalize hcan : (if r.cores = 0 then zeroCap s - s.usedZeroCores else Int.fdiv (s.flavor.cores * 1000 - s.usedCores) r.cores) = can
      have hc : 0 ≤ can ∧ ∀ k, 1 ≤ k → (k ≤ can ↔ k * r.cores ≤ s.flavor.cores * 1000 - s.usedCores ∧ (r.cores = 0 → k ≤ zeroCap s - s.usedZeroCores)) := by
        rw [← hcan]
        by_cases hz : r.cores = 0
        · rw [if_pos hz]
          refine ⟨by omega, fun k _ => ?_⟩
          rw [hz]; simp only [Int.mul_zero, true_implies]; omega
        · rw [if_neg hz]
          refine ⟨(le_fdiv (by omega)).2 (by omega), fun k _ => ?_⟩
          rw [le_fdiv (by omega)]
          simp [hz]
      obtain ⟨hc0, hc⟩ := hc
      split
      · rename_i hgt
        generalize hn1 : Int.tdiv (s.flavor.ram - s.usedRAM) r.ram = n1
        generalize hn2 : Int.tdiv (s.disk - s.usedDisk) r.disk = n2
        have m1 : ∀ k, 1 ≤ k → ((0 < r.ram → k ≤ n1) ↔ k * r.ram ≤ s.flavor.ram - s.usedRAM) := by
          intro k hk
          by_cases hp : 0 < r.ram
          · rw [← hn1, le_tdiv (by omega) hp]; simp [hp]
          · rw [show r.ram = 0 by omega]; simp; omega
        have m2 : ∀ k, 1 ≤ k → ((0 < r.disk → k ≤ n2) ↔ k * r.disk ≤ s.disk - s.usedDisk) := by
          intro k hk
          by_cases hp : 0 < r.disk
          · rw [← hn2, le_tdiv (by omega) hp]; simp [hp]
          · rw [show r.disk = 0 by omega]; simp; omega
        have p1 : 0 < r.ram → 1 ≤ n1 := fun hp => (m1 1 (by omega)).2 (by omega) hp
        have p2 : 0 < r.disk → 1 ≤ n2 := fun hp => (m2 1 (by omega)).2 (by omega) hp
        constructor
        · repeat' split
          all_goals omega
        · intro k hk
          rw [← m1 k hk, ← m2 k hk]
          have := hc k hk
          constructor
          · intro hle
            have : k ≤ can ∧ (0 < r.ram → k ≤ n1) ∧ (0 < r.disk → k ≤ n2) := by
              revert hle
              repeat' split
              all_goals (intro hle; omega)
            exact ⟨((hc k hk).1 this.1).1, this.2.1, this.2.2, ((hc k hk).1 this.1).2⟩
          · rintro ⟨a, b, c, d⟩
            have := (hc k hk).2 ⟨a, d⟩
            repeat' split
            all_goals omega
      · refine ⟨hc0, fun k hk => ?_⟩
        rw [hc k hk]
        constructor
        · rintro ⟨a, d⟩
          have := (hc k hk).2 ⟨a, d⟩
          have hk1 : k = 1 := by omega
          subst hk1
          exact ⟨a, by omega, by omega, d⟩
        · rintro ⟨a, _, _, d⟩; exact ⟨a, d⟩

private theorem zeroCap_congr {s s' : Srv} (h : s'.flavor = s.flavor) : zeroCap s' = zeroCap s := by unfold zeroCap; rw [h]

/-- what a successful `Allocate` does -/
private theorem allocate_true {s s' : Srv} {r : Req} (h : allocate s r = (s', true)) :
    checkSpace s r ≠ 0 ∧ s'.flavor = s.flavor ∧ s'.disk = s.disk ∧ s'.destroyed = s.destroyed ∧
    s'.usedCores = s.usedCores + r.cores ∧ s'.usedRAM = s.usedRAM + r.ram ∧ s'.usedDisk = s.usedDisk + r.disk ∧
    s'.usedZeroCores = s.usedZeroCores + (if r.cores = 0 then 1 else 0) := by
  unfold allocate at h
  split at h
  · simp at h
  · rename_i hn
    simp only [Prod.mk.injEq, and_true] at h
    subst h
    by_cases hz : r.cores = 0
    · simp only [hz, if_true]
      split <;> simp [hn]
    · simp only [hz, if_false]
      split <;> simp [hn]

private theorem allocate_false {s s' : Srv} {r : Req} (h : allocate s r = (s', false)) : checkSpace s r = 0 ∧ s' = s := by
  unfold allocate at h
  split at h
  · simp at h; exact ⟨by assumption, h.symm⟩
  · simp at h

private theorem room_allocate {s s' : Srv} {r : Req} (hr : r.Sensible) (hs : Room s) (h : allocate s r = (s', true)) : Room s' := by
  obtain ⟨h0, h1, h2, h3, h4, h5, h6, h7⟩ := allocate_true h
  obtain ⟨c0, c1⟩ := checkSpace_spec hs hr
  obtain ⟨_, m1, m2, m3, m4⟩ := (c1 1 (by omega)).1 (by omega)
  obtain ⟨q1, q2, q3, q4⟩ := hs
  refine ⟨by rw [h1]; omega, by rw [h1]; omega, by rw [h2]; omega, ?_⟩
  rw [zeroCap_congr h1, h7]
  split
  · rename_i hz; have := m4 hz; omega
  · omega

private theorem space_allocate {s s' : Srv} {r : Req} (hr : r.Sensible) (hs : Room s) (h : allocate s r = (s', true)) :
    checkSpace s' r = checkSpace s r - 1 := by
  have hs' := room_allocate hr hs h
  obtain ⟨c0, c1⟩ := checkSpace_spec hs hr
  obtain ⟨d0, d1⟩ := checkSpace_spec hs' hr
  obtain ⟨h0, h1, h2, h3, h4, h5, h6, h7⟩ := allocate_true h
  have key : ∀ k, 1 ≤ k → (k ≤ checkSpace s' r ↔ k + 1 ≤ checkSpace s r) := by
    intro k hk
    rw [d1 k hk, c1 (k + 1) (by omega)]
    unfold More
    rw [zeroCap_congr h1, h1, h2, h3, h4, h5, h6, h7]
    simp only [Int.add_mul, Int.one_mul]
    have : (r.cores = 0 → k ≤ zeroCap s - (s.usedZeroCores + if r.cores = 0 then 1 else 0)) ↔
        (r.cores = 0 → k + 1 ≤ zeroCap s - s.usedZeroCores) := by
      constructor
      · intro h e; have := h e; rw [if_pos e] at this; omega
      · intro h e; have := h e; rw [if_pos e]; omega
    rw [this]
    constructor <;> (rintro ⟨a, b, c, d, e⟩; exact ⟨a, by omega, by omega, by omega, e⟩)
  have hge : ¬ checkSpace s' r ≤ checkSpace s r - 2 := by
    intro hle
    have := (key (checkSpace s r - 1) (by omega)).2 (by omega)
    omega
  by_cases hz : checkSpace s' r = 0
  · omega
  · have := (key (checkSpace s' r) (by omega)).1 (by omega)
    omega

/-! ### Histories -/

private theorem sum_erase (g : Req → Int) : ∀ (l : List Req) (i : Nat) (a : Req), l[i]? = some a →
    ((l.eraseIdx i).map g).sum = (l.map g).sum - g a
  | [], _, _, h => by simp at h
  | x :: l, 0, a, h => by simp at h; subst h; simp; omega
  | x :: l, i + 1, a, h => by
    simp only [List.getElem?_cons_succ] at h
    simp only [List.eraseIdx_cons_succ, List.map_cons, List.sum_cons, sum_erase g l i a h]; omega

private def fz (r : Req) : Int := if r.cores = 0 then 1 else 0

private theorem zero_sum (l : List Req) : ((l.filter fun r => r.cores = 0).length : Int) = (l.map fz).sum := by
  induction l with
  | nil => rfl
  | cons a l ih =>
    rw [List.filter_cons, List.map_cons, List.sum_cons, ← ih]
    by_cases h : a.cores = 0
    · simp [h, fz]; omega
    · simp [h, fz]

structure Books (f : Flavor) (d : Int) (s : St) : Prop where
  flavor : s.srv.flavor = f
  disk : s.srv.disk = d
  room : Room s.srv
  cores : s.srv.usedCores = (s.out.map (·.cores)).sum
  ram : s.srv.usedRAM = (s.out.map (·.ram)).sum
  dsk : s.srv.usedDisk = (s.out.map (·.disk)).sum
  zero : s.srv.usedZeroCores = ((s.out.filter fun r => r.cores = 0).length : Int)
  sens : ∀ r ∈ s.out, r.Sensible

private theorem Books.same {f d} {s s' : St} (b : Books f d s) (h : s'.out = s.out) (h1 : s'.srv.flavor = s.srv.flavor) (h2 : s'.srv.disk = s.srv.disk)
    (h3 : s'.srv.usedCores = s.srv.usedCores) (h4 : s'.srv.usedRAM = s.srv.usedRAM) (h5 : s'.srv.usedDisk = s.srv.usedDisk)
    (h6 : s'.srv.usedZeroCores = s.srv.usedZeroCores) : Books f d s' := by
  obtain ⟨a, b, ⟨c1, c2, c3, c4⟩, e, g, i, j, k⟩ := b
  refine ⟨by rw [h1, a], by rw [h2, b], ⟨by rw [h1, h3]; exact c1, by rw [h1, h4]; exact c2, by rw [h2, h5]; exact c3,
    by rw [zeroCap_congr h1, h6]; exact c4⟩, by rw [h3, h, e], by rw [h4, h, g], by rw [h5, h, i], by rw [h6, h, j], by rw [h]; exact k⟩

private theorem release_used (s : Srv) (r : Req) : (release s r).flavor = s.flavor ∧ (release s r).disk = s.disk ∧
    (release s r).usedCores = s.usedCores - r.cores ∧ (release s r).usedRAM = s.usedRAM - r.ram ∧
    (release s r).usedDisk = s.usedDisk - r.disk ∧ (release s r).usedZeroCores = s.usedZeroCores - fz r := by
  unfold release
  by_cases hz : r.cores = 0
  · simp only [hz, if_true]; split <;> simp [fz, hz]
  · simp only [hz, if_false]; split <;> simp [fz, hz]

theorem Books.step {f d} {s s' : St} {e : Ev} (b : Books f d s) (he : SensibleEv e) (h : step s e = some s') : Books f d s' := by
  cases e with
  | allocate r =>
    simp only [Cloud.step] at h
    split at h
    · rename_i srv ha
      injection h with h; subst h
      have hr := room_allocate he b.room ha
      obtain ⟨h0, h1, h2, h3, h4, h5, h6, h7⟩ := allocate_true ha
      refine ⟨by simp only [h1]; exact b.flavor, by simp only [h2]; exact b.disk, hr, ?_, ?_, ?_, ?_, ?_⟩
      · simp [h4, b.cores]
      · simp [h5, b.ram]
      · simp [h6, b.dsk]
      · simp only [h7, b.zero, zero_sum, List.map_append, List.sum_append]; simp [fz]
      · intro x hx
        rcases List.mem_append.1 hx with hx | hx
        · exact b.sens x hx
        · simp at hx; subst hx; exact he
    · injection h with h; subst h; exact b
  | release i =>
    simp only [Cloud.step] at h
    split at h
    · rename_i r hr
      injection h with h; subst h
      obtain ⟨h1, h2, h3, h4, h5, h6⟩ := release_used s.srv r
      obtain ⟨p1, p2, p3⟩ := b.sens r (List.mem_of_getElem? hr)
      have p4 : 0 ≤ fz r := by unfold fz; split <;> omega
      obtain ⟨c1, c2, c3, c4⟩ := b.room
      refine ⟨by simp only [h1]; exact b.flavor, by simp only [h2]; exact b.disk, ⟨?_, ?_, ?_, ?_⟩, ?_, ?_, ?_, ?_, ?_⟩
      · simp only [h1, h3]; omega
      · simp only [h1, h4]; omega
      · simp only [h2, h5]; omega
      · simp only [zeroCap_congr h1, h6]; omega
      · simp only [h3, b.cores]; rw [sum_erase _ _ _ _ hr]
      · simp only [h4, b.ram]; rw [sum_erase _ _ _ _ hr]
      · simp only [h5, b.dsk]; rw [sum_erase _ _ _ _ hr]
      · simp only [h6, b.zero, zero_sum]; rw [sum_erase _ _ _ _ hr]
      · intro x hx; exact b.sens x (List.mem_of_mem_eraseIdx hx)
    · cases h
  | enter =>
    simp only [Cloud.step] at h
    split at h
    · cases h
    · split at h
      · injection h with h; subst h; exact b.same rfl rfl rfl rfl rfl rfl rfl
      · split at h <;> (injection h with h; subst h; exact b.same rfl rfl rfl rfl rfl rfl rfl)
  | cancel i => simp only [Cloud.step] at h; split at h <;> first | cases h | skip
                all_goals exact b.same rfl rfl rfl rfl rfl rfl rfl
  | cancelled i => simp only [Cloud.step] at h; split at h <;> first | cases h | skip
                   all_goals exact b.same rfl rfl rfl rfl rfl rfl rfl
  | timeUp i => simp only [Cloud.step] at h; split at h <;> first | cases h | skip
                all_goals exact b.same rfl rfl rfl rfl rfl rfl rfl
  | mark i => simp only [Cloud.step] at h; split at h <;> first | cases h | skip
              all_goals exact b.same rfl rfl rfl rfl rfl rfl rfl
  | destroy i => simp only [Cloud.step] at h; split at h <;> first | cases h | skip
                 all_goals exact b.same rfl rfl rfl rfl rfl rfl rfl

theorem Books.run {f d} (h : List Ev) : ∀ {s s' : St}, Books f d s → (∀ e ∈ h, SensibleEv e) → run s h = some s' → Books f d s' := by
  induction h with
  | nil => intro s s' b _ hr; simp [Cloud.run] at hr; subst hr; exact b
  | cons e h ih =>
    intro s s' b he hr
    simp only [Cloud.run] at hr
    cases hs : Cloud.step s e with
    | none => rw [hs] at hr; cases hr
    | some s1 =>
      rw [hs] at hr
      exact ih (b.step (he e (by simp)) hs) (fun x hx => he x (List.mem_cons_of_mem _ hx)) hr

theorem Books.fresh (f : Flavor) (d : Int) (t : Bool) (h1 : 0 ≤ f.cores) (h2 : 0 ≤ f.ram) (h3 : 0 ≤ d) : Books f d (fresh f d t) := by
  refine ⟨rfl, rfl, ⟨?_, h2, h3, ?_⟩, rfl, rfl, rfl, rfl, by simp [Cloud.fresh]⟩
  · show (0 : Int) ≤ f.cores * 1000; omega
  · unfold zeroCap; simp only [Cloud.fresh, zeroCoreMultiplier]; by_cases hz : f.cores = 0 <;> simp only [hz, if_true, if_false] <;> omega

/-- C45: in any history, what is allocated and not released fits on the server. -/
theorem C45_fits (f : Flavor) (d : Int) (t : Bool) (h1 : 0 ≤ f.cores) (h2 : 0 ≤ f.ram) (h3 : 0 ≤ d) (h : List Ev)
    (he : ∀ e ∈ h, SensibleEv e) (s : St) (hr : run (fresh f d t) h = some s) : Fits f d s.out := by
  have b := (Books.fresh f d t h1 h2 h3).run h he hr
  obtain ⟨c1, c2, c3, c4⟩ := b.room
  refine ⟨by rw [← b.cores, ← b.flavor]; exact c1, by rw [← b.ram, ← b.flavor]; exact c2, by rw [← b.dsk, ← b.disk]; exact c3, ?_⟩
  rw [← b.zero]
  unfold zeroCap at c4
  rw [b.flavor] at c4
  unfold zeroCoreMultiplier at c4
  split at c4 <;> (rename_i hz; simp only [hz, if_true, if_false]; omega)

private theorem allSucceed_iff {r : Req} (hr : r.Sensible) (k : Nat) : ∀ {s : Srv}, Room s → (AllSucceed s r k ↔ (k : Int) ≤ checkSpace s r) := by
  induction k with
  | zero => intro s hs; simp only [AllSucceed, true_iff]; exact (checkSpace_spec hs hr).1
  | succ k ih =>
    intro s hs
    have h0 := (checkSpace_spec hs hr).1
    unfold AllSucceed
    cases ha : allocate s r with
    | mk s' b =>
      cases b with
      | true =>
        have hne := (allocate_true ha).1
        simp only [true_and]
        rw [ih (room_allocate hr hs ha), space_allocate hr hs ha]; omega
      | false =>
        have := (allocate_false ha).1
        simp; omega

/-- C45: `HasSpaceFor` returns the number of further identical allocations that succeed. -/
theorem C45_space (f : Flavor) (d : Int) (t : Bool) (h1 : 0 ≤ f.cores) (h2 : 0 ≤ f.ram) (h3 : 0 ≤ d) (h : List Ev)
    (he : ∀ e ∈ h, SensibleEv e) (s : St) (hr : run (fresh f d t) h = some s) (r : Req) (hs : r.Sensible) (k : Nat) :
    AllSucceed s.srv r k ↔ (k : Int) ≤ checkSpace s.srv r :=
  allSucceed_iff hs k ((Books.fresh f d t h1 h2 h3).run h he hr).room

/-- C45: `Release` undoes `Allocate`. -/
theorem C45_undo (s s' : Srv) (r : Req) (h : allocate s r = (s', true)) :
    (release s' r).usedCores = s.usedCores ∧ (release s' r).usedZeroCores = s.usedZeroCores ∧
    (release s' r).usedRAM = s.usedRAM ∧ (release s' r).usedDisk = s.usedDisk := by
  obtain ⟨h0, h1, h2, h3, h4, h5, h6, h7⟩ := allocate_true h
  obtain ⟨e1, e2, e3, e4, e5, e6⟩ := release_used s' r
  refine ⟨by rw [e3, h4]; omega, by rw [e6, h7, fz]; omega, by rw [e4, h5]; omega, by rw [e5, h6]; omega⟩

/-- C45: an empty server of a flavor has space for as many commands as the flavor says, if it has cores. -/
theorem C45_flavor (f : Flavor) (t : Bool) (r : Req) (hc : f.cores ≠ 0) : checkSpace (fresh f f.disk t).srv r = f.hasSpaceFor r := by
  unfold checkSpace Flavor.hasSpaceFor fresh zeroCap
  simp only [hc, if_false, Int.sub_zero, Bool.false_eq_true]

/-- A non-trivial case: a server is filled, HasSpaceFor counts down. -/
example : ∃ s, run (fresh ⟨4, 100, 10⟩ 10 true) [.allocate ⟨1500, 40, 0⟩, .allocate ⟨0, 0, 1⟩, .allocate ⟨1500, 20, 0⟩, .release 0] = some s ∧
    s.out = [⟨0, 0, 1⟩, ⟨1500, 20, 0⟩] ∧ checkSpace s.srv ⟨500, 10, 2⟩ = 4 := ⟨_, rfl, by decide, by decide +kernel⟩

end Verif.Cloud
