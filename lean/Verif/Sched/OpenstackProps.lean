import Verif.Sched.Openstack
import Verif.Cloud.FlavorProps
/-!
# C51: the number of servers that can be spawned fits in the quota; C72: what is refused as impossible; C75: the flavor
chosen among sets
-/
namespace Verif.Sched.Openstack
open Verif.Cloud.Flavors (Flv Res Cheapest Matches InSet)

/-! ### C51 -/

/-- specification: `n` more servers of the flavor with that much disk stay within each quota that there is; a volume is needed only if the
flavor has too little disk -/
def FitsQuota (q : Quota) (u : Use) (f : Flv) (disk n : Int) : Prop :=
  (0 < q.maxInstances → q.usedInstances + u.reservedInstances + n ≤ q.maxInstances) ∧
  (0 < q.maxRAM → q.usedRAM + u.reservedRAM + n * f.ram ≤ q.maxRAM) ∧
  (0 < q.maxCores → q.usedCores + u.reservedCores + n * f.cores ≤ q.maxCores) ∧
  (0 < q.maxVolume → f.disk < disk → q.usedVolume + u.reservedVolume + n * disk ≤ q.maxVolume)

/-- specification: `n` more servers stay within the configured maximum; a negative one stands for no maximum -/
def FitsMax (u : Use) (n : Int) : Prop := -1 < u.quotaMaxInstances → u.servers + u.reservedInstances + n ≤ u.quotaMaxInstances

private theorem le_tdiv {n a b : Int} (hb : 0 < b) (hn : 0 < n) (h : n ≤ Int.tdiv a b) : n * b ≤ a := by
  by_cases ha : 0 ≤ a
  · rw [Int.tdiv_eq_ediv_of_nonneg ha] at h
    exact (Int.le_ediv_iff_mul_le hb).1 h
  · exfalso
    have : Int.tdiv a b ≤ 0 := by
      have h1 : Int.tdiv (-a) b = - Int.tdiv a b := Int.neg_tdiv ..
      have h2 : 0 ≤ Int.tdiv (-a) b := Int.tdiv_nonneg (by omega) (by omega)
      omega
    omega

private theorem lower_spec {s r p n : Int} (h : lower s r p = some n) : n ≤ s ∧ n ≤ Int.tdiv r p ∧ (n = s ∨ n = Int.tdiv r p) ∧ p ≠ 0 := by
  unfold lower at h
  split at h
  · simp at h
  · rename_i hp
    injection h with h
    split at h <;> subst h <;> refine ⟨by omega, by omega, ?_, hp⟩ <;> simp

private theorem spawnable_spec {ri rr rc rv : Int} {check : Bool} {f : Flv} {disk n : Int} (h : spawnable ri rr rc rv check f disk = some n)
    (h1 : 1 ≤ ri) (h2 : f.ram ≤ rr) (h3 : f.cores ≤ rc) (h4 : check = true → disk ≤ rv)
    (p1 : 0 ≤ f.ram) (p2 : 0 ≤ f.cores) (p3 : check = true → 0 < disk) :
    1 ≤ n ∧ n ≤ ri ∧ n * f.ram ≤ rr ∧ n * f.cores ≤ rc ∧ (check = true → n * disk ≤ rv) := by
  unfold spawnable at h
  split at h
  · rename_i hr
    simp only [Option.bind_eq_bind, Option.bind_eq_some_iff] at h
    obtain ⟨a, ha, b, hb, hc⟩ := h
    obtain ⟨a1, a2, a3, a4⟩ := lower_spec ha
    obtain ⟨b1, b2, b3, b4⟩ := lower_spec hb
    have q1 : 0 < f.ram := by omega
    have q2 : 0 < f.cores := by omega
    have d1 : 1 ≤ Int.tdiv rr f.ram := by
      rw [Int.tdiv_eq_ediv_of_nonneg (by omega)]; exact (Int.le_ediv_iff_mul_le q1).2 (by omega)
    have d2 : 1 ≤ Int.tdiv rc f.cores := by
      rw [Int.tdiv_eq_ediv_of_nonneg (by omega)]; exact (Int.le_ediv_iff_mul_le q2).2 (by omega)
    cases check with
    | false =>
      simp at hc; subst hc
      have hb0 : 1 ≤ b := by omega
      exact ⟨hb0, by omega, le_tdiv q1 hb0 (by omega), le_tdiv q2 hb0 (by omega), by simp⟩
    | true =>
      simp only [if_true] at hc
      obtain ⟨c1, c2, c3, c4⟩ := lower_spec hc
      have q3 := p3 rfl
      have d3 : 1 ≤ Int.tdiv rv disk := by
        rw [Int.tdiv_eq_ediv_of_nonneg (by have := h4 rfl; omega)]; exact (Int.le_ediv_iff_mul_le q3).2 (by have := h4 rfl; omega)
      have hn0 : 1 ≤ n := by omega
      exact ⟨hn0, by omega, le_tdiv q1 hn0 (by omega), le_tdiv q2 hn0 (by omega), fun _ => le_tdiv q3 hn0 (by omega)⟩
  · injection h with h; subst h
    have : ri = 1 := by omega
    subst this
    exact ⟨by omega, by omega, by omega, by omega, fun hc => by have := h4 hc; omega⟩

private theorem check_spec {q : Quota} {u : Use} {f : Flv} {disk n : Int} (h : checkQuota q u f disk = some n) (hn : n ≠ 0)
    (p1 : 0 ≤ f.ram) (p2 : 0 ≤ f.cores) (p3 : 0 ≤ f.disk) :
    1 ≤ n ∧ n ≤ remInstances q u ∧ n * f.ram ≤ remRAM q u ∧ n * f.cores ≤ remCores q u ∧
      (f.disk < disk → n * disk ≤ remVolume q u true) := by
  unfold checkQuota at h
  simp only at h
  split at h
  · injection h with h; exact absurd h.symm hn
  · rename_i hc
    have := spawnable_spec h (by omega) (by omega) (by omega) (by intro _; omega) p1 p2 (by intro e; have := of_decide_eq_true e; omega)
    refine ⟨this.1, this.2.1, this.2.2.1, this.2.2.2.1, ?_⟩
    intro hd
    have e : decide (disk > f.disk) = true := decide_eq_true hd
    have := this.2.2.2.2 e
    rw [e] at this; exact this

/-- C51: the servers that can be spawned according to `checkQuota` stay within the quota of instances, RAM, cores and volumes. -/
theorem C51_quota (q : Quota) (u : Use) (f : Flv) (disk n : Int) (p1 : 0 ≤ f.ram) (p2 : 0 ≤ f.cores) (p3 : 0 ≤ f.disk)
    (h : checkQuota q u f disk = some n) (hn : n ≠ 0) : 1 ≤ n ∧ FitsQuota q u f disk n := by
  obtain ⟨h0, h1, h2, h3, h4⟩ := check_spec h hn p1 p2 p3
  refine ⟨h0, ?_, ?_, ?_, ?_⟩
  · intro hm
    have : remInstances q u ≤ q.maxInstances - q.usedInstances - u.reservedInstances := by
      unfold remInstances; simp only [hm, if_true]
      split <;> (try split) <;> omega
    omega
  · intro hm; unfold remRAM at h2; simp only [hm, if_true] at h2; omega
  · intro hm; unfold remCores at h3; simp only [hm, if_true] at h3; omega
  · intro hm hd
    have := h4 hd
    unfold remVolume at this; simp only [hm, and_self, if_true] at this; omega

/-- C51, if there is a quota of instances and it is above the configured maximum: that is kept too. Missing: no quota of instances, for
which it is false (below). -/
theorem C51_max_partial (q : Quota) (u : Use) (f : Flv) (disk n : Int) (p1 : 0 ≤ f.ram) (p2 : 0 ≤ f.cores) (p3 : 0 ≤ f.disk)
    (hq : u.quotaMaxInstances < q.maxInstances) (h : checkQuota q u f disk = some n) (hn : n ≠ 0) : FitsMax u n := by
  obtain ⟨h0, h1, _⟩ := check_spec h hn p1 p2 p3
  intro hm
  unfold remInstances at h1
  have hq0 : q.maxInstances > 0 := by omega
  simp only [hq0, if_true] at h1
  split at h1
  · split at h1 <;> omega
  · rename_i hc
    have : ¬ (q.maxInstances - q.usedInstances - u.reservedInstances > 0) := fun e => hc ⟨e, hm, hq⟩
    omega

private theorem tdiv_lt {n a b : Int} (hb : 0 < b) (ha : 0 ≤ a) (h : Int.tdiv a b ≤ n) : a < (n + 1) * b := by
  rw [Int.tdiv_eq_ediv_of_nonneg ha] at h
  have : a / b < n + 1 := by omega
  exact (Int.ediv_lt_iff_lt_mul hb).1 this

/-- specification: `n` times `per` more are within the limit; no limit counts as a million -/
def Within (max used reserved n per : Int) : Prop := if 0 < max then used + reserved + n * per ≤ max else n * per ≤ 1000000

/-- specification: `n` servers stay within each quota, and within the configured maximum if that is below the quota -/
def FitsCapped (q : Quota) (u : Use) (f : Flv) (disk n : Int) : Prop :=
  Within q.maxInstances q.usedInstances u.reservedInstances n 1 ∧
  (-1 < u.quotaMaxInstances → u.quotaMaxInstances < q.maxInstances → u.servers + u.reservedInstances + n ≤ u.quotaMaxInstances) ∧
  Within q.maxRAM q.usedRAM u.reservedRAM n f.ram ∧ Within q.maxCores q.usedCores u.reservedCores n f.cores ∧
  (if f.disk < disk then Within q.maxVolume q.usedVolume u.reservedVolume n disk else disk ≤ 1000000)

private theorem within_rem (max used reserved n per : Int) :
    Within max used reserved n per ↔ n * per ≤ if max > 0 then max - used - reserved else unquotad := by
  unfold Within unquotad; split <;> omega

/-- C51: and it is the greatest such number, zero if there is none. -/
theorem C51_most (q : Quota) (u : Use) (f : Flv) (disk n m : Int) (p1 : 0 < f.ram) (p2 : 0 < f.cores) (p3 : 0 ≤ f.disk)
    (h : checkQuota q u f disk = some n) (hm : 1 ≤ m) (hf : FitsCapped q u f disk m) : m ≤ n := by
  obtain ⟨g1, g0, g2, g3, g4⟩ := hf
  rw [within_rem] at g1 g2 g3
  have g1 : m ≤ remInstances q u := by
    rw [Int.mul_one] at g1
    unfold remInstances; simp only
    generalize (if q.maxInstances > 0 then q.maxInstances - q.usedInstances - u.reservedInstances else unquotad) = ri at *
    split
    · rename_i hc
      have := g0 hc.2.1 hc.2.2
      split <;> omega
    · exact g1
  have g2 : m * f.ram ≤ remRAM q u := g2
  have g3 : m * f.cores ≤ remCores q u := g3
  have g5 : f.disk < disk → m * disk ≤ remVolume q u true := by
    intro hd
    simp only [hd, if_true] at g4
    rw [within_rem] at g4
    unfold remVolume
    simpa using g4
  have g6 : disk ≤ remVolume q u (decide (disk > f.disk)) := by
    by_cases hd : f.disk < disk
    · have h1 := g5 hd
      have : 1 * disk ≤ m * disk := Int.mul_le_mul_of_nonneg_right hm (by omega)
      have e : decide (disk > f.disk) = true := decide_eq_true hd
      rw [e]; omega
    · simp only [hd, if_false] at g4
      have e : decide (disk > f.disk) = false := decide_eq_false hd
      rw [e]; unfold remVolume unquotad; simpa using g4
  unfold checkQuota at h
  simp only at h
  have r1 : f.ram ≤ remRAM q u := by
    have : 1 * f.ram ≤ m * f.ram := Int.mul_le_mul_of_nonneg_right hm (by omega)
    omega
  have r2 : f.cores ≤ remCores q u := by
    have : 1 * f.cores ≤ m * f.cores := Int.mul_le_mul_of_nonneg_right hm (by omega)
    omega
  rw [if_neg (by omega)] at h
  unfold spawnable at h
  split at h
  · simp only [Option.bind_eq_bind, Option.bind_eq_some_iff] at h
    obtain ⟨a, ha, b, hb, hc⟩ := h
    have k1 : m ≤ a := by
      rcases (lower_spec ha).2.2.1 with e | e
      · omega
      · rw [e, Int.tdiv_eq_ediv_of_nonneg (by omega)]; exact (Int.le_ediv_iff_mul_le p1).2 g2
    have k2 : m ≤ b := by
      rcases (lower_spec hb).2.2.1 with e | e
      · omega
      · rw [e, Int.tdiv_eq_ediv_of_nonneg (by omega)]; exact (Int.le_ediv_iff_mul_le p2).2 g3
    split at hc
    · rename_i hd
      have hd' : f.disk < disk := of_decide_eq_true hd
      rcases (lower_spec hc).2.2.1 with e | e
      · omega
      · have hd0 : decide (disk > f.disk) = true := hd
        have := g5 hd'
        have h0 : 0 < disk := by omega
        have hp : 0 ≤ remVolume q u true := by
          have : 0 ≤ m * disk := Int.mul_nonneg (by omega) (by omega)
          omega
        rw [e, hd0, Int.tdiv_eq_ediv_of_nonneg hp]; exact (Int.le_ediv_iff_mul_le h0).2 this
    · simp at hc; omega
  · injection h with h; omega

/-- A non-trivial case: RAM is what limits. -/
example : checkQuota ⟨10, 100, 0, 50, 2, 30, 5, 0⟩ { reservedInstances := 1, reservedRAM := 10, quotaMaxInstances := 8, servers := 2 } ⟨"a", "a", 2, 16, 5⟩ 12 = some 3 ∧
    FitsCapped ⟨10, 100, 0, 50, 2, 30, 5, 0⟩ { reservedInstances := 1, reservedRAM := 10, quotaMaxInstances := 8, servers := 2 } ⟨"a", "a", 2, 16, 5⟩ 12 2 := by
  constructor
  · decide
  · unfold FitsCapped Within; decide

/-- The code violates C51: without a quota of instances the configured maximum is not looked at: with 5 servers and a maximum of 5, a million
more may be spawned. -/
theorem C51_violated_max : ∃ q u f disk n, 0 < f.ram ∧ 0 < f.cores ∧ checkQuota q u f disk = some n ∧ n ≠ 0 ∧ ¬ FitsMax u n :=
  ⟨⟨0, 0, 0, 0, 5, 5, 5, 0⟩, { quotaMaxInstances := 5, servers := 5 }, ⟨"a", "a", 1, 1, 5⟩, 5, 1000000, by decide, by decide, by decide, by decide,
    by unfold FitsMax; decide⟩

/-! ### C75 -/

/-- specification: the flavor for the request: the first set's that is not marked as failed, or, if all are, the first set's -/
def Preferred (failed : String → Bool) (flavors : List (Option Flv)) (f : Flv) : Prop :=
  (∃ before after, flavors = before ++ some f :: after ∧ failed f.id = false ∧ ∀ g, some g ∈ before → failed g.id = true) ∨
  ((∀ g, some g ∈ flavors → failed g.id = true) ∧ ∃ before after, flavors = before ++ some f :: after ∧ ∀ g, some g ∉ before)

private theorem choose_cur (failed : String → Bool) (flavors : List (Option Flv)) : ∀ c, 
    (∃ f before after, choose failed (some c) flavors = some f ∧ flavors = before ++ some f :: after ∧ failed f.id = false ∧ ∀ g, some g ∈ before → failed g.id = true) ∨
    ((∀ g, some g ∈ flavors → failed g.id = true) ∧ choose failed (some c) flavors = some c) := by
  induction flavors with
  | nil => intro c; right; simp [choose]
  | cons o rest ih =>
    intro c
    cases o with
    | none =>
      rw [choose]
      rcases ih c with ⟨f, b, a, h1, h2, h3, h4⟩ | ⟨h1, h2⟩
      · exact Or.inl ⟨f, none :: b, a, h1, by rw [h2]; rfl, h3, fun g hg => by simp at hg; exact h4 g hg⟩
      · exact Or.inr ⟨fun g hg => by simp at hg; exact h1 g hg, h2⟩
    | some x =>
      rw [choose]
      by_cases hx : failed x.id = true
      · simp only [hx, if_true, Option.getD_some]
        rcases ih c with ⟨f, b, a, h1, h2, h3, h4⟩ | ⟨h1, h2⟩
        · refine Or.inl ⟨f, some x :: b, a, h1, by rw [h2]; rfl, h3, fun g hg => ?_⟩
          rcases List.mem_cons.1 hg with e | e
          · injection e with e; rw [e]; exact hx
          · exact h4 g e
        · refine Or.inr ⟨fun g hg => ?_, h2⟩
          rcases List.mem_cons.1 hg with e | e
          · injection e with e; rw [e]; exact hx
          · exact h1 g e
      · simp only [hx]
        exact Or.inl ⟨x, [], rest, by simp, rfl, by simpa using hx, by simp⟩

private theorem choose_spec (failed : String → Bool) (flavors : List (Option Flv)) :
    (choose failed none flavors = none ∧ ∀ g, some g ∉ flavors) ∨ ∃ f, choose failed none flavors = some f ∧ Preferred failed flavors f := by
  induction flavors with
  | nil => left; simp [choose]
  | cons o rest ih =>
    cases o with
    | none =>
      rw [choose]
      rcases ih with ⟨h1, h2⟩ | ⟨f, h1, h2⟩
      · left; exact ⟨h1, by simpa using h2⟩
      · right
        refine ⟨f, h1, ?_⟩
        rcases h2 with ⟨b, a, e, e1, e2⟩ | ⟨e1, b, a, e, e2⟩
        · exact Or.inl ⟨none :: b, a, by rw [e]; rfl, e1, fun g hg => by simp at hg; exact e2 g hg⟩
        · exact Or.inr ⟨fun g hg => by simp at hg; exact e1 g hg, none :: b, a, by rw [e]; rfl, fun g hg => by simp at hg; exact e2 g hg⟩
    | some x =>
      right
      rw [choose]
      by_cases hx : failed x.id = true
      · simp only [hx, if_true, Option.getD_none]
        rcases choose_cur failed rest x with ⟨f, b, a, h1, h2, h3, h4⟩ | ⟨h1, h2⟩
        · refine ⟨f, h1, Or.inl ⟨some x :: b, a, by rw [h2]; rfl, h3, fun g hg => ?_⟩⟩
          rcases List.mem_cons.1 hg with e | e
          · injection e with e; rw [e]; exact hx
          · exact h4 g e
        · refine ⟨x, h2, Or.inr ⟨fun g hg => ?_, [], rest, rfl, by simp⟩⟩
          rcases List.mem_cons.1 hg with e | e
          · injection e with e; rw [e]; exact hx
          · exact h1 g e
      · simp only [hx]
        exact ⟨x, by simp, Or.inl ⟨[], rest, rfl, by simpa using hx, by simp⟩⟩

/-- C75: with nothing cached for the call, the flavor is that of the earliest set with one that did not fail, or else that of the earliest set with one;
"impossible" exactly if no set has one. -/
theorem C75 (flavors : List (Option Flv)) (failed : String → Bool) :
    match determineFlavor (.ok flavors) failed none with
    | .ok f => Preferred failed flavors f
    | .error e => e = .impossible ∧ ∀ g, some g ∉ flavors := by
  unfold determineFlavor
  simp only
  rcases choose_spec failed flavors with ⟨h1, h2⟩ | ⟨f, h1, h2⟩
  · rw [h1]; exact ⟨rfl, h2⟩
  · rw [h1]; exact h2

/-- C75: what was determined for a call stays so for that call. -/
theorem C75_stays (picks picks' : Res (List (Option Flv))) (failed failed' : String → Bool) (f : Flv)
    (h : determineFlavor picks failed none = .ok f) : determineFlavor picks' failed' (some f) = .ok f ∧ ∃ l, picks = .ok l ∧ some f ∈ l := by
  refine ⟨rfl, ?_⟩
  cases picks with
  | ok l =>
    refine ⟨l, rfl, ?_⟩
    have := C75 l failed
    rw [h] at this
    rcases this with ⟨b, a, e, _⟩ | ⟨_, b, a, e, _⟩ <;> rw [e] <;> simp
  | badRegex => simp [determineFlavor] at h
  | noFlavor => simp [determineFlavor] at h
  | panic => simp [determineFlavor] at h

/-- A non-trivial case: the first set's flavor failed. -/
example : (match determineFlavor (.ok [none, some ⟨"a", "a", 1, 1, 1⟩, some ⟨"b", "b", 2, 2, 2⟩]) (fun i => i == "a") none with | .ok f => f.id | _ => "") = "b" := by
  decide

/-! ### C72 -/

/-- specification: the request, with what the operating system needs, is within the quota and there is a flavor for it -/
def Possible (m : Max) (cfgOSRAM cfgOSDisk : Int) (get : String → Option Flv) (suits : Int → Int → Flv → Prop) (r : Req) : Prop :=
  max r.ram (osRAM cfgOSRAM r) ≤ m.ram ∧ ceil r.cores ≤ m.cores ∧ (if r.disk = 0 then max 0 cfgOSDisk else r.disk) ≤ m.volume ∧
    ∃ f, (match r.flavor with
      | some name => get name = some f ∧ ceil r.cores ≤ f.cores ∧ max r.ram (osRAM cfgOSRAM r) ≤ f.ram
      | none => suits (ceil r.cores) (max r.ram (osRAM cfgOSRAM r)) f)

/-- the picks are those of `CheapestServerFlavors` for some sets: there is one if and only if some flavor suits -/
def Picks (picks : Int → Int → Res (List (Option Flv))) (suits : Int → Int → Flv → Prop) : Prop :=
  ∀ c m, ∃ l, picks c m = .ok l ∧ (∀ f, some f ∈ l → suits c m f) ∧ ((∃ f, suits c m f) → ∃ f, some f ∈ l)

/-- the amounts that `reqForSpawn` asks for are what is required, and no less than what the operating system needs -/
theorem C72_spawn (cfgOSRAM cfgOSDisk : Int) (r : Req) :
    (reqForSpawn cfgOSRAM cfgOSDisk r).cores = r.cores ∧ (reqForSpawn cfgOSRAM cfgOSDisk r).flavor = r.flavor ∧
    (reqForSpawn cfgOSRAM cfgOSDisk r).ram = max r.ram (osRAM cfgOSRAM r) ∧
    (reqForSpawn cfgOSRAM cfgOSDisk r).disk = (if r.disk = 0 then max 0 cfgOSDisk else r.disk) := by
  unfold reqForSpawn
  simp only
  by_cases h1 : r.ram < osRAM cfgOSRAM r <;> by_cases h2 : r.disk = 0 <;> by_cases h3 : 0 < cfgOSDisk <;>
    simp [h1, h2, h3] <;> omega

/-- C72, if flavors are configured in sets and the operating system needs no more RAM than the command or the user chose the flavor: a request is
accepted if and only if it is possible. Missing: more RAM for the operating system, and no sets; for both it is false (below). -/
theorem C72_partial (m : Max) (cfgOSRAM cfgOSDisk : Int) (get : String → Option Flv) (picks : Int → Int → Res (List (Option Flv)))
    (suits : Int → Int → Flv → Prop) (failed : String → Bool) (r : Req) (hp : Picks picks suits)
    (hr : r.flavor = none → osRAM cfgOSRAM r ≤ r.ram) :
    (reqCheck m cfgOSRAM cfgOSDisk get picks failed r = .ok () ↔ Possible m cfgOSRAM cfgOSDisk get suits r) ∧
    (∀ e, reqCheck m cfgOSRAM cfgOSDisk get picks failed r = .error e → (∀ name, r.flavor = some name → get name ≠ none) → e = .impossible) := by
  obtain ⟨c1, c2, c3, c4⟩ := C72_spawn cfgOSRAM cfgOSDisk r
  unfold reqCheck Possible
  rw [← c3, ← c4]
  have c1' : ceil r.cores = ceil (reqForSpawn cfgOSRAM cfgOSDisk r).cores := by rw [c1]
  rw [c1']
  generalize hrs : reqForSpawn cfgOSRAM cfgOSDisk r = rs at *
  simp only
  by_cases hm : rs.ram > m.ram ∨ ceil rs.cores > m.cores ∨ rs.disk > m.volume
  · simp only [hm, if_true]
    constructor
    · constructor
      · intro h; cases h
      · rintro ⟨h1, h2, h3, _⟩; omega
    · intro e h _; injection h with h; exact h.symm
  · have hm' : rs.ram ≤ m.ram ∧ ceil rs.cores ≤ m.cores ∧ rs.disk ≤ m.volume := by omega
    simp only [hm, if_false, hm', true_and]
    cases hf : r.flavor with
    | some name =>
      simp only
      cases hg : get name with
      | none =>
        simp only [reduceCtorEq, false_and, exists_false, iff_false]
        refine ⟨by simp, ?_⟩
        intro e _ hne; exact absurd hg (hne name rfl)
      | some f =>
        simp only
        by_cases hs : f.cores < ceil rs.cores ∨ f.ram < rs.ram
        · simp only [hs, if_true]
          constructor
          · constructor
            · intro h; cases h
            · rintro ⟨g, e, h1, h2⟩; injection e with e; subst e; omega
          · intro e h _; injection h with h; exact h.symm
        · simp only [hs, if_false]
          constructor
          · constructor
            · intro _; exact ⟨f, rfl, by omega, by omega⟩
            · intro _; trivial
          · intro e h; cases h
    | none =>
      have hram : rs.ram = r.ram := by rw [c3]; have := hr hf; omega
      simp only
      rw [hram, c1]
      obtain ⟨l, h1, h2, h3⟩ := hp (ceil r.cores) r.ram
      have := C75 l failed
      rw [h1]
      cases hd : determineFlavor (.ok l) failed none with
      | ok f =>
        rw [hd] at this
        constructor
        · constructor
          · intro _
            refine ⟨f, h2 f ?_⟩
            rcases this with ⟨b, a, e, _⟩ | ⟨_, b, a, e, _⟩ <;> rw [e] <;> simp
          · intro _; rfl
        · intro e h; cases h
      | error e =>
        rw [hd] at this
        constructor
        · constructor
          · intro h; cases h
          · intro hs
            obtain ⟨f, hf⟩ := h3 hs
            exact absurd hf (this.2 f)
        · intro e' h _
          injection h with h; rw [← h]; exact this.1

private def tPicks : Int → Int → Res (List (Option Flv)) := fun c m => .ok [if c ≤ 2 ∧ m ≤ 10 then some ⟨"a", "a", 2, 10, 5⟩ else none]

private theorem tPicks_ok : Picks tPicks (fun c m f => f = ⟨"a", "a", 2, 10, 5⟩ ∧ c ≤ 2 ∧ m ≤ 10) := by
  intro c m
  refine ⟨_, rfl, ?_, ?_⟩
  · intro f hf
    by_cases h : c ≤ 2 ∧ m ≤ 10
    · simp [h] at hf; exact ⟨hf, h⟩
    · simp [h] at hf
  · rintro ⟨f, _, h⟩; exact ⟨⟨"a", "a", 2, 10, 5⟩, by simp [h]⟩

/-- A non-trivial case: one request that is accepted, and one for too many cores. -/
example : Picks tPicks (fun c m f => f = ⟨"a", "a", 2, 10, 5⟩ ∧ c ≤ 2 ∧ m ≤ 10) ∧
    (match reqCheck ⟨100, 10, 100⟩ 8 1 (fun _ => none) tPicks (fun _ => true) ⟨1500, 8, 0, none, none⟩ with | .ok _ => true | _ => false) = true ∧
    (match reqCheck ⟨100, 10, 100⟩ 8 1 (fun _ => none) tPicks (fun _ => true) ⟨2500, 8, 0, none, none⟩ with | .error .impossible => true | _ => false) = true :=
  ⟨tPicks_ok, by decide, by decide⟩

/-- The code violates C72: a request is accepted for which no flavor has the RAM that the operating system needs, so that it never runs: the flavors are
looked at with the RAM of the command alone. -/
theorem C72_violated_ram : ∃ m cfgOSRAM cfgOSDisk get picks suits failed r, Picks picks suits ∧ reqCheck m cfgOSRAM cfgOSDisk get picks failed r = .ok () ∧
    ¬ Possible m cfgOSRAM cfgOSDisk get suits r := by
  refine ⟨⟨100, 10, 100⟩, 20, 1, fun _ => none, tPicks, _, fun _ => false, ⟨1000, 5, 0, none, none⟩, tPicks_ok, by rfl, ?_⟩
  rintro ⟨_, _, _, f, _, _, h⟩
  exact absurd h (by decide)

/-- The code violates C72: without sets, that no flavor suits is not reported as "impossible", so that the server does not bury the job but tries
again for ever. -/
theorem C72_violated_error : ∃ m cfgOSRAM cfgOSDisk get failed r compile fs,
    reqCheck m cfgOSRAM cfgOSDisk get (fun c ram => Verif.Cloud.Flavors.cheapestServerFlavors compile (fun _ => fs) c ram "" []) failed r = .error .noFlavor :=
  ⟨⟨100, 10, 100⟩, 0, 0, fun _ => none, fun _ => false, ⟨4000, 5, 0, none, none⟩, fun _ => none, [⟨"a", "a", 2, 10, 5⟩], by rfl⟩

end Verif.Sched.Openstack
