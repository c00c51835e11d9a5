import Verif.Sched.Spawn
import Verif.Sched.OpenstackProps
/-!
# C71: servers stay within the quota and the configured maximum; C73: and spawns within the number allowed at once; C74: reservations
are given back
-/
namespace Verif.Sched.Spawn
open Verif.Cloud.Flavors (Flv)
open Verif.Sched.Openstack (Quota Use checkQuota FitsQuota FitsMax C51_quota C51_max_partial)

/-! ### Specification -/

/-- no quota is exceeded -/
def WithinQuota (q : Quota) : Prop :=
  (0 < q.maxInstances → q.usedInstances ≤ q.maxInstances) ∧ (0 < q.maxRAM → q.usedRAM ≤ q.maxRAM) ∧
  (0 < q.maxCores → q.usedCores ≤ q.maxCores) ∧ (0 < q.maxVolume → q.usedVolume ≤ q.maxVolume)

/-- a scheduler that has spawned nothing, with a quota that is not exceeded -/
structure Init (s : S) : Prop where
  none : s.spawns = []
  inst : s.use.reservedInstances = 0
  ram : s.use.reservedRAM = 0
  cores : s.use.reservedCores = 0
  vol : s.use.reservedVolume = 0
  quota : WithinQuota s.quota

/-- `P` holds of every state and event met -/
def Along (P : S → Ev → Prop) : S → List Ev → Prop
  | _, [] => True
  | s, e :: es => P s e ∧ ∀ s', step s e = some s' → Along P s' es

/-- the sizes of the flavor make sense, and the image needs no more disk than asked for -/
def Sane (f : Flv) (disk real : Int) : Prop := 0 ≤ f.ram ∧ 0 ≤ f.cores ∧ 0 ≤ f.disk ∧ real = disk

/-- when more is spawned, all goroutines started before have made their reservations -/
def Calm (s : S) : Ev → Prop
  | .spawnMultiple _ f disk real _ _ => Sane f disk real ∧ ∀ p ∈ s.spawns, p.started = true
  | _ => True

/-- when more is spawned, all servers are either registered or still reserved, and there is a quota of instances above the configured maximum -/
def Quiet (s : S) : Ev → Prop
  | .spawnMultiple _ f disk real _ _ => Sane f disk real ∧ (∀ p ∈ s.spawns, p.started = true ∧ (p.alive = true → p.registered = true ∨ p.held = true)) ∧
      -1 < s.use.quotaMaxInstances ∧ s.use.quotaMaxInstances < s.quota.maxInstances
  | _ => True

/-- the number of servers that exist, with those not spawned here -/
def S.servers (s : S) : Int := s.use.servers + (s.spawns.filter (·.alive)).length

/-! ### Sums -/

theorem total_append (w : Sp → Int) (l m : List Sp) : total w (l ++ m) = total w l + total w m := by
  induction l with
  | nil => simp [total]
  | cons p l ih => simp only [List.cons_append, total, ih]; omega

theorem total_replicate (w : Sp → Int) (n : Nat) (p : Sp) : total w (List.replicate n p) = n * w p := by
  induction n with
  | zero => simp [total]
  | succ n ih =>
    rw [List.replicate_succ, total, ih]
    have : ((n + 1 : Nat) : Int) * w p = (n : Int) * w p + w p := by
      rw [Int.natCast_add, Int.add_mul]; simp
    omega

theorem total_set (w : Sp → Int) (p' : Sp) (l : List Sp) : ∀ i p, l[i]? = some p → total w (l.set i p') = total w l - w p + w p' := by
  induction l with
  | nil => intro i p h; simp at h
  | cons a l ih =>
    intro i p h
    cases i with
    | zero => simp at h; subst h; simp [total]; omega
    | succ i => simp at h; simp [total, ih i p h]; omega

theorem total_le (w v : Sp → Int) (l : List Sp) (h : ∀ p ∈ l, w p ≤ v p) : total w l ≤ total v l := by
  induction l with
  | nil => simp [total]
  | cons a l ih =>
    have := ih fun p hp => h p (by simp [hp])
    have := h a (by simp)
    simp only [total]; omega

theorem total_add (w v : Sp → Int) (l : List Sp) : total (fun p => w p + v p) l = total w l + total v l := by
  induction l with
  | nil => simp [total]
  | cons a l ih => simp only [total, ih]; omega

theorem total_congr (w v : Sp → Int) (l : List Sp) (h : ∀ p ∈ l, w p = v p) : total w l = total v l := by
  induction l with
  | nil => rfl
  | cons a l ih => simp only [total, h a (by simp), ih fun p hp => h p (by simp [hp])]

theorem total_map (w : Sp → Int) (g : Sp → Sp) (l : List Sp) : total w (l.map g) = total (fun p => w (g p)) l := by
  induction l with
  | nil => rfl
  | cons a l ih => simp only [List.map_cons, total, ih]

theorem total_nonneg (w : Sp → Int) (l : List Sp) (h : ∀ p ∈ l, 0 ≤ w p) : 0 ≤ total w l := by
  induction l with
  | nil => simp [total]
  | cons a l ih =>
    have := ih fun p hp => h p (by simp [hp])
    have := h a (by simp)
    simp only [total]; omega

theorem total_filter (f : Sp → Bool) (l : List Sp) : total (fun p => if f p then 1 else 0) l = (l.filter f).length := by
  induction l with
  | nil => rfl
  | cons a l ih =>
    rw [total, ih, List.filter_cons]
    split <;> simp <;> omega

/-! ### The steps -/

/-- what happens in a step: either spawns are added, or each is mapped to what it becomes and the reservations change -/
theorem step_cases {s s' : S} {ev : Ev} (h : step s ev = some s') :
    s' = s ∨
    (∃ cmd f disk real desired per n, ev = .spawnMultiple cmd f disk real desired per ∧ checkQuota s.getQuota s.getUse f disk = some n ∧ n ≠ 0 ∧
      ¬ (s.simul > 0 ∧ s.spawningTotal ≥ s.simul) ∧
      s' = { s with spawns := s.spawns ++ List.replicate (todo desired per n (s.spawningCmd cmd) s.simul s.spawningTotal).toNat { cmd, flavor := f, disk, real } }) ∨
    (ev = .stateUpdate ∧ s' = { s with spawns := s.spawns.map fun p => { p with registered := p.done && p.alive } }) ∨
    (∃ i p p' u', s.spawns[i]? = some p ∧ act ev p s.use = some (p', u') ∧ s' = { s with spawns := s.spawns.set i p', use := u' }) := by
  have one : ∀ i, s.one i ev = s' → s' = s ∨ (∃ i p p' u', s.spawns[i]? = some p ∧ act ev p s.use = some (p', u') ∧ s' = { s with spawns := s.spawns.set i p', use := u' }) := by
    intro i h
    unfold S.one at h
    cases hp : s.spawns[i]? with
    | none => rw [hp] at h; exact Or.inl h.symm
    | some p =>
      rw [hp] at h
      simp only at h
      cases ha : act ev p s.use with
      | none => rw [ha] at h; exact Or.inl h.symm
      | some r => rw [ha] at h; exact Or.inr ⟨i, p, r.1, r.2, hp, ha, h.symm⟩
  cases ev with
  | spawnMultiple cmd f disk real desired per =>
    unfold step spawnMultiple at h
    simp only at h
    split at h
    · injection h with h; exact Or.inl h.symm
    · rename_i hs
      cases hq : checkQuota s.getQuota s.getUse f disk with
      | none => rw [hq] at h; simp at h
      | some n =>
        rw [hq] at h
        simp only at h
        split at h
        · injection h with h; exact Or.inl h.symm
        · rename_i hn
          injection h with h
          exact Or.inr (Or.inl ⟨cmd, f, disk, real, desired, per, n, rfl, hq, fun e => hn (Or.inl e), hs, h.symm⟩)
  | stateUpdate => injection h with h; exact Or.inr (Or.inr (Or.inl ⟨rfl, h.symm⟩))
  | start i => injection h with h; exact (one i h).elim Or.inl (fun h => Or.inr (Or.inr (Or.inr h)))
  | unknown i => injection h with h; exact (one i h).elim Or.inl (fun h => Or.inr (Or.inr (Or.inr h)))
  | request i ok => injection h with h; exact (one i h).elim Or.inl (fun h => Or.inr (Or.inr (Or.inr h)))
  | callback i => injection h with h; exact (one i h).elim Or.inl (fun h => Or.inr (Or.inr (Or.inr h)))
  | finish i ok => injection h with h; exact (one i h).elim Or.inl (fun h => Or.inr (Or.inr (Or.inr h)))
  | destroy i => injection h with h; exact (one i h).elim Or.inl (fun h => Or.inr (Or.inr (Or.inr h)))

theorem todo_le (desired per n c simul t : Int) (hn : 0 ≤ n) : ((todo desired per n c simul t).toNat : Int) ≤ n := by
  unfold todo
  simp only
  repeat' split
  all_goals omega

theorem todo_simul (desired per n c simul t : Int) (h : 0 < simul) (ht : t ≤ simul) : ((todo desired per n c simul t).toNat : Int) ≤ simul - t := by
  unfold todo
  simp only
  repeat' split
  all_goals omega

theorem todo_needed (desired per n c simul t : Int) : ((todo desired per n c simul t).toNat : Int) ≤ max 0 (-(Int.fdiv (-desired) per) - c) := by
  unfold todo
  simp only
  repeat' split
  all_goals omega

/-! ### The invariants -/

/-- what is weighed -/
inductive Dim where
  | inst | ram | cores | vol

def Dim.w : Dim → Sp → Int
  | .inst, _ => 1
  | .ram, p => p.flavor.ram
  | .cores, p => p.flavor.cores
  | .vol, p => volume p.flavor p.disk

def Dim.reserved : Dim → Use → Int
  | .inst, u => u.reservedInstances
  | .ram, u => u.reservedRAM
  | .cores, u => u.reservedCores
  | .vol, u => u.reservedVolume

def Dim.used : Dim → Quota → Int
  | .inst, q => q.usedInstances
  | .ram, q => q.usedRAM
  | .cores, q => q.usedCores
  | .vol, q => q.usedVolume

def Dim.max : Dim → Quota → Int
  | .inst, q => q.maxInstances
  | .ram, q => q.maxRAM
  | .cores, q => q.maxCores
  | .vol, q => q.maxVolume

/-- the flags of a spawn are consistent -/
structure Flags (p : Sp) : Prop where
  held : p.held = true → p.started = true
  req : p.requested = true → p.started = true
  alive : p.alive = true → p.requested = true
  notYet : p.started = true → p.requested = false → p.held = true
  done : p.done = true → p.started = true

/-- the spawn counts: it has not begun, has a reservation, or a server -/
def counts (p : Sp) : Bool := !p.started || p.held || p.alive

theorem act_flags {ev p u p' u'} (h : act ev p u = some (p', u')) (f : Flags p) : Flags p' := by
  obtain ⟨f1, f2, f3, f4, f5⟩ := f
  unfold act at h
  cases ev <;> simp only at h <;> (try split at h) <;> simp at h
  all_goals
    obtain ⟨h, _⟩ := h
    subst h
    constructor <;> simp_all

/-- the reservations are those of the spawns that hold one -/
structure Inv (s : S) : Prop where
  flags : ∀ p ∈ s.spawns, Flags p
  res : ∀ d : Dim, d.reserved s.use = total (fun p => if p.held then d.w p else 0) s.spawns

theorem act_res {ev p u p' u'} (h : act ev p u = some (p', u')) (d : Dim) (f : Flags p) :
    d.reserved u' = d.reserved u - (if p.held then d.w p else 0) + (if p'.held then d.w p' else 0) := by
  unfold act at h
  have f1 := f.held
  cases ev <;> simp only at h <;> (try split at h) <;> simp at h
  all_goals
    rename_i hc
    obtain ⟨h, hu⟩ := h
    subst h; subst hu
  · have : p.held = false := by cases hh : p.held with | false => rfl | true => have := f1 hh; simp [hc] at this
    cases d <;> simp [Dim.reserved, Dim.w, reserve, this]
  · cases d <;> simp [Dim.w] <;> omega
  · simp only [Dim.w]; cases d <;> simp <;> omega
  · cases d <;> simp [Dim.reserved, Dim.w, giveBack, hc.2]
  · cases d <;> simp [Dim.w] <;> omega
  · cases d <;> simp [Dim.w] <;> omega

theorem act_sizes {ev p u p' u'} (h : act ev p u = some (p', u')) : p'.flavor = p.flavor ∧ p'.disk = p.disk ∧ p'.real = p.real ∧
    p'.cmd = p.cmd ∧ p'.registered = p.registered ∧ (p.done = true → p'.done = true) ∧ (p.started = true → p'.started = true) ∧
    u'.quotaMaxInstances = u.quotaMaxInstances ∧ u'.servers = u.servers := by
  unfold act at h
  cases ev <;> simp only at h <;> (try split at h) <;> simp at h
  all_goals
    obtain ⟨h, hu⟩ := h
    subst h; subst hu
    simp [reserve, giveBack]

theorem act_counts {ev p u p' u'} (h : act ev p u = some (p', u')) (f : Flags p) : counts p' = true → counts p = true := by
  obtain ⟨f1, f2, f3, f4, f5⟩ := f
  unfold act at h
  unfold counts
  cases ev <;> simp only at h <;> (try split at h) <;> simp at h
  all_goals
    obtain ⟨h, _⟩ := h
    subst h
    simp_all
  all_goals (try grind)

theorem inv_step {s s' : S} {ev : Ev} (h : step s ev = some s') (i : Inv s) : Inv s' := by
  rcases step_cases h with rfl | ⟨cmd, f, disk, real, desired, per, n, _, _, _, _, rfl⟩ | ⟨_, rfl⟩ | ⟨k, p, p', u', hp, ha, rfl⟩
  · exact i
  · constructor
    · intro p hp
      rcases List.mem_append.1 hp with hp | hp
      · exact i.flags p hp
      · rw [(List.mem_replicate.1 hp).2]; constructor <;> simp
    · intro d
      simp only
      rw [total_append, total_replicate, i.res d]; simp
  · constructor
    · intro p hp
      obtain ⟨q, hq, rfl⟩ := List.mem_map.1 hp
      have := i.flags q hq
      exact ⟨this.1, this.2, this.3, this.4, this.5⟩
    · intro d
      simp only
      rw [total_map, i.res d]
      cases d <;> rfl
  · have hm : p ∈ s.spawns := List.mem_of_getElem? hp
    constructor
    · intro q hq
      rcases List.mem_or_eq_of_mem_set hq with hq | rfl
      · exact i.flags q hq
      · exact act_flags ha (i.flags p hm)
    · intro d
      simp only
      rw [total_set _ _ _ _ _ hp, act_res ha d (i.flags p hm), i.res d]

theorem inv_init {s : S} (h : Init s) : Inv s := by
  constructor
  · intro p hp; rw [h.none] at hp; simp at hp
  · intro d; rw [h.none]; cases d <;> simp [total, Dim.reserved, h.inst, h.ram, h.cores, h.vol]

/-- every kind of quota has room for all that counts -/
structure Room (s : S) : Prop where
  sane : ∀ p ∈ s.spawns, Sane p.flavor p.disk p.real
  room : ∀ d : Dim, 0 < d.max s.quota → d.used s.quota + total (fun p => if counts p then d.w p else 0) s.spawns ≤ d.max s.quota

theorem w_nonneg (d : Dim) (p : Sp) (h : Sane p.flavor p.disk p.real) : 0 ≤ d.w p := by
  obtain ⟨h1, h2, h3, h4⟩ := h
  cases d with
  | inst => simp [Dim.w]
  | ram => exact h1
  | cores => exact h2
  | vol => simp only [Dim.w, volume]; split <;> omega

/-- what is used -/
theorem used_eq (s : S) (h : ∀ p ∈ s.spawns, Sane p.flavor p.disk p.real) (d : Dim) :
    d.used s.getQuota = d.used s.quota + total (fun p => if p.alive then d.w p else 0) s.spawns ∧ d.max s.getQuota = d.max s.quota := by
  cases d with
  | inst => exact ⟨rfl, rfl⟩
  | ram => exact ⟨rfl, rfl⟩
  | cores => exact ⟨rfl, rfl⟩
  | vol =>
    refine ⟨?_, rfl⟩
    simp only [Dim.used, S.getQuota, Dim.w]
    rw [total_congr _ (fun p => if p.alive then volume p.flavor p.disk else 0)]
    intro p hp
    rw [(h p hp).2.2.2]

theorem fits_dim {q : Quota} {u : Use} {f : Flv} {disk n : Int} (h : FitsQuota q u f disk n) (d : Dim) (p : Sp) (hf : p.flavor = f) (hd : p.disk = disk)
    (hm : 0 < d.max q) : d.used q + d.reserved u + n * d.w p ≤ d.max q ∨ d.w p = 0 := by
  obtain ⟨h1, h2, h3, h4⟩ := h
  cases d with
  | inst => left; have := h1 hm; simp only [Dim.used, Dim.reserved, Dim.w, Dim.max] at *; omega
  | ram => left; simpa [Dim.used, Dim.reserved, Dim.w, Dim.max, hf] using h2 hm
  | cores => left; simpa [Dim.used, Dim.reserved, Dim.w, Dim.max, hf] using h3 hm
  | vol =>
    by_cases hv : disk > f.disk
    · left; simpa [Dim.used, Dim.reserved, Dim.w, Dim.max, volume, hf, hd, hv] using h4 hm hv
    · right; simp [Dim.w, volume, hf, hd, hv]

theorem room_step {s s' : S} {ev : Ev} (h : step s ev = some s') (hc : Calm s ev) (i : Inv s) (r : Room s) : Room s' := by
  rcases step_cases h with rfl | ⟨cmd, f, disk, real, desired, per, n, rfl, hq, hn, _, rfl⟩ | ⟨_, rfl⟩ | ⟨k, p, p', u', hp, ha, rfl⟩
  · exact r
  · obtain ⟨hs, hst⟩ := hc
    obtain ⟨hn1, hfit⟩ := C51_quota _ _ _ _ _ hs.1 hs.2.1 hs.2.2.1 hq hn
    constructor
    · intro p hp
      rcases List.mem_append.1 hp with hp | hp
      · exact r.sane p hp
      · rw [(List.mem_replicate.1 hp).2]; exact hs
    · intro d hm
      simp only at hm ⊢
      rw [total_append, total_replicate]
      have hw : 0 ≤ d.w { cmd, flavor := f, disk, real } := w_nonneg d _ hs
      have ht := todo_le desired per n (s.spawningCmd cmd) s.simul s.spawningTotal (by omega)
      have hmul := Int.mul_le_mul_of_nonneg_right ht hw
      have hcnt : counts { cmd, flavor := f, disk, real } = true := rfl
      simp only [hcnt, if_true]
      obtain ⟨e1, e2⟩ := used_eq s r.sane d
      rcases fits_dim hfit d { cmd, flavor := f, disk, real } rfl rfl (by rw [e2]; exact hm) with hf | hf
      · rw [e1, e2] at hf
        have hr : d.reserved s.getUse = total (fun p => if p.held then d.w p else 0) s.spawns := by
          rw [← i.res d]; cases d <;> rfl
        rw [hr] at hf
        have hle : total (fun p => if counts p then d.w p else 0) s.spawns ≤
            total (fun p => (if p.alive then d.w p else 0) + (if p.held then d.w p else 0)) s.spawns := by
          apply total_le
          intro p hp
          have := w_nonneg d p (r.sane p hp)
          have hs := hst p hp
          unfold counts
          cases p.alive <;> cases p.held <;> simp [hs] <;> omega
        rw [total_add] at hle
        omega
      · have := r.room d hm
        rw [hf] at hmul ⊢; simp at hmul ⊢; omega
  · constructor
    · intro p hp
      obtain ⟨q, hq, rfl⟩ := List.mem_map.1 hp
      exact r.sane q hq
    · intro d hm
      simp only
      rw [total_map]
      have := r.room d hm
      cases d <;> exact this
  · have hmem : p ∈ s.spawns := List.mem_of_getElem? hp
    obtain ⟨e1, e2, e3, _⟩ := act_sizes ha
    constructor
    · intro q hq
      rcases List.mem_or_eq_of_mem_set hq with hq | rfl
      · exact r.sane q hq
      · rw [e1, e2, e3]; exact r.sane p hmem
    · intro d hm
      simp only
      rw [total_set _ _ _ _ _ hp]
      have := r.room d hm
      have hw := w_nonneg d p (r.sane p hmem)
      have hw' : d.w p' = d.w p := by cases d <;> simp [Dim.w, e1, e2]
      have hcc := act_counts ha (i.flags p hmem)
      rw [hw']
      cases c1 : counts p' <;> cases c2 : counts p <;> simp_all <;> omega

private theorem room_run {s' : S} (es : List Ev) : ∀ {s}, Along Calm s es → Inv s → Room s → run s es = some s' → Inv s' ∧ Room s' := by
  induction es with
  | nil => intro s _ i r e; simp [run] at e; subst e; exact ⟨i, r⟩
  | cons a es ih =>
    intro s hc i r e
    simp only [run, Option.bind_eq_some_iff] at e
    obtain ⟨t, h1, h2⟩ := e
    exact ih (hc.2 t h1) (inv_step h1 i) (room_step h1 hc.1 i r) h2

/-- C71, for histories in which no more servers are spawned while a goroutine started for that has yet to make its reservation, and the image
asks for no more disk than the command: the quotas are never exceeded. Missing: such histories, for which it is false (below). -/
theorem C71_partial (s s' : S) (es : List Ev) (hi : Init s) (hc : Along Calm s es) (h : run s es = some s') : WithinQuota s'.getQuota := by
  have r0 : Room s := by
    constructor
    · intro p hp; rw [hi.none] at hp; simp at hp
    · intro d hm
      rw [hi.none]
      obtain ⟨h1, h2, h3, h4⟩ := hi.quota
      cases d <;> simp only [total, Dim.used, Dim.max] at * <;> simp <;> (first | exact h1 hm | exact h2 hm | exact h3 hm | exact h4 hm)
  obtain ⟨i, r⟩ := room_run es hc (inv_init hi) r0 h
  have key : ∀ d : Dim, 0 < d.max s'.getQuota → d.used s'.getQuota ≤ d.max s'.getQuota := by
    intro d hm
    obtain ⟨e1, e2⟩ := used_eq s' r.sane d
    rw [e2] at hm ⊢
    rw [e1]
    have h1 := r.room d hm
    have h2 : total (fun p => if p.alive then d.w p else 0) s'.spawns ≤ total (fun p => if counts p then d.w p else 0) s'.spawns := by
      apply total_le
      intro p hp
      have := w_nonneg d p (r.sane p hp)
      unfold counts
      cases p.alive <;> cases p.held <;> cases p.started <;> simp <;> omega
    omega
  exact ⟨key .inst, key .ram, key .cores, key .vol⟩

/-! ### The configured maximum -/

private structure Below (s : S) : Prop where
  le : s.use.servers + total (fun p => if counts p then 1 else 0) s.spawns ≤ s.use.quotaMaxInstances

private theorem below_step {s s' : S} {ev : Ev} (h : step s ev = some s') (hc : Quiet s ev) (i : Inv s) (b : Below s) : Below s' := by
  obtain ⟨b⟩ := b
  rcases step_cases h with rfl | ⟨cmd, f, disk, real, desired, per, n, rfl, hq, hn, _, rfl⟩ | ⟨_, rfl⟩ | ⟨k, p, p', u', hp, ha, rfl⟩
  · exact ⟨b⟩
  · obtain ⟨hs, hst, hm1, hm2⟩ := hc
    obtain ⟨hn1, _⟩ := C51_quota _ _ _ _ _ hs.1 hs.2.1 hs.2.2.1 hq hn
    have hfit := C51_max_partial _ _ _ _ _ hs.1 hs.2.1 hs.2.2.1 (by exact hm2) hq hn hm1
    constructor
    simp only
    rw [total_append, total_replicate]
    have ht := todo_le desired per n (s.spawningCmd cmd) s.simul s.spawningTotal (by omega)
    have hcnt : counts { cmd, flavor := f, disk, real } = true := rfl
    simp only [hcnt, if_true]
    have hr := i.res .inst
    simp only [Dim.reserved, Dim.w] at hr
    simp only [S.getUse] at hfit
    rw [hr] at hfit
    have hle : total (fun p => if counts p then 1 else 0) s.spawns ≤
        total (fun p => (if p.registered then 1 else 0) + (if p.held then 1 else 0)) s.spawns := by
      apply total_le
      intro p hp
      obtain ⟨h1, h2⟩ := hst p hp
      unfold counts
      cases ha : p.alive <;> cases hh : p.held <;> cases hg : p.registered <;> simp [h1]
      rcases h2 ha with e | e
      · rw [hg] at e; cases e
      · rw [hh] at e; cases e
    rw [total_add] at hle
    omega
  · constructor
    simp only
    rw [total_map]
    exact b
  · have hmem : p ∈ s.spawns := List.mem_of_getElem? hp
    have e := act_sizes ha
    constructor
    simp only
    rw [total_set _ _ _ _ _ hp, e.2.2.2.2.2.2.2.2, e.2.2.2.2.2.2.2.1]
    have hcc := act_counts ha (i.flags p hmem)
    cases c1 : counts p' <;> cases c2 : counts p <;> simp_all <;> omega

private theorem below_run {s' : S} (es : List Ev) : ∀ {s}, Along Quiet s es → Inv s → Below s → run s es = some s' → Below s' := by
  induction es with
  | nil => intro s _ i r e; simp [run] at e; subst e; exact r
  | cons a es ih =>
    intro s hc i r e
    simp only [run, Option.bind_eq_some_iff] at e
    obtain ⟨t, h1, h2⟩ := e
    exact ih (hc.2 t h1) (inv_step h1 i) (below_step h1 hc.1 i r) h2

/-- C71, for histories in which more servers are spawned only when all that exist are registered or still reserved: there are never more servers
than configured. Missing: other histories, for which it is false (below). -/
theorem C71_max_partial (s s' : S) (es : List Ev) (hi : Init s) (h0 : s.use.servers ≤ s.use.quotaMaxInstances) (hc : Along Quiet s es)
    (h : run s es = some s') : s'.servers ≤ s'.use.quotaMaxInstances := by
  have := below_run es hc (inv_init hi) ⟨by rw [hi.none]; simp [total]; exact h0⟩ h
  obtain ⟨b⟩ := this
  unfold S.servers
  rw [← total_filter]
  have h2 : total (fun p => if p.alive then 1 else 0) s'.spawns ≤ total (fun p => if counts p then 1 else 0) s'.spawns := by
    apply total_le
    intro p hp
    unfold counts
    cases p.alive <;> cases p.held <;> cases p.started <;> simp
  omega

/-! ### C73 -/

/-- the number of spawns going on -/
def S.going (s : S) : Nat := (s.spawns.filter fun p => !p.done).length

private theorem going_eq (s : S) : s.spawningTotal = s.going := by
  unfold S.spawningTotal S.going
  rw [← total_filter]
  apply total_congr
  intro p _
  cases p.done <;> simp

private theorem simul_step {s s' : S} {ev : Ev} (h : step s ev = some s') : s'.simul = s.simul ∧
    (0 < s.simul → s.spawningTotal ≤ s.simul → s'.spawningTotal ≤ s'.simul) := by
  rcases step_cases h with rfl | ⟨cmd, f, disk, real, desired, per, n, rfl, hq, hn, _, rfl⟩ | ⟨_, rfl⟩ | ⟨k, p, p', u', hp, ha, rfl⟩
  · exact ⟨rfl, fun _ h => h⟩
  · refine ⟨rfl, fun h1 h2 => ?_⟩
    have := todo_simul desired per n (s.spawningCmd cmd) s.simul s.spawningTotal h1 h2
    generalize (todo desired per n (s.spawningCmd cmd) s.simul s.spawningTotal).toNat = t at *
    unfold S.spawningTotal at *
    simp only
    rw [total_append, total_replicate]
    simp only [Bool.false_eq_true, if_false]
    omega
  · refine ⟨rfl, fun _ h => ?_⟩
    unfold S.spawningTotal
    simp only
    rw [total_map]; exact h
  · refine ⟨rfl, fun _ h => ?_⟩
    unfold S.spawningTotal at *
    simp only
    rw [total_set _ _ _ _ _ hp]
    have := (act_sizes ha).2.2.2.2.2.1
    cases h1 : p.done <;> cases h2 : p'.done <;> simp_all <;> omega

/-- C73: with a configured number of simultaneous spawns, there are never more spawns going on than that, whatever the steps interleave like. -/
theorem C73 (s s' : S) (es : List Ev) (hi : Init s) (hs : 0 < s.simul) (h : run s es = some s') : (s'.going : Int) ≤ s.simul := by
  have key : ∀ (es : List Ev) (s : S), 0 < s.simul → s.spawningTotal ≤ s.simul → run s es = some s' → s'.spawningTotal ≤ s.simul := by
    intro es
    induction es with
    | nil => intro s _ h0 h; simp [run] at h; subst h; exact h0
    | cons a es ih =>
      intro s h1 h0 h
      simp only [run, Option.bind_eq_some_iff] at h
      obtain ⟨t, ht, h⟩ := h
      obtain ⟨e1, e2⟩ := simul_step ht
      rw [← e1]
      exact ih t (by rw [e1]; exact h1) (e2 h1 h0) h
  rw [← going_eq]
  refine key es s hs ?_ h
  unfold S.spawningTotal; rw [hi.none]; simp [total]; omega

/-- the number of spawns going on for the command -/
def S.goingFor (s : S) (cmd : String) : Nat := (s.spawns.filter fun p => !p.done && p.cmd == cmd).length

private theorem goingFor_eq (s : S) (cmd : String) : s.spawningCmd cmd = s.goingFor cmd := by
  unfold S.spawningCmd S.goingFor
  rw [← total_filter]
  apply total_congr
  intro p _
  cases p.done <;> simp

/-- C73: no more is spawned for a command than what it takes for the desired number of runs, given how many run on one server. -/
theorem C73_needed (s s' : S) (cmd : String) (f : Flv) (disk real desired per : Int) (h : step s (.spawnMultiple cmd f disk real desired per) = some s') (hp : 0 < per)
    (hd : 0 ≤ desired) :
    s'.goingFor cmd = s.goingFor cmd ∨ (((s'.goingFor cmd : Int) - 1) * per < desired) := by
  rcases step_cases h with rfl | ⟨cmd', f', disk', real', desired', per', n, e, hq, hn, _, rfl⟩ | ⟨e, _⟩ | ⟨k, p, p', u', _, ha, _⟩
  · exact Or.inl rfl
  · injection e with e1 e2 e3 e4 e5 e6
    subst e1 e2 e3 e4 e5 e6
    have ht := todo_needed desired per n (s.spawningCmd cmd) s.simul s.spawningTotal
    generalize (todo desired per n (s.spawningCmd cmd) s.simul s.spawningTotal).toNat = t at *
    have hg : ((S.goingFor { s with spawns := s.spawns ++ List.replicate t { cmd, flavor := f, disk, real } } cmd : Nat) : Int) = s.goingFor cmd + t := by
      rw [← goingFor_eq, ← goingFor_eq]
      unfold S.spawningCmd
      simp only
      rw [total_append, total_replicate]; simp
    rw [goingFor_eq] at ht
    by_cases h0 : t = 0
    · left; rw [h0] at hg ⊢; omega
    · right
      rw [hg]
      have h1 : (s.goingFor cmd : Int) + t ≤ -(Int.fdiv (-desired) per) := by omega
      have h2 : Int.fdiv (-desired) per = (-desired) / per := Int.fdiv_eq_ediv_of_nonneg _ (by omega)
      rw [h2] at h1
      have h3 : (-desired) / per * per ≤ -desired := Int.ediv_mul_le _ (by omega)
      have h4 : -desired < ((-desired) / per + 1) * per := Int.lt_ediv_add_one_mul_self _ hp
      have h5 : ((s.goingFor cmd : Int) + t - 1) ≤ -((-desired) / per) - 1 := by omega
      have h6 := Int.mul_le_mul_of_nonneg_right h5 (by omega : 0 ≤ per)
      have h7 : (-((-desired) / per) - 1) * per = -(((-desired) / per + 1) * per) := by
        rw [← Int.neg_mul]; congr 1; omega
      omega
  · cases e
  · unfold act at ha; simp at ha

/-! ### C74 -/

/-- nothing goes on any more: every spawn returned, and every callback that was asked for was made -/
def S.settled (s : S) : Prop := ∀ p ∈ s.spawns, p.done = true ∧ (p.requested = true → p.held = false)

/-- the event is not that of an unknown image or flavor -/
def Known (_ : S) : Ev → Prop
  | .unknown _ => False
  | _ => True

private theorem asked_step {s s' : S} {ev : Ev} (h : step s ev = some s') (hk : Known s ev) (hd : ∀ p ∈ s.spawns, p.done = true → p.requested = true) :
    ∀ p ∈ s'.spawns, p.done = true → p.requested = true := by
  rcases step_cases h with rfl | ⟨cmd, f, disk, real, desired, per, n, rfl, hq, hn, _, rfl⟩ | ⟨_, rfl⟩ | ⟨k, p, p', u', hp, ha, rfl⟩
  · exact hd
  · intro p hp
    rcases List.mem_append.1 hp with hp | hp
    · exact hd p hp
    · rw [(List.mem_replicate.1 hp).2]; simp
  · intro p hp
    obtain ⟨q, hq, rfl⟩ := List.mem_map.1 hp
    exact hd q hq
  · intro q hq
    rcases List.mem_or_eq_of_mem_set hq with hq | rfl
    · exact hd q hq
    · have := hd p (List.mem_of_getElem? hp)
      unfold act at ha
      cases ev <;> simp only [Known] at hk <;> simp only at ha <;> (try split at ha) <;> simp at ha
      all_goals
        obtain ⟨ha, _⟩ := ha
        subst ha
        simp_all

/-- C74, if image and flavor are known for every spawn: when all is settled, no reservation is left. Missing: unknown images and flavors, for which it is
false (below). -/
theorem C74_partial (s s' : S) (es : List Ev) (hi : Init s) (hk : Along Known s es) (h : run s es = some s') (hs : s'.settled) :
    s'.use.reservedInstances = 0 ∧ s'.use.reservedRAM = 0 ∧ s'.use.reservedCores = 0 ∧ s'.use.reservedVolume = 0 := by
  have key : ∀ (es : List Ev) (s : S), Along Known s es → Inv s → (∀ p ∈ s.spawns, p.done = true → p.requested = true) → run s es = some s' →
      Inv s' ∧ ∀ p ∈ s'.spawns, p.done = true → p.requested = true := by
    intro es
    induction es with
    | nil => intro s _ i h0 h; simp [run] at h; subst h; exact ⟨i, h0⟩
    | cons a es ih =>
      intro s hk i h0 h
      simp only [run, Option.bind_eq_some_iff] at h
      obtain ⟨t, ht, h⟩ := h
      exact ih t (hk.2 t ht) (inv_step ht i) (asked_step ht hk.1 h0) h
  obtain ⟨i, hd⟩ := key es s hk (inv_init hi) (by intro p hp; rw [hi.none] at hp; simp at hp) h
  have hz : ∀ d : Dim, d.reserved s'.use = 0 := by
    intro d
    rw [i.res d, total_congr _ (fun _ => 0)]
    · generalize s'.spawns = l
      induction l with
      | nil => rfl
      | cons a l ih => simp only [total, ih]; rfl
    · intro p hp
      obtain ⟨h1, h2⟩ := hs p hp
      rw [h2 (hd p hp h1)]; rfl
  exact ⟨hz .inst, hz .ram, hz .cores, hz .vol⟩

/-- a spawn of an unknown image -/
private def Stuck (s : S) : Prop := ∃ p, s.spawns[0]? = some p ∧ p.started = true ∧ p.held = true ∧ p.requested = false ∧ p.done = true

private theorem stuck_step {s s' : S} {ev : Ev} (h : step s ev = some s') (hk : Stuck s) : Stuck s' := by
  obtain ⟨q, hq, h1, h2, h3, h4⟩ := hk
  have hl : 0 < s.spawns.length := (List.getElem?_eq_some_iff.1 hq).1
  rcases step_cases h with rfl | ⟨cmd, f, disk, real, desired, per, n, rfl, _, hn, _, rfl⟩ | ⟨_, rfl⟩ | ⟨k, p, p', u', hp, ha, rfl⟩
  · exact ⟨q, hq, h1, h2, h3, h4⟩
  · exact ⟨q, by simp only; rw [List.getElem?_append_left hl]; exact hq, h1, h2, h3, h4⟩
  · exact ⟨{ q with registered := q.done && q.alive }, by simp [hq], h1, h2, h3, h4⟩
  · by_cases e : k = 0
    · subst e
      rw [hq] at hp
      injection hp with hp
      subst hp
      refine ⟨p', by simp [List.getElem?_set, hl], ?_⟩
      unfold act at ha
      cases ev <;> simp [h1, h2, h3, h4] at ha
      all_goals
        obtain ⟨_, ha, _⟩ := ha
        subst ha
        simp_all
    · exact ⟨q, by simp only; rw [List.getElem?_set_ne e]; exact hq, h1, h2, h3, h4⟩

private def s0 : S := { quota := ⟨10, 100, 100, 100, 1, 10, 2, 0⟩, use := { quotaMaxInstances := 3, servers := 1 }, simul := 5 }
private def fa : Flv := ⟨"a", "a", 1, 10, 5⟩

private theorem s0_init : Init s0 := by constructor <;> first | rfl | (unfold WithinQuota; decide)

/-- The code violates C74: after a spawn with an unknown image, one instance stays reserved whatever happens later. -/
theorem C74_violated : ∃ s s', Init s ∧ (∃ es, run s es = some s') ∧ ∀ es s'', run s' es = some s'' → 1 ≤ s''.use.reservedInstances := by
  refine ⟨s0, _, s0_init, ⟨[.spawnMultiple "c" fa 5 5 1 1, .start 0, .unknown 0], rfl⟩, ?_⟩
  have key : ∀ (es : List Ev) (s s'' : S), Stuck s → Inv s → run s es = some s'' → 1 ≤ s''.use.reservedInstances := by
    intro es
    induction es with
    | nil =>
      intro s s'' hs i h
      simp [run] at h; subst h
      obtain ⟨q, hq, _, h2, _⟩ := hs
      have := i.res .inst
      simp only [Dim.reserved, Dim.w] at this
      rw [this]
      cases hl : s.spawns with
      | nil => rw [hl] at hq; simp at hq
      | cons a l =>
        rw [hl] at hq; simp at hq; subst hq
        have := total_nonneg (fun p => if p.held then 1 else 0) l (by intro p _; split <;> omega)
        simp only [total, h2, if_true]; omega
    | cons a es ih =>
      intro s s'' hs i h
      simp only [run, Option.bind_eq_some_iff] at h
      obtain ⟨t, ht, h⟩ := h
      exact ih t s'' (stuck_step ht hs) (inv_step ht i) h
  intro es s'' h
  refine key es _ s'' ⟨_, rfl, rfl, rfl, rfl, rfl⟩ ?_ h
  have i1 := inv_init s0_init
  have i2 := inv_step (ev := .spawnMultiple "c" fa 5 5 1 1) (s' := _) rfl i1
  have i3 := inv_step (ev := .start 0) (s' := _) rfl i2
  exact inv_step (ev := .unknown 0) (s' := _) rfl i3

/-! ### Cases -/

/-- checks of the hypotheses for concrete histories -/
private def calmB (s : S) : Ev → Bool
  | .spawnMultiple _ f disk real _ _ => decide (0 ≤ f.ram ∧ 0 ≤ f.cores ∧ 0 ≤ f.disk ∧ real = disk) && s.spawns.all (·.started)
  | _ => true

private def quietB (s : S) : Ev → Bool
  | .spawnMultiple _ f disk real _ _ => decide (0 ≤ f.ram ∧ 0 ≤ f.cores ∧ 0 ≤ f.disk ∧ real = disk) &&
      s.spawns.all (fun p => p.started && (!p.alive || p.registered || p.held)) && decide (-1 < s.use.quotaMaxInstances ∧ s.use.quotaMaxInstances < s.quota.maxInstances)
  | _ => true

private def alongB (P : S → Ev → Bool) : S → List Ev → Bool
  | _, [] => true
  | s, e :: es => P s e && match step s e with | none => true | some s' => alongB P s' es

private theorem alongB_sound {P : S → Ev → Prop} {B : S → Ev → Bool} (hb : ∀ s e, B s e = true → P s e) (es : List Ev) : ∀ s, alongB B s es = true → Along P s es := by
  induction es with
  | nil => intro s _; trivial
  | cons e es ih =>
    intro s h
    simp only [alongB, Bool.and_eq_true] at h
    refine ⟨hb _ _ h.1, ?_⟩
    intro s' hs
    rw [hs] at h
    exact ih s' h.2

private theorem calmB_sound (s : S) (e : Ev) (h : calmB s e = true) : Calm s e := by
  cases e <;> simp [calmB, Calm, Sane] at * ; exact h

private theorem quietB_sound (s : S) (e : Ev) (h : quietB s e = true) : Quiet s e := by
  cases e <;> simp [quietB, Quiet, Sane] at *
  obtain ⟨⟨h1, h2⟩, h3⟩ := h
  refine ⟨h1, ?_, h3⟩
  intro p hp
  obtain ⟨a, b⟩ := h2 p hp
  refine ⟨a, ?_⟩
  intro ha
  rcases b with (b | b) | b
  · rw [ha] at b; cases b
  · exact Or.inl b
  · exact Or.inr b

/-- A non-trivial case: two servers come up, one is destroyed, and another one is spawned. -/
example : ∃ es s', Along Calm s0 es ∧ Along Quiet s0 es ∧ Along Known s0 es ∧ run s0 es = some s' ∧ s'.settled ∧ s'.servers = 3 := by
  refine ⟨[.spawnMultiple "c" fa 7 7 9 3, .start 0, .start 1, .request 0 true, .callback 0, .request 1 true, .finish 0 true, .callback 1, .finish 1 true, .stateUpdate,
    .destroy 0, .stateUpdate, .spawnMultiple "c" fa 7 7 1 3, .start 2, .request 2 true, .callback 2, .finish 2 true], _, ?_, ?_, ?_, rfl, ?_, by decide⟩
  · exact alongB_sound calmB_sound _ _ (by decide)
  · exact alongB_sound quietB_sound _ _ (by decide)
  · exact alongB_sound (B := fun _ e => match e with | .unknown _ => false | _ => true) (by intro s e h; cases e <;> simp_all [Known]) _ _ (by decide)
  · unfold S.settled; decide

/-- The code violates C71: called again before the goroutines started the first time have made their reservations, `spawnMultiple` spawns more
than there is quota for. -/
theorem C71_violated_race : ∃ s es s', Init s ∧ run s es = some s' ∧ ¬ WithinQuota s'.getQuota := by
  refine ⟨{ quota := ⟨3, 0, 0, 0, 1, 10, 2, 0⟩, use := { quotaMaxInstances := 3, servers := 1 } },
    [.spawnMultiple "c" fa 5 5 2 1, .spawnMultiple "d" fa 5 5 2 1, .start 0, .start 1, .start 2, .start 3, .request 0 true, .request 1 true, .request 2 true, .request 3 true], _, ?_, rfl, ?_⟩
  · constructor <;> first | rfl | (unfold WithinQuota; decide)
  · unfold WithinQuota; decide

/-- The code violates C71: between the moment a server exists and the moment it is registered it is not counted against the configured maximum,
so that more get spawned. -/
theorem C71_violated_max : ∃ s es s', Init s ∧ s.use.servers ≤ s.use.quotaMaxInstances ∧ 0 ≤ s.use.quotaMaxInstances ∧
    s.use.quotaMaxInstances < s.quota.maxInstances ∧ Along Calm s es ∧ run s es = some s' ∧ s'.use.quotaMaxInstances < s'.servers := by
  refine ⟨s0, [.spawnMultiple "c" fa 5 5 2 1, .start 0, .start 1, .request 0 true, .request 1 true, .callback 0, .callback 1,
    .spawnMultiple "d" fa 5 5 2 1, .start 2, .start 3, .request 2 true, .request 3 true], _, s0_init, by decide, by decide, by decide, ?_, rfl, by decide⟩
  exact alongB_sound calmB_sound _ _ (by decide)

/-- The code violates C71: the size of the disk that the image asks for is not taken into account, so that the quota of volumes is exceeded. -/
theorem C71_violated_volume : ∃ s es s', Init s ∧ run s es = some s' ∧ (∀ p ∈ s'.spawns, p.started = true) ∧ s'.spawns.length = 1 ∧ ¬ WithinQuota s'.getQuota := by
  refine ⟨{ s0 with quota := ⟨10, 100, 100, 30, 1, 10, 2, 0⟩ }, [.spawnMultiple "c" fa 5 50 1 1, .start 0, .request 0 true], _, ?_, rfl, by decide, by decide, ?_⟩
  · constructor <;> first | rfl | (unfold WithinQuota; decide)
  · unfold WithinQuota; decide

end Verif.Sched.Spawn
