import Verif.Client.Files
/-!
# Lemmas for C88: paths, and removal with exceptions
-/
namespace Verif.Client.Files
open Verif.Server.Groups (Str)

namespace Spec

/-- in a directory, or deeper -/
def Below (p q : Path) : Prop := p <+: q ∧ p ≠ q

instance (p q : Path) : Decidable (Below p q) := inferInstanceAs (Decidable (_ ∧ _))

/-- a file system: there is one entry for a path, and every entry is in a directory -/
structure Tree (fs : FS) : Prop where
  one : (fs.map (·.1)).Nodup
  root : ∀ e ∈ fs, e.1 ≠ []
  dirs : ∀ e ∈ fs, e.1.dropLast = [] ∨ (e.1.dropLast, Kind.dir) ∈ fs

end Spec
open Spec

theorem Spec.Below.pre {p q : Path} (h : Below p q) : p <+: q := h.1

theorem Spec.Below.length {p q : Path} (h : Below p q) : p.length < q.length := by
  have h1 := h.1.length_le
  have h2 : p.length ≠ q.length := fun e => h.2 (h.1.eq_of_length e)
  omega

theorem below_of {p q : Path} (h : p <+: q) (hl : p.length < q.length) : Below p q :=
  ⟨h, fun e => by rw [e] at hl; omega⟩

theorem Spec.Below.trans_pre {p q r : Path} (h : Below p q) (h' : q <+: r) : Below p r :=
  below_of (h.1.trans h') (Nat.lt_of_lt_of_le h.length h'.length_le)

theorem pre_below {p q r : Path} (h : p <+: q) (h' : Below q r) : Below p r :=
  below_of (h.trans h'.1) (Nat.lt_of_le_of_lt h.length_le h'.length)

theorem pre_cases {p q r : Path} (h : p <+: r) (h' : q <+: r) : (p.length ≤ q.length ∧ p <+: q) ∨ (q.length < p.length ∧ Below q p) := by
  by_cases hl : p.length ≤ q.length
  · exact .inl ⟨hl, List.prefix_of_prefix_length_le h h' hl⟩
  · have hl : q.length < p.length := by omega
    exact .inr ⟨hl, below_of (List.prefix_of_prefix_length_le h' h (by omega)) hl⟩

theorem pre_dropLast {p q : Path} (h : Below p q) : p <+: q.dropLast := by
  refine List.prefix_of_prefix_length_le h.1 (List.dropLast_prefix q) ?_
  rw [List.length_dropLast]
  have := h.length
  omega

theorem dropLast_below {p : Path} (h : p ≠ []) : Below p.dropLast p := by
  refine below_of (List.dropLast_prefix p) ?_
  rw [List.length_dropLast]
  have := List.length_pos_iff.2 h
  omega

/-! ## removal with exceptions -/

/-- every entry below `c` is in a directory below `c`, or in `c` -/
def Closed (c : Path) (fs : FS) : Prop := ∀ e ∈ fs, Below c e.1 → e.1.dropLast = c ∨ (e.1.dropLast, Kind.dir) ∈ fs

theorem mem_children {p : Path} {fs : FS} {e : Entry} : e ∈ children p fs ↔ e ∈ fs ∧ e.1.length = p.length + 1 ∧ p <+: e.1 := by
  unfold children
  rw [List.mem_filter]
  simp [List.isPrefixOf_iff_prefix]

theorem mem_removeAll {p : Path} {fs : FS} {e : Entry} : e ∈ removeAll p fs ↔ e ∈ fs ∧ ¬ p <+: e.1 := by
  unfold removeAll
  rw [List.mem_filter]
  simp [← List.isPrefixOf_iff_prefix]

theorem closed_child {p c : Path} {fs : FS} (h : Closed p fs) (hc : Below p c) : Closed c fs := by
  intro e he hb
  rcases h e he (pre_below hc.1 hb) with h1 | h1
  · have h2 := pre_dropLast hb
    rw [h1] at h2
    have := h2.length_le
    have := hc.length
    omega
  · exact .inr h1

/-- the entry in `p` that an entry below `p` is at or below -/
theorem ancestor {p : Path} {fs : FS} (h : Closed p fs) : ∀ (n : Nat) (e : Entry), e.1.length = p.length + 1 + n → e ∈ fs → Below p e.1 →
    ∃ c ∈ children p fs, c.1 <+: e.1 ∧ (c = e ∨ (c.2 = .dir ∧ Below c.1 e.1)) := by
  intro n
  induction n with
  | zero => exact fun e hl he hb => ⟨e, mem_children.2 ⟨he, hl, hb.1⟩, List.prefix_refl _, .inl rfl⟩
  | succ n ih =>
    intro e hl he hb
    have hne : e.1 ≠ [] := by intro e0; rw [e0] at hl; simp at hl
    rcases h e he hb with h1 | h1
    · have : e.1.dropLast.length = p.length + 1 + n := by rw [List.length_dropLast]; omega
      rw [h1] at this
      omega
    · have hd := dropLast_below hne
      have hl' : e.1.dropLast.length = p.length + 1 + n := by rw [List.length_dropLast]; omega
      have hb' : Below p e.1.dropLast := below_of (pre_dropLast hb) (by omega)
      obtain ⟨c, hc, h2, h3⟩ := ih (e.1.dropLast, .dir) hl' h1 hb'
      refine ⟨c, hc, h2.trans hd.1, .inr ?_⟩
      rcases h3 with h3 | h3
      · rw [h3]; exact ⟨rfl, hd⟩
      · exact ⟨h3.1, h3.2.trans_pre hd.1⟩

/-- what is kept: the directories to keep with all they contain, and the directories on the way to them -/
def Stay (keep check : List Path) (e : Entry) : Prop :=
  (∃ d ∈ keep, (d = e.1 ∧ e.2 = .dir) ∨ Below d e.1) ∨ (e.2 = .dir ∧ e.1 ∈ check)

/-- what the handling of one entry `c` keeps -/
def F (keep check : List Path) (c e : Entry) : Prop :=
  match c.2 with
  | .file => e.1 ≠ c.1
  | .dir => if c.1 ∈ keep then True else if c.1 ∈ check then (Below c.1 e.1 → Stay keep check e) else ¬ c.1 <+: e.1

theorem F_far {keep check : List Path} {c e : Entry} (h : ¬ c.1 <+: e.1) : F keep check c e := by
  unfold F
  split
  · exact fun he => h (by rw [he]; exact List.prefix_refl _)
  · split
    · trivial
    · split
      · exact fun hb => absurd hb.1 h
      · exact h

/-- one step of the loop -/
def stepWith (keep check : List Path) (n : Nat) (fs : FS) (e : Entry) : FS :=
  match e.2 with
  | .file => fs.filter fun x => x.1 != e.1
  | .dir =>
    if e.1 ∈ keep then fs
    else if e.1 ∈ check then removeWith keep check n e.1 fs
    else removeAll e.1 fs

theorem removeWith_succ (keep check : List Path) (n : Nat) (p : Path) (fs : FS) :
    removeWith keep check (n + 1) p fs = (children p fs).foldl (stepWith keep check n) fs := rfl

theorem foldl_sub (f : FS → Entry → FS) (hf : ∀ fs e, (f fs e).Sublist fs) : ∀ (cs fs : FS), (cs.foldl f fs).Sublist fs := by
  intro cs
  induction cs with
  | nil => exact fun fs => List.Sublist.refl _
  | cons c cs ih => exact fun fs => (ih _).trans (hf fs c)

theorem removeWith_sub (keep check : List Path) : ∀ (n : Nat) (p : Path) (fs : FS), (removeWith keep check n p fs).Sublist fs := by
  intro n
  induction n with
  | zero => exact fun p fs => List.Sublist.refl _
  | succ n ih =>
    intro p fs
    rw [removeWith_succ]
    refine foldl_sub _ (fun fs e => ?_) _ _
    unfold stepWith
    split
    · exact List.filter_sublist
    · split
      · exact List.Sublist.refl _
      · split
        · exact ih _ _
        · exact List.filter_sublist

theorem stepWith_sub (keep check : List Path) (n : Nat) (fs : FS) (e : Entry) : (stepWith keep check n fs e).Sublist fs := by
  unfold stepWith
  split
  · exact List.filter_sublist
  · split
    · exact List.Sublist.refl _
    · split
      · exact removeWith_sub _ _ _ _ _
      · exact List.filter_sublist

def Uniq (fs : FS) : Prop := (fs.map (·.1)).Nodup

theorem Uniq.sub {fs fs' : FS} (h : Uniq fs) (hs : fs'.Sublist fs) : Uniq fs' := h.sublist (hs.map _)

theorem Uniq.one {fs : FS} (h : Uniq fs) : ∀ e ∈ fs, ∀ e' ∈ fs, e.1 = e'.1 → e = e' := by
  unfold Uniq at h
  induction fs with
  | nil => intro e he; cases he
  | cons a fs ih =>
    simp only [List.map_cons, List.nodup_cons] at h
    intro e he e' he' heq
    rcases List.mem_cons.1 he with h1 | h1 <;> rcases List.mem_cons.1 he' with h2 | h2
    · rw [h1, h2]
    · rw [h1] at heq; exact absurd (List.mem_map.2 ⟨e', h2, heq.symm⟩) h.1
    · rw [h2] at heq; exact absurd (List.mem_map.2 ⟨e, h1, heq⟩) h.1
    · exact ih h.2 e h1 e' h2 heq

theorem removeWith_mem (keep check : List Path) (root : Path)
    (hck : ∀ d ∈ keep, ∀ q, Below root q → Below q d → q ∈ check) (hkc : ∀ c ∈ check, Below root c ∧ ∃ d ∈ keep, Below c d) :
    ∀ (n : Nat) (p : Path) (fs : FS), root <+: p → (∀ d ∈ keep, ¬ d <+: p) → (∀ c ∈ check, c.length < p.length + n) → (n = 0 → p ∈ check) →
      Uniq fs → Closed p fs → ∀ e, e ∈ removeWith keep check n p fs ↔ e ∈ fs ∧ (Below p e.1 → Stay keep check e) := by
  intro n
  induction n with
  | zero =>
    intro p fs _ _ hl hz
    have := hl p (hz rfl)
    omega
  | succ n ih =>
    intro p fs hroot hnk hlen _ hu hc e
    rw [removeWith_succ]
    have hch : ∀ c ∈ children p fs, c ∈ fs ∧ c.1.length = p.length + 1 ∧ p <+: c.1 := fun c h => mem_children.1 h
    have hb : ∀ c ∈ children p fs, Below p c.1 := fun c h => below_of (hch c h).2.2 (by rw [(hch c h).2.1]; omega)
    have hnk' : ∀ c ∈ children p fs, ∀ d ∈ keep, d <+: c.1 → d = c.1 := by
      intro c h d hd hp
      rcases pre_cases hp (hch c h).2.2 with ⟨_, h1⟩ | ⟨h1, _⟩
      · exact absurd h1 (hnk d hd)
      · refine hp.eq_of_length ?_
        have := hp.length_le
        have := (hch c h).2.1
        omega
    have key : ∀ (cs : FS), (∀ c ∈ cs, c ∈ children p fs) → ∀ fs', Uniq fs' → (∀ c ∈ cs, Closed c.1 fs') → (cs.map (·.1)).Nodup →
        ∀ e, e ∈ cs.foldl (stepWith keep check n) fs' ↔ e ∈ fs' ∧ ∀ c ∈ cs, F keep check c e := by
      intro cs
      induction cs with
      | nil => intro _ fs' _ _ _ e; simp
      | cons c cs ihc =>
        intro hcs fs' ho hcl hn e
        simp only [List.map_cons, List.nodup_cons] at hn
        have hcm := hcs c (List.mem_cons_self ..)
        have hs : ∀ e, e ∈ stepWith keep check n fs' c ↔ e ∈ fs' ∧ F keep check c e := by
          intro e
          unfold stepWith F
          cases hk : c.2 with
          | file => simp [List.mem_filter]
          | dir =>
            simp only
            by_cases h1 : c.1 ∈ keep
            · rw [if_pos h1, if_pos h1]; simp
            · rw [if_neg h1, if_neg h1]
              by_cases h2 : c.1 ∈ check
              · rw [if_pos h2, if_pos h2]
                refine ih c.1 fs' (hroot.trans (hb c hcm).1) ?_ ?_ (fun _ => h2) ho (hcl c (List.mem_cons_self ..)) e
                · exact fun d hd hp => h1 ((hnk' c hcm d hd hp) ▸ hd)
                · intro q hq
                  have := hlen q hq
                  have := (hch c hcm).2.1
                  omega
              · rw [if_neg h2, if_neg h2]; exact mem_removeAll
        have ho' : Uniq (stepWith keep check n fs' c) := ho.sub (stepWith_sub _ _ _ _ _)
        have hc' : ∀ c' ∈ cs, Closed c'.1 (stepWith keep check n fs' c) := by
          intro c' hc' a ha hba
          rcases hcl c' (List.mem_cons_of_mem _ hc') a ((hs a).1 ha).1 hba with h1 | h1
          · exact .inl h1
          · refine .inr ((hs _).2 ⟨h1, F_far ?_⟩)
            intro hp
            have h2 : c'.1 <+: a.1.dropLast := pre_dropLast hba
            have e1 := (hch c hcm).2.1
            have e2 := (hch c' (hcs c' (List.mem_cons_of_mem _ hc'))).2.1
            have h3 : c.1 <+: c'.1 := List.prefix_of_prefix_length_le hp h2 (by omega)
            have h4 := h3.eq_of_length (by omega)
            exact hn.1 (List.mem_map.2 ⟨c', hc', h4.symm⟩)
        show e ∈ cs.foldl (stepWith keep check n) (stepWith keep check n fs' c) ↔ _
        rw [ihc (fun a ha => hcs a (List.mem_cons_of_mem _ ha)) _ ho' hc' hn.2 e, hs e]
        simp only [List.mem_cons, forall_eq_or_imp, and_assoc]
    rw [key _ (fun c h => h) fs hu (fun c h => closed_child hc (hb c h)) (hu.sublist (List.filter_sublist.map _)) e]
    refine and_congr_right fun he => ⟨fun hF hbe => ?_, fun hs c hcm => ?_⟩
    · have hl := hbe.length
      obtain ⟨c, hcm, hpre, hcase⟩ := ancestor hc (e.1.length - p.length - 1) e (by omega) he hbe
      have hFc := hF c hcm
      unfold F at hFc
      cases hk : c.2 with
      | file =>
        rw [hk] at hFc
        rcases hcase with h1 | h1
        · exact absurd (by rw [h1]) hFc
        · rw [hk] at h1; cases h1.1
      | dir =>
        rw [hk] at hFc
        simp only at hFc
        by_cases h1 : c.1 ∈ keep
        · refine .inl ⟨c.1, h1, ?_⟩
          rcases hcase with h2 | h2
          · exact .inl (by rw [← h2]; exact ⟨rfl, hk⟩)
          · exact .inr h2.2
        · rw [if_neg h1] at hFc
          by_cases h2 : c.1 ∈ check
          · rw [if_pos h2] at hFc
            rcases hcase with h3 | h3
            · exact .inr (by rw [← h3]; exact ⟨hk, h2⟩)
            · exact hFc h3.2
          · rw [if_neg h2] at hFc
            exact absurd hpre hFc
    · unfold F
      have hcfs := (hch c hcm).1
      cases hk : c.2 with
      | file =>
        intro heq
        have hec : e = c := hu.one e he c hcfs heq
        rcases hs (by rw [hec]; exact hb c hcm) with ⟨d, hd, h1 | h1⟩ | h1
        · rw [hec, hk] at h1; cases h1.2
        · rw [hec] at h1
          exact h1.2 (hnk' c hcm d hd h1.1)
        · rw [hec, hk] at h1; cases h1.1
      | dir =>
        simp only
        by_cases h1 : c.1 ∈ keep
        · rw [if_pos h1]; trivial
        · rw [if_neg h1]
          by_cases h2 : c.1 ∈ check
          · rw [if_pos h2]
            exact fun hbe => hs (pre_below (hb c hcm).1 hbe)
          · rw [if_neg h2]
            intro hp
            have hrc : Below root c.1 := pre_below hroot (hb c hcm)
            rcases hs ((hb c hcm).trans_pre hp) with ⟨d, hd, h3⟩ | h3
            · have hde : d <+: e.1 := by
                rcases h3 with h3 | h3
                · rw [h3.1]; exact List.prefix_refl _
                · exact h3.1
              rcases pre_cases hde hp with ⟨_, h4⟩ | ⟨_, h4⟩
              · exact h1 (hnk' c hcm d hd h4 ▸ hd)
              · exact h2 (hck d hd c.1 hrc h4)
            · obtain ⟨_, d, hd, h4⟩ := hkc _ h3.2
              exact h2 (hck d hd c.1 hrc (pre_below hp h4))

/-- what is not below the directory is not touched, whatever there is to keep -/
theorem removeWith_far (keep check : List Path) : ∀ (n : Nat) (p : Path) (fs : FS) (e : Entry), e ∈ fs → ¬ Below p e.1 →
    e ∈ removeWith keep check n p fs := by
  intro n
  induction n with
  | zero => exact fun p fs e he _ => he
  | succ n ih =>
    intro p fs e he hb
    rw [removeWith_succ]
    have key : ∀ (cs : FS), (∀ c ∈ cs, c ∈ children p fs) → ∀ fs', e ∈ fs' → e ∈ cs.foldl (stepWith keep check n) fs' := by
      intro cs
      induction cs with
      | nil => exact fun _ fs' h => h
      | cons c cs ihc =>
        intro hcs fs' h
        refine ihc (fun a ha => hcs a (List.mem_cons_of_mem _ ha)) _ ?_
        obtain ⟨_, h1, h2⟩ := mem_children.1 (hcs c (List.mem_cons_self ..))
        have hbc : Below p c.1 := below_of h2 (by omega)
        have hfar : ¬ c.1 <+: e.1 := fun hp => hb (hbc.trans_pre hp)
        unfold stepWith
        split
        · rw [List.mem_filter]
          refine ⟨h, ?_⟩
          simp only [bne_iff_ne, ne_eq]
          exact fun e0 => hfar (by rw [e0]; exact List.prefix_refl _)
        · split
          · exact h
          · split
            · exact ih _ _ _ h (fun hb' => hfar hb'.1)
            · exact mem_removeAll.2 ⟨h, hfar⟩
    exact key _ (fun c h => h) fs he

/-! ## the parents of directories to keep -/

theorem climb_some {path : Path} : ∀ {n : Nat} {p : Path} {l : List Path}, climb path n p = some l →
    path <+: p ∧ ∀ q, q ∈ l ↔ Below path q ∧ q <+: p
  | 0, _, _, h => by cases h
  | n + 1, p, l, h => by
    unfold climb at h
    split at h
    · rename_i e
      cases h
      refine ⟨by rw [e]; exact List.prefix_refl _, fun q => ⟨fun h => (by cases h), fun ⟨h1, h2⟩ => ?_⟩⟩
      rw [e] at h2
      have := h1.length
      have := h2.length_le
      omega
    · rename_i hne
      split at h
      · cases h
      · rename_i h0
        cases hr : climb path n p.dropLast with
        | none => rw [hr] at h; cases h
        | some l' =>
          rw [hr] at h
          cases h
          obtain ⟨h1, h2⟩ := climb_some hr
          have hp := pre_below h1 (dropLast_below h0)
          refine ⟨hp.1, fun q => ?_⟩
          rw [List.mem_cons, h2]
          constructor
          · rintro (h3 | h3)
            · rw [h3]; exact ⟨hp, List.prefix_refl _⟩
            · exact ⟨h3.1, h3.2.trans (dropLast_below h0).1⟩
          · rintro ⟨h3, h4⟩
            by_cases e : q = p
            · exact .inl e
            · exact .inr ⟨h3, pre_dropLast ⟨h4, e⟩⟩

theorem climb_of {path : Path} : ∀ {n : Nat} {p : Path}, path <+: p → p.length < n → (climb path n p).isSome
  | 0, _, _, h => by omega
  | n + 1, p, h, hl => by
    unfold climb
    split
    · rfl
    · rename_i hne
      have hb : Below path p := ⟨h, fun e => hne e.symm⟩
      have h0 : p ≠ [] := by intro e; have := hb.length; rw [e] at this; simp at this
      rw [if_neg h0, Option.isSome_map]
      refine climb_of (pre_dropLast hb) ?_
      rw [List.length_dropLast]
      have := List.length_pos_iff.2 h0
      omega

theorem climb_not {path p : Path} (n : Nat) (h : ¬ path <+: p) : climb path n p = none := by
  cases hc : climb path n p with
  | none => rfl
  | some l => exact absurd (climb_some hc).1 h

theorem parents_some {path : Path} : ∀ {ds : List Path} {l : List Path}, parents path ds = some l →
    (∀ d ∈ ds, path <+: d.dropLast) ∧ ∀ q, q ∈ l ↔ ∃ d ∈ ds, Below path q ∧ q <+: d.dropLast
  | [], l, h => by cases h; simp
  | d :: ds, l, h => by
    unfold parents at h
    cases h1 : climb path (d.length + 1) d.dropLast with
    | none => rw [h1] at h; cases h
    | some a =>
      rw [h1] at h
      cases h2 : parents path ds with
      | none => rw [h2] at h; cases h
      | some b =>
        rw [h2] at h
        cases h
        obtain ⟨c1, c2⟩ := climb_some h1
        obtain ⟨p1, p2⟩ := parents_some h2
        refine ⟨fun x hx => ?_, fun q => ?_⟩
        · rcases List.mem_cons.1 hx with rfl | hx
          · exact c1
          · exact p1 x hx
        · rw [List.mem_append, c2, p2]
          simp only [List.mem_cons, exists_eq_or_imp]

theorem parents_of {path : Path} : ∀ {ds : List Path}, (∀ d ∈ ds, path <+: d.dropLast) → (parents path ds).isSome
  | [], _ => rfl
  | d :: ds, h => by
    unfold parents
    have h1 := climb_of (n := d.length + 1) (h d (List.mem_cons_self ..)) (by rw [List.length_dropLast]; omega)
    have h2 := parents_of fun x hx => h x (List.mem_cons_of_mem _ hx)
    obtain ⟨a, ha⟩ := Option.isSome_iff_exists.1 h1
    obtain ⟨b, hb⟩ := Option.isSome_iff_exists.1 h2
    rw [ha, hb]
    rfl

theorem le_foldr_max {l : List Nat} {x : Nat} (h : x ∈ l) : x ≤ l.foldr max 0 := by
  induction l with
  | nil => cases h
  | cons a l ih =>
    simp only [List.foldr_cons]
    rcases List.mem_cons.1 h with rfl | h
    · omega
    · have := ih h
      omega

theorem Spec.Tree.closed {fs : FS} (h : Tree fs) (p : Path) : Closed p fs := by
  intro e he hb
  rcases h.dirs e he with h1 | h1
  · left
    have := pre_dropLast hb
    rw [h1] at this ⊢
    exact (List.prefix_nil.1 this).symm
  · exact .inr h1

/-- directories above an entry are directories -/
theorem Spec.Tree.up {fs : FS} (h : Tree fs) {p : Path} (hp : p ≠ []) : ∀ (n : Nat) (e : Entry), e ∈ fs → e.1.length = p.length + n + 1 → p <+: e.1 → (p, Kind.dir) ∈ fs := by
  intro n
  induction n with
  | zero =>
    intro e he hl hpre
    have hd : e.1.dropLast = p := by
      refine ((pre_dropLast (below_of hpre (by omega))).eq_of_length ?_).symm
      rw [List.length_dropLast]; omega
    rcases h.dirs e he with h1 | h1
    · rw [hd] at h1; exact absurd h1 hp
    · rw [hd] at h1; exact h1
  | succ n ih =>
    intro e he hl hpre
    have hpre' := pre_dropLast (below_of hpre (by omega))
    rcases h.dirs e he with h1 | h1
    · rw [h1] at hpre'
      exact absurd (List.prefix_nil.1 hpre') hp
    · exact ih _ h1 (by rw [List.length_dropLast]; omega) hpre'

theorem Spec.Tree.above {fs : FS} (h : Tree fs) {p : Path} (hp : p ≠ []) {e : Entry} (he : e ∈ fs) (hb : Below p e.1) : (p, Kind.dir) ∈ fs :=
  h.up hp (e.1.length - p.length - 1) e he (by have := hb.length; omega) hb.1

/-- what remains: the directories to keep, what is in them, and the directories they are in -/
theorem removeAllExcept_mem {fs : FS} (h : Tree fs) {path : Path} {ex : List (List Str)} {fs' : FS}
    (hb : ∀ x ∈ ex, Below path (join path x)) (hr : removeAllExcept path ex fs = some fs') (e : Entry) :
    e ∈ fs' ↔ e ∈ fs ∧ (Below path e.1 → ∃ x ∈ ex, (join path x = e.1 ∧ e.2 = .dir) ∨ Below (join path x) e.1 ∨
      (e.2 = .dir ∧ Below e.1 (join path x))) := by
  unfold removeAllExcept at hr
  cases hp : parents path (ex.map (join path)) with
  | none => simp [hp] at hr
  | some check =>
    simp only [hp] at hr
    cases hr
    obtain ⟨_, hm⟩ := parents_some hp
    have hne : ∀ d ∈ ex.map (join path), d ≠ [] ∧ Below path d := by
      intro d hd
      obtain ⟨x, hx, rfl⟩ := List.mem_map.1 hd
      refine ⟨?_, hb x hx⟩
      intro e0
      have := (hb x hx).length
      rw [e0] at this
      simp at this
    have hmem : ∀ q, q ∈ check ↔ ∃ d ∈ ex.map (join path), Below path q ∧ Below q d := by
      intro q
      rw [hm]
      constructor
      · rintro ⟨d, hd, h1, h2⟩
        exact ⟨d, hd, h1, pre_below h2 (dropLast_below (hne d hd).1)⟩
      · rintro ⟨d, hd, h1, h2⟩
        exact ⟨d, hd, h1, pre_dropLast h2⟩
    have := removeWith_mem (ex.map (join path)) check path (fun d hd q h1 h2 => (hmem q).2 ⟨d, hd, h1, h2⟩)
      (fun c hc => by obtain ⟨d, hd, h1, h2⟩ := (hmem c).1 hc; exact ⟨h1, d, hd, h2⟩)
      ((check.map List.length).foldr max 0 + 1) path fs (List.prefix_refl _)
      (fun d hd hpre => by have h1 := (hne d hd).2.length; have h2 := hpre.length_le; omega)
      (fun c hc => by have := le_foldr_max (List.mem_map_of_mem (f := List.length) hc); omega)
      (fun h0 => by omega) h.one (h.closed path) e
    refine Iff.trans this (and_congr_right fun he => ⟨fun hs hbe => ?_, fun hs hbe => ?_⟩)
    · rcases hs hbe with ⟨d, hd, h1⟩ | ⟨h1, h2⟩
      · obtain ⟨x, hx, rfl⟩ := List.mem_map.1 hd
        exact ⟨x, hx, h1.imp id .inl⟩
      · obtain ⟨d, hd, _, h3⟩ := (hmem _).1 h2
        obtain ⟨x, hx, rfl⟩ := List.mem_map.1 hd
        exact ⟨x, hx, .inr (.inr ⟨h1, h3⟩)⟩
    · obtain ⟨x, hx, h1⟩ := hs hbe
      rcases h1 with h1 | h1 | h1
      · exact .inl ⟨_, List.mem_map.2 ⟨x, hx, rfl⟩, .inl h1⟩
      · exact .inl ⟨_, List.mem_map.2 ⟨x, hx, rfl⟩, .inr h1⟩
      · exact .inr ⟨h1.1, (hmem _).2 ⟨_, List.mem_map.2 ⟨x, hx, rfl⟩, hbe, h1.2⟩⟩

theorem removeAllExcept_sub {fs fs' : FS} {path : Path} {ex : List (List Str)} (hr : removeAllExcept path ex fs = some fs') : fs'.Sublist fs := by
  unfold removeAllExcept at hr
  cases hp : parents path (ex.map (join path)) with
  | none => simp [hp] at hr
  | some check =>
    simp only [hp] at hr
    cases hr
    exact removeWith_sub _ _ _ _ _

/-! ## removal of empty directories -/

theorem remove_ok {p : Path} {fs fs' : FS} (h : remove p fs = .ok fs') :
    p ≠ [] ∧ fs' = fs.filter (fun e => e.1 != p) ∧ ∀ e ∈ fs, ¬ Below p e.1 := by
  unfold remove at h
  split at h
  · cases h
  · rename_i h0
    split at h
    · cases h
    · split at h
      · cases h
      · rename_i h1
        cases h
        refine ⟨h0, rfl, fun e he hb => h1 ?_⟩
        rw [List.any_eq_true]
        refine ⟨e, he, ?_⟩
        simp only [Bool.and_eq_true, bne_iff_ne, ne_eq, List.isPrefixOf_iff_prefix]
        exact ⟨fun e0 => hb.2 e0.symm, hb.1⟩

theorem remove_notEmpty {p : Path} {fs : FS} {e : Entry} (he : e ∈ fs) (hb : Below p e.1) (hp : (p, Kind.dir) ∈ fs) : remove p fs = .notEmpty := by
  unfold remove
  split
  · rfl
  · rw [if_neg, if_pos]
    · rw [List.any_eq_true]
      refine ⟨e, he, ?_⟩
      simp only [Bool.and_eq_true, bne_iff_ne, ne_eq, List.isPrefixOf_iff_prefix]
      exact ⟨fun e0 => hb.2 e0.symm, hb.1⟩
    · intro h
      rw [List.any_eq_false] at h
      exact h _ hp (by simp)

theorem rmUp_sub (base : Option Path) : ∀ (n : Nat) (p : Path) (fs : FS), (rmUp base n p fs).Sublist fs
  | 0, _, _ => List.Sublist.refl _
  | n + 1, p, fs => by
    unfold rmUp
    split
    · exact List.Sublist.refl _
    · split
      · rename_i fs' h
        rw [(remove_ok h).2.1]
        exact (rmUp_sub base n _ _).trans List.filter_sublist
      · exact List.Sublist.refl _

/-- what is removed was empty, and between -/
theorem rmUp_gone {b : Path} : ∀ (n : Nat) (p : Path) (fs : FS), b <+: p → ∀ e ∈ fs, e ∉ rmUp (some b) n p fs →
    e.1 <+: p ∧ Below b e.1 ∧ ∀ e' ∈ rmUp (some b) n p fs, ¬ Below e.1 e'.1
  | 0, _, _, _, e, he, hn => absurd he hn
  | n + 1, p, fs, hb, e, he, hn => by
    unfold rmUp at hn ⊢
    by_cases h1 : some p = some b
    · rw [if_pos h1] at hn; exact absurd he hn
    · rw [if_neg h1] at hn ⊢
      have hbp : Below b p := ⟨hb, fun e => h1 (by rw [e])⟩
      cases hr : remove p fs with
      | notExist => rw [hr] at hn; exact absurd he hn
      | notEmpty => rw [hr] at hn; exact absurd he hn
      | ok fs' =>
        rw [hr] at hn
        simp only at hn ⊢
        obtain ⟨h0, e1, e2⟩ := remove_ok hr
        by_cases hm : e ∈ fs'
        · obtain ⟨i1, i2, i3⟩ := rmUp_gone n p.dropLast fs' (pre_dropLast hbp) e hm hn
          exact ⟨i1.trans (dropLast_below h0).1, i2, i3⟩
        · have hep : e.1 = p := by
            rw [e1, List.mem_filter] at hm
            have : ¬ (e.1 != p) = true := fun h => hm ⟨he, h⟩
            simpa using this
          refine ⟨by rw [hep]; exact List.prefix_refl _, by rw [hep]; exact hbp, fun e' he' hb' => ?_⟩
          have := (rmUp_sub (some b) n p.dropLast fs').subset he'
          rw [e1, List.mem_filter] at this
          rw [hep] at hb'
          exact e2 e' this.1 hb'

theorem rmEmptyDirs_sub (leaf : Path) (base : Option Path) (fs : FS) : (rmEmptyDirs leaf base fs).Sublist fs := by
  unfold rmEmptyDirs
  split
  · exact List.Sublist.refl _
  · exact rmUp_sub _ _ _ _
  · rename_i fs' h
    rw [(remove_ok h).2.1]
    exact (rmUp_sub _ _ _ _).trans List.filter_sublist

theorem rmEmptyDirs_gone {leaf b : Path} (hb : Below b leaf) {fs : FS} {e : Entry} (he : e ∈ fs) (hn : e ∉ rmEmptyDirs leaf (some b) fs) :
    e.1 <+: leaf ∧ Below b e.1 ∧ ∀ e' ∈ rmEmptyDirs leaf (some b) fs, ¬ Below e.1 e'.1 := by
  have hne : leaf ≠ [] := by intro e0; have := hb.length; rw [e0] at this; simp at this
  unfold rmEmptyDirs at hn ⊢
  cases hr : remove leaf fs with
  | notEmpty => rw [hr] at hn; exact absurd he hn
  | notExist =>
    rw [hr] at hn
    obtain ⟨i1, i2, i3⟩ := rmUp_gone leaf.length leaf.dropLast fs (pre_dropLast hb) e he hn
    exact ⟨i1.trans (dropLast_below hne).1, i2, i3⟩
  | ok fs' =>
    rw [hr] at hn
    simp only at hn ⊢
    obtain ⟨h0, e1, e2⟩ := remove_ok hr
    by_cases hm : e ∈ fs'
    · obtain ⟨i1, i2, i3⟩ := rmUp_gone leaf.length leaf.dropLast fs' (pre_dropLast hb) e hm hn
      exact ⟨i1.trans (dropLast_below hne).1, i2, i3⟩
    · have hep : e.1 = leaf := by
        rw [e1, List.mem_filter] at hm
        have : ¬ (e.1 != leaf) = true := fun h => hm ⟨he, h⟩
        simpa using this
      refine ⟨by rw [hep]; exact List.prefix_refl _, by rw [hep]; exact hb, fun e' he' hb' => ?_⟩
      have := (rmUp_sub (some b) leaf.length leaf.dropLast fs').subset he'
      rw [e1, List.mem_filter] at this
      rw [hep] at hb'
      exact e2 e' this.1 hb'

/-! ## the rest of the unique directory -/

/-- a name that `cleanRest` leaves -/
def leaves (name : Str) : Prop := name = "cwd".toList ∨ ".muxfys".toList <+: name

theorem foldl_removeAll (P : Entry → Prop) [DecidablePred P] : ∀ (cs fs : FS) (e : Entry),
    e ∈ cs.foldl (fun fs c => if P c then removeAll c.1 fs else fs) fs ↔ e ∈ fs ∧ ∀ c ∈ cs, P c → ¬ c.1 <+: e.1 := by
  intro cs
  induction cs with
  | nil => intro fs e; simp
  | cons c cs ih =>
    intro fs e
    show e ∈ cs.foldl _ (if P c then removeAll c.1 fs else fs) ↔ _
    rw [ih]
    by_cases h : P c
    · rw [if_pos h, mem_removeAll]
      simp only [List.mem_cons, forall_eq_or_imp, and_assoc, h, true_imp_iff]
    · rw [if_neg h]
      simp only [List.mem_cons, forall_eq_or_imp, h, false_imp_iff, true_and]

theorem cleanRest_mem {fs : FS} (hc : Closed ws fs) (e : Entry) :
    e ∈ cleanRest ws fs ↔ e ∈ fs ∧ (Below ws e.1 → ∃ name, leaves name ∧ ws ++ [name] <+: e.1) := by
  unfold cleanRest
  simp only
  rw [foldl_removeAll (fun e => e.1.getLast?.getD [] ≠ "cwd".toList ∧ ¬ ".muxfys".toList.isPrefixOf (e.1.getLast?.getD []))]
  have hname : ∀ c : Entry, c.1.length = ws.length + 1 → ws <+: c.1 → ∃ name, c.1 = ws ++ [name] := by
    intro c hl ⟨t, ht⟩
    rw [← ht, List.length_append] at hl
    match t, ht, hl with
    | [x], ht, _ => exact ⟨x, ht.symm⟩
    | [], _, hl => simp at hl
    | _ :: _ :: _, _, hl => simp only [List.length_cons] at hl; omega
  refine and_congr_right fun he => ⟨fun h hb => ?_, fun h c hcm hP hpre => ?_⟩
  · have hl := hb.length
    obtain ⟨c, hcm, hpre, _⟩ := ancestor hc (e.1.length - ws.length - 1) e (by omega) he hb
    obtain ⟨_, h1, h2⟩ := mem_children.1 hcm
    obtain ⟨name, hn⟩ := hname c h1 h2
    refine ⟨name, ?_, hn ▸ hpre⟩
    by_cases hq : name = "cwd".toList
    · exact .inl hq
    · refine .inr ?_
      by_cases hm : ".muxfys".toList <+: name
      · exact hm
      · refine absurd hpre (h c hcm ?_)
        rw [hn, List.getLast?_append]
        simp only [List.getLast?_singleton, Option.or_some, Option.getD_some]
        exact ⟨hq, by rw [List.isPrefixOf_iff_prefix]; exact hm⟩
  · obtain ⟨_, h1, h2⟩ := mem_children.1 hcm
    obtain ⟨name, hn⟩ := hname c h1 h2
    have hbc : Below ws c.1 := below_of h2 (by omega)
    obtain ⟨name', hl, hp'⟩ := h (hbc.trans_pre hpre)
    have : c.1 = ws ++ [name'] := by
      refine (List.prefix_of_prefix_length_le hpre hp' (by simp; omega)).eq_of_length (by simp; omega)
    rw [hn] at this
    have hnn : name = name' := by simpa using this
    rw [hn, List.getLast?_append] at hP
    simp only [List.getLast?_singleton, Option.or_some, Option.getD_some] at hP
    rw [hnn, List.isPrefixOf_iff_prefix] at hP
    rcases hl with hl | hl
    · exact hP.1 hl
    · exact hP.2 hl

end Verif.Client.Files
