import Verif.Cloud.Flavor
/-!
# C50: the cheapest sufficient flavor is chosen
-/
namespace Verif.Cloud.Flavors

/-! ### Specification -/

/-- `f` costs no more than `g`: fewer cores, or as many and less RAM, or as much of both and no more disk -/
def Le (f g : Flv) : Prop :=
  f.cores < g.cores ∨ (f.cores = g.cores ∧ (f.ram < g.ram ∨ (f.ram = g.ram ∧ f.disk ≤ g.disk)))

/-- the flavor is big enough and among the allowed ones -/
def Suits (allowed : Flv → Prop) (cores ram : Int) (f : Flv) : Prop := allowed f ∧ cores ≤ f.cores ∧ ram ≤ f.ram

/-- `r` is a cheapest of the flavors `fs` that suit, `none` if there is none -/
def Cheapest (allowed : Flv → Prop) (cores ram : Int) (fs : List Flv) (r : Option Flv) : Prop :=
  match r with
  | none => ∀ g ∈ fs, ¬ Suits allowed cores ram g
  | some f => f ∈ fs ∧ Suits allowed cores ram f ∧ ∀ g ∈ fs, Suits allowed cores ram g → Le f g

/-- the name matches the pattern; the empty pattern matches everything -/
def Matches (compile : String → Option Rx) (pat : String) (f : Flv) : Prop := pat = "" ∨ ∃ r, compile pat = some r ∧ r f.name = true

/-- the flavor is in the set: its name matches one of the patterns -/
def InSet (compile : String → Option Rx) (set : List String) (f : Flv) : Prop :=
  ∃ pat ∈ set, ∃ r, compile pat = some r ∧ r f.name = true

/-! ### Proofs -/

theorem Le.refl (f : Flv) : Le f f := by unfold Le; omega

theorem Le.trans {f g h : Flv} (a : Le f g) (b : Le g h) : Le f h := by unfold Le at *; omega

private theorem better_spec (allowed : Flv → Prop) (cores ram : Int) (seen : List Flv) (fr : Option Flv) (f : Flv)
    (h : Cheapest allowed cores ram seen fr) (ha : allowed f) : Cheapest allowed cores ram (seen ++ [f]) (better cores ram fr f) := by
  unfold better
  by_cases hf : f.cores ≥ cores ∧ f.ram ≥ ram
  · have hs : Suits allowed cores ram f := ⟨ha, hf.1, hf.2⟩
    simp only [hf, and_self, if_true]
    cases fr with
    | none =>
      refine ⟨by simp, hs, ?_⟩
      intro g hg hsg
      rcases List.mem_append.1 hg with hg | hg
      · exact absurd hsg (h g hg)
      · rw [List.mem_singleton.1 hg]; exact Le.refl _
    | some r =>
      obtain ⟨h1, h2, h3⟩ := h
      have keep : Le r f → Cheapest allowed cores ram (seen ++ [f]) (some r) := by
        intro hle
        refine ⟨by simp [h1], h2, ?_⟩
        intro g hg hsg
        rcases List.mem_append.1 hg with hg | hg
        · exact h3 g hg hsg
        · rw [List.mem_singleton.1 hg]; exact hle
      have take : Le f r → Cheapest allowed cores ram (seen ++ [f]) (some f) := by
        intro hle
        refine ⟨by simp, hs, ?_⟩
        intro g hg hsg
        rcases List.mem_append.1 hg with hg | hg
        · exact hle.trans (h3 g hg hsg)
        · rw [List.mem_singleton.1 hg]; exact Le.refl _
      simp only
      split
      · apply take; unfold Le; omega
      · split
        · split
          · apply take; unfold Le; omega
          · split
            · apply take; unfold Le; omega
            · apply keep; unfold Le; omega
        · apply keep; unfold Le; omega
  · simp only [hf, if_false]
    have hns : ¬ Suits allowed cores ram f := fun hs => hf ⟨hs.2.1, hs.2.2⟩
    cases fr with
    | none =>
      intro g hg
      rcases List.mem_append.1 hg with hg | hg
      · exact h g hg
      · rw [List.mem_singleton.1 hg]; exact hns
    | some r =>
      obtain ⟨h1, h2, h3⟩ := h
      refine ⟨by simp [h1], h2, ?_⟩
      intro g hg hsg
      rcases List.mem_append.1 hg with hg | hg
      · exact h3 g hg hsg
      · rw [List.mem_singleton.1 hg] at hsg; exact absurd hsg hns

private theorem skip_spec (allowed : Flv → Prop) (cores ram : Int) (seen : List Flv) (fr : Option Flv) (f : Flv)
    (h : Cheapest allowed cores ram seen fr) (ha : ¬ allowed f) : Cheapest allowed cores ram (seen ++ [f]) fr := by
  have hns : ¬ Suits allowed cores ram f := fun hs => ha hs.1
  cases fr with
  | none =>
    intro g hg
    rcases List.mem_append.1 hg with hg | hg
    · exact h g hg
    · rw [List.mem_singleton.1 hg]; exact hns
  | some r =>
    obtain ⟨h1, h2, h3⟩ := h
    refine ⟨by simp [h1], h2, ?_⟩
    intro g hg hsg
    rcases List.mem_append.1 hg with hg | hg
    · exact h3 g hg hsg
    · rw [List.mem_singleton.1 hg] at hsg; exact absurd hsg hns

private theorem pickLoop_spec (cores ram : Int) (rx : Option Rx) (subset : List (Option Rx)) (allowed : Flv → Prop)
    (ha : ∀ f b, passes rx subset f = some b → (b = true ↔ allowed f)) (fs : List Flv) : ∀ (seen : List Flv) (fr : Option Flv) (res : Option Flv),
    Cheapest allowed cores ram seen fr → pickLoop cores ram rx subset fs fr = some res → Cheapest allowed cores ram (seen ++ fs) res := by
  induction fs with
  | nil => intro seen fr res h e; simp only [pickLoop, Option.some.injEq] at e; subst e; simpa using h
  | cons f fs ih =>
    intro seen fr res h e
    rw [pickLoop] at e
    have hassoc : seen ++ f :: fs = (seen ++ [f]) ++ fs := by simp
    cases hp : passes rx subset f with
    | none => rw [hp] at e; simp at e
    | some b =>
      rw [hp] at e
      have hb := ha f b hp
      cases b with
      | false => rw [hassoc]; exact ih _ _ _ (skip_spec _ _ _ _ _ _ h (by simpa using hb)) e
      | true => rw [hassoc]; exact ih _ _ _ (better_spec _ _ _ _ _ _ h (by simpa using hb)) e

private theorem pick_spec (cores ram : Int) (rx : Option Rx) (subset : List (Option Rx)) (allowed : Flv → Prop)
    (ha : ∀ f b, passes rx subset f = some b → (b = true ↔ allowed f)) (fs : List Flv) (res : Option Flv)
    (h : pick cores ram rx subset fs = some res) : Cheapest allowed cores ram fs res := by
  have := pickLoop_spec cores ram rx subset allowed ha fs [] none res (by intro g hg; simp at hg) h
  simpa using this

private theorem pick_total (cores ram : Int) (rx : Option Rx) (subset : List (Option Rx)) (hn : ∀ r ∈ subset, r ≠ none) (fs : List Flv) :
    ∃ res, pick cores ram rx subset fs = some res := by
  have hin : ∀ (l : List (Option Rx)) (n : String), (∀ r ∈ l, r ≠ none) → ∃ b, inSubset l n = some b := by
    intro l n
    induction l with
    | nil => intro _; exact ⟨_, rfl⟩
    | cons r l ih =>
      intro hl
      cases r with
      | none => exact absurd rfl (hl none (by simp))
      | some r =>
        unfold inSubset; split
        · exact ⟨_, rfl⟩
        · exact ih fun x hx => hl x (by simp [hx])
  have hp : ∀ f, ∃ b, passes rx subset f = some b := by
    intro f
    have ⟨b, hb⟩ := hin subset f.name hn
    unfold passes
    split
    · exact ⟨_, rfl⟩
    · split
      · exact ⟨_, rfl⟩
      · exact ⟨b, hb⟩
  unfold pick
  generalize none = fr
  induction fs generalizing fr with
  | nil => exact ⟨_, rfl⟩
  | cons f fs ih =>
    unfold pickLoop
    obtain ⟨b, hb⟩ := hp f
    rw [hb]
    cases b <;> exact ih _

private theorem matches_rx (compile : String → Option Rx) (regex : String) (r : Option Rx) (h : regexStrToRegexp compile regex = some r) (f : Flv) :
    skips r f.name = false ↔ Matches compile regex f := by
  unfold regexStrToRegexp at h
  unfold Matches
  by_cases he : regex = ""
  · simp [he] at h; subst h; simp [he, skips]
  · simp only [he, if_false] at h
    cases hc : compile regex with
    | none => simp [hc] at h
    | some x => simp [hc] at h; subst h; simp [he, skips]

private theorem passes_nil (compile : String → Option Rx) (regex : String) (r : Option Rx) (h : regexStrToRegexp compile regex = some r) (f : Flv) (b : Bool)
    (hp : passes r [] f = some b) : b = true ↔ Matches compile regex f := by
  rw [← matches_rx compile regex r h f]
  unfold passes at hp
  cases hm : skips r f.name with
  | true => rw [hm] at hp; simp at hp; subst hp; simp
  | false => rw [hm] at hp; simp at hp; subst hp; simp

private theorem bad_iff (compile : String → Option Rx) (regex : String) :
    regexStrToRegexp compile regex = none ↔ regex ≠ "" ∧ compile regex = none := by
  unfold regexStrToRegexp
  by_cases h : regex = "" <;> simp [h]

/-- the result of `CheapestServerFlavor` as a flavor or none -/
def Res.flavor? : Res Flv → Option Flv
  | .ok f => some f
  | _ => none

/-- C50: for every order of iteration, `CheapestServerFlavor` returns a cheapest flavor that is big enough and matches the pattern,
the error "no flavor" if and only if there is none, and an error about the pattern if and only if that is no regular expression; it does not panic. -/
theorem C50 (compile : String → Option Rx) (fs : List Flv) (cores ram : Int) (regex : String) :
    match cheapestServerFlavor compile fs cores ram regex with
    | .ok f => Cheapest (Matches compile regex) cores ram fs (some f)
    | .noFlavor => ∀ g ∈ fs, ¬ Suits (Matches compile regex) cores ram g
    | .badRegex => regex ≠ "" ∧ compile regex = none
    | .panic => False := by
  unfold cheapestServerFlavor
  cases hr : regexStrToRegexp compile regex with
  | none => exact (bad_iff _ _).1 hr
  | some r =>
    obtain ⟨res, hres⟩ := pick_total cores ram r [] (by simp) fs
    have := pick_spec cores ram r [] (Matches compile regex) (passes_nil compile regex r hr) fs res hres
    simp only [hres]
    cases res with
    | none => exact this
    | some f => exact this

/-- C50: the sizes of the flavor chosen do not depend on the order of iteration. -/
theorem C50_order (compile : String → Option Rx) (fs fs' : List Flv) (cores ram : Int) (regex : String) (h : ∀ f, f ∈ fs ↔ f ∈ fs') :
    (cheapestServerFlavor compile fs cores ram regex).flavor?.map (fun f => (f.cores, f.ram, f.disk)) =
    (cheapestServerFlavor compile fs' cores ram regex).flavor?.map (fun f => (f.cores, f.ram, f.disk)) := by
  have a := C50 compile fs cores ram regex
  have b := C50 compile fs' cores ram regex
  cases ha : cheapestServerFlavor compile fs cores ram regex <;> cases hb : cheapestServerFlavor compile fs' cores ram regex <;>
    rw [ha] at a <;> rw [hb] at b <;> simp only [Res.flavor?, Option.map_none, Option.map_some] <;> simp only at a b
  case ok.ok f g =>
    have h1 := a.2.2 g ((h g).2 b.1) b.2.1
    have h2 := b.2.2 f ((h f).1 a.1) a.2.1
    unfold Le at h1 h2
    have : f.cores = g.cores ∧ f.ram = g.ram ∧ f.disk = g.disk := by omega
    simp [this]
  case ok.noFlavor f => exact absurd a.2.1 (b f ((h f).1 a.1))
  case noFlavor.ok g => exact absurd b.2.1 (a g ((h g).2 b.1))
  case ok.badRegex f =>
    rcases a.2.1.1 with e | ⟨r, e, _⟩
    · exact absurd e b.1
    · rw [b.2] at e; simp at e
  case badRegex.ok g =>
    rcases b.2.1.1 with e | ⟨r, e, _⟩
    · exact absurd e a.1
    · rw [a.2] at e; simp at e

private theorem compileSet_spec (compile : String → Option Rx) (set : List String) : ∀ subset, compileSet compile set = some subset →
    (∀ pat ∈ set, pat ≠ "") → (∀ r ∈ subset, r ≠ none) ∧ subset.length = set.length ∧
      ∀ f b, inSubset subset f.name = some b → (b = true ↔ InSet compile set f) := by
  induction set with
  | nil =>
    intro subset h _
    simp [compileSet] at h; subst h
    refine ⟨by simp, rfl, ?_⟩
    intro f b hb
    simp [inSubset] at hb; subst hb; simp [InSet]
  | cons s set ih =>
    intro subset h hne
    rw [compileSet] at h
    cases hr : regexStrToRegexp compile s with
    | none => rw [hr] at h; simp at h
    | some r =>
      rw [hr] at h
      cases hc : compileSet compile set with
      | none => rw [hc] at h; simp at h
      | some rest =>
        rw [hc] at h
        simp at h; subst h
        obtain ⟨h1, h2, h3⟩ := ih rest hc (fun p hp => hne p (by simp [hp]))
        have hs := hne s (by simp)
        unfold regexStrToRegexp at hr
        simp only [hs, if_false] at hr
        cases hx : compile s with
        | none => rw [hx] at hr; simp at hr
        | some x =>
          rw [hx] at hr; simp at hr; subst hr
          refine ⟨by simpa using h1, by simp [h2], ?_⟩
          intro f b hb
          rw [inSubset] at hb
          unfold InSet
          by_cases hm : x f.name = true
          · simp [hm] at hb; subst hb
            simp only [true_iff]
            exact ⟨s, by simp, x, hx, hm⟩
          · simp [hm] at hb
            rw [h3 f b hb]
            unfold InSet
            constructor
            · rintro ⟨p, hp, r, e1, e2⟩; exact ⟨p, by simp [hp], r, e1, e2⟩
            · rintro ⟨p, hp, r, e1, e2⟩
              rcases List.mem_cons.1 hp with e | hp
              · subst e; rw [hx] at e1; injection e1 with e1; subst e1; exact absurd e2 hm
              · exact ⟨p, hp, r, e1, e2⟩

private theorem compileSet_none (compile : String → Option Rx) (set : List String) (h : compileSet compile set = none) :
    ∃ pat ∈ set, pat ≠ "" ∧ compile pat = none := by
  induction set with
  | nil => simp [compileSet] at h
  | cons s set ih =>
    rw [compileSet] at h
    cases hr : regexStrToRegexp compile s with
    | none => exact ⟨s, by simp, (bad_iff _ _).1 hr⟩
    | some r =>
      rw [hr] at h
      simp at h
      obtain ⟨p, hp, e⟩ := ih h
      exact ⟨p, by simp [hp], e⟩

/-- the result of `CheapestServerFlavors` is, set by set, a cheapest flavor of the set that matches the pattern -/
def PerSet (compile : String → Option Rx) (fs : Nat → List Flv) (cores ram : Int) (regex : String) : Nat → List (List String) → List (Option Flv) → Prop
  | _, [], ms => ms = []
  | i, set :: sets, ms => ∃ m rest, ms = m :: rest ∧
      Cheapest (fun f => Matches compile regex f ∧ InSet compile set f) cores ram (fs i) m ∧ PerSet compile fs cores ram regex (i + 1) sets rest

private theorem setLoop_spec (compile : String → Option Rx) (fs : Nat → List Flv) (cores ram : Int) (regex : String) (r : Option Rx)
    (hr : regexStrToRegexp compile regex = some r) (sets : List (List String)) :
    (∀ set ∈ sets, set ≠ [] ∧ ∀ pat ∈ set, pat ≠ "") → ∀ i,
    match setLoop compile cores ram r fs i sets with
    | .ok ms => PerSet compile fs cores ram regex i sets ms
    | .badRegex => ∃ pat, (∃ set ∈ sets, pat ∈ set) ∧ pat ≠ "" ∧ compile pat = none
    | .noFlavor => False
    | .panic => False := by
  induction sets with
  | nil => intro _ i; simp [setLoop, PerSet]
  | cons set sets ih =>
    intro hne i
    have hrec := ih (fun s hs => hne s (by simp [hs])) (i + 1)
    rw [setLoop]
    cases hc : compileSet compile set with
    | none =>
      obtain ⟨p, hp, e⟩ := compileSet_none _ _ hc
      exact ⟨p, ⟨set, by simp, hp⟩, e⟩
    | some subset =>
      obtain ⟨h1, h2, h3⟩ := compileSet_spec compile set subset hc (hne set (by simp)).2
      obtain ⟨m, hm⟩ := pick_total cores ram r subset h1 (fs i)
      have hl : subset.length ≠ 0 := by
        rw [h2]; intro e; exact (hne set (by simp)).1 (List.length_eq_zero_iff.1 e)
      have hsp := pick_spec cores ram r subset (fun f => Matches compile regex f ∧ InSet compile set f) (by
        intro f b hp
        have hmr := matches_rx compile regex r hr f
        unfold passes at hp
        rw [← hmr]
        cases hx : skips r f.name with
        | true => rw [hx] at hp; simp at hp; subst hp; simp
        | false =>
          rw [hx] at hp
          simp only [Bool.false_eq_true, if_false, hl] at hp
          rw [h3 f b hp]; simp) (fs i) m hm
      simp only [hm]
      cases hs : setLoop compile cores ram r fs (i + 1) sets with
      | ok ms => rw [hs] at hrec; exact ⟨m, ms, rfl, hsp, hrec⟩
      | badRegex =>
        rw [hs] at hrec
        obtain ⟨p, ⟨s, hs, hp⟩, e⟩ := hrec
        exact ⟨p, ⟨s, by simp [hs], hp⟩, e⟩
      | noFlavor => rw [hs] at hrec; exact hrec
      | panic => rw [hs] at hrec; exact hrec

/-- C50, for sets without an empty pattern and not empty themselves: `CheapestServerFlavors` returns one result per set, a cheapest flavor
of the set that is big enough and matches the pattern, nil if there is none; an error only if a pattern is no regular expression. Missing: empty
patterns, for which it panics (below), and empty sets, which stand for all flavors. -/
theorem C50_sets_partial (compile : String → Option Rx) (fs : Nat → List Flv) (cores ram : Int) (regex : String) (sets : List (List String))
    (hs : sets ≠ []) (hne : ∀ set ∈ sets, set ≠ [] ∧ ∀ pat ∈ set, pat ≠ "") :
    match cheapestServerFlavors compile fs cores ram regex sets with
    | .ok ms => PerSet compile fs cores ram regex 0 sets ms
    | .badRegex => ∃ pat, (pat = regex ∨ ∃ set ∈ sets, pat ∈ set) ∧ pat ≠ "" ∧ compile pat = none
    | .noFlavor => False
    | .panic => False := by
  unfold cheapestServerFlavors
  have hl : sets.length ≠ 0 := fun e => hs (List.length_eq_zero_iff.1 e)
  simp only [hl, if_false]
  cases hr : regexStrToRegexp compile regex with
  | none => exact ⟨regex, Or.inl rfl, (bad_iff _ _).1 hr⟩
  | some r =>
    have := setLoop_spec compile fs cores ram regex r hr sets hne 0
    simp only
    revert this
    cases setLoop compile cores ram r fs 0 sets with
    | ok ms => exact id
    | badRegex => rintro ⟨p, hp, e⟩; exact ⟨p, Or.inr hp, e⟩
    | noFlavor => exact id
    | panic => exact id

/-! ### Cases -/

private def exact_ : String → Option Rx := fun s => if s = "(" then none else some fun n => n == s

private def fl : List Flv := [⟨"1", "big", 8, 64, 10⟩, ⟨"2", "a", 2, 16, 20⟩, ⟨"3", "b", 2, 16, 10⟩, ⟨"4", "tiny", 1, 1, 1⟩]

/-- A non-trivial case: the cheapest of several that are big enough. -/
example : (cheapestServerFlavor exact_ fl 2 8 "").flavor? = some ⟨"3", "b", 2, 16, 10⟩ := by decide

/-- A non-trivial case: nothing in the second set is big enough. -/
example : (match cheapestServerFlavors exact_ (fun _ => fl) 2 8 "" [["a", "big"], ["tiny"], ["big"]] with | .ok l => l.map (·.map (·.id)) | _ => []) =
    [some "2", none, some "1"] := by decide

/-- The code violates C50: an empty pattern in a set, as in the configured sets `a;` or `a,,b`, makes it panic. -/
theorem C50_violated_panic : ∃ compile fs cores ram sets, cheapestServerFlavors compile fs cores ram "" sets = .panic :=
  ⟨exact_, fun _ => fl, 2, 8, [["a"], [""]], rfl⟩

end Verif.Cloud.Flavors
