/-
Files that are to be on the cloud servers commands run on: properties (C129).
-/
import Verif.Cloud.Config

namespace Verif.Cloud.Config
open Verif.Util (split join)

/-! ### Specification: what is written for a list of pairs of paths -/

/-- a pair: the path alone if both are the same, otherwise with a colon between -/
def text (p : Path × Path) : Path := if p.1 = p.2 then p.1 else p.1 ++ ':' :: p.2

/-- all of them with commas between -/
def spec (ps : List (Path × Path)) : Path := join ',' (ps.map text)

/-- no comma and no colon in either -/
def clean (p : Path × Path) : Prop := ',' ∉ p.1 ∧ ':' ∉ p.1 ∧ ',' ∉ p.2 ∧ ':' ∉ p.2

instance (p : Path × Path) : Decidable (clean p) := by unfold clean; infer_instance

/-- absolute, or in the home directory -/
def proper (p : Path) : Prop := (∃ q, p = '/' :: q) ∨ (∃ q, p = '~' :: '/' :: q)

/-! ### helpers -/

theorem split_two (a b : Path) (ha : ':' ∉ a) (hb : ':' ∉ b) : split ':' (a ++ ':' :: b) = [a, b] := by
  rw [Verif.Util.split_append ':' a b ha, Verif.Util.split_none ':' b hb]

theorem parse_text (p : Path × Path) (h : clean p) : parse (text p) = p := by
  obtain ⟨a, b⟩ := p
  obtain ⟨_, ha, _, hb⟩ := h
  unfold parse text
  by_cases e : a = b
  · subst e
    simp only [if_true]
    rw [Verif.Util.split_none ':' a ha]
  · simp only [e, if_false]
    rw [split_two a b ha hb]

theorem comma_text (p : Path × Path) (h : clean p) : ',' ∉ text p := by
  obtain ⟨a, b⟩ := p
  obtain ⟨h1, _, h3, _⟩ := h
  unfold text
  split <;> simp_all

theorem split_spec (ps : List (Path × Path)) (hn : ps ≠ []) (h : ∀ p ∈ ps, clean p) : split ',' (spec ps) = ps.map text := by
  unfold spec
  apply Verif.Util.split_join
  · simpa using hn
  · intro x hx
    obtain ⟨p, hp, rfl⟩ := List.mem_map.mp hx
    exact comma_text p (h p hp)

theorem split_cat {α : Type} [DecidableEq α] (c : α) : ∀ a b : List α, split c (a ++ c :: b) = split c a ++ split c b
  | [], b => by simp [split]
  | x :: xs, b => by
    have ih := split_cat c xs b
    by_cases hx : x = c
    · subst hx
      simp [split, ih]
    · have hne := Verif.Util.split_ne_nil c xs
      cases hs : split c xs with
      | nil => exact absurd hs hne
      | cons y ys => simp [split, hx, ih, hs]

theorem words_plain (p : Path) (hb : ' ' ∉ p) (hp : p ≠ []) : words p = [p] := by
  unfold words
  rw [Verif.Util.split_none ' ' p hb]
  simp [hp]

theorem words_nil : words [] = [] := by
  decide

theorem dest_written (m : Machine) (r : Path) : dest m r = resolve m.home (written m r) := rfl

theorem finish_fs {m m' : Machine} {p : Path} {t : Nat} (h : finish m p t = some m') (hb : ' ' ∉ p) :
    m'.home = m.home ∧ m'.cwd = m.cwd ∧ p ≠ [] ∧ ∀ q, m'.fs q = if q = resolve m.home p then
      touched t (m.fs q) else m.fs q := by
  unfold finish at h
  split at h
  · rename_i hc
    cases h
    have hp : p ≠ [] := by
      intro e
      subst e
      exact hc.1 words_nil
    refine ⟨rfl, rfl, hp, ?_⟩
    intro q
    simp only [words_plain p hb hp]
    by_cases e : q = resolve m.home p
    · subst e
      simp
    · have e' : ¬ resolve m.home p = q := fun x => e x.symm
      simp [e, e']
  · cases h

/-- what one copy does -/
theorem copyOne_fs {src d d' : Machine} {ok : Bool} {it : Path} (h : copyOne src ok it d = some d')
    (hb : (source src (parse it).1).isSome → ' ' ∉ written d (parse it).2) :
    d'.home = d.home ∧ (source src (parse it).1 = none → d' = d) ∧
    (source src (parse it).1 ≠ some .dir) ∧
    (∀ f, source src (parse it).1 = some (.file f) → ∀ q, d'.fs q = if q = dest d (parse it).2 then
      some (.file { content := f.content, mode := 600, mtime := f.mtime }) else d.fs q) := by
  unfold copyOne at h
  cases hs : source src (parse it).1 with
  | none =>
    rw [hs] at h
    cases h
    refine ⟨rfl, fun _ => rfl, by simp, by simp⟩
  | some e =>
    rw [hs] at h
    have hb' := hb (by rw [hs]; rfl)
    cases e with
    | dir => cases h
    | file f =>
      simp only at h
      split at h
      · split at h
        · cases h
        · obtain ⟨h1, _, _, h4⟩ := finish_fs h hb'
          refine ⟨h1, by simp, by simp, ?_⟩
          intro g hg q
          cases hg
          rw [h4 q]
          simp only [Machine.put, ← dest_written]
          by_cases e : q = dest d (parse it).2
          · have : q = resolve d.home (written d (parse it).2) := e
            simp [e, ← dest_written, touched]
          · have : ¬ q = resolve d.home (written d (parse it).2) := e
            simp [e, this]
        · obtain ⟨h1, _, _, h4⟩ := finish_fs h hb'
          refine ⟨h1, by simp, by simp, ?_⟩
          intro g hg q
          cases hg
          rw [h4 q]
          simp only [Machine.put, ← dest_written]
          by_cases e : q = dest d (parse it).2
          · have : q = resolve d.home (written d (parse it).2) := e
            simp [e, ← dest_written, touched]
          · have : ¬ q = resolve d.home (written d (parse it).2) := e
            simp [e, this]
      · cases h

theorem dest_home {d d' : Machine} (h : d'.home = d.home) (r : Path) : dest d' r = dest d r := by
  unfold dest
  rw [h]

theorem written_home {d d' : Machine} (h : d'.home = d.home) (r : Path) : written d' r = written d r := by
  unfold written
  rw [h]

theorem copyItems_home {src : Machine} {ok : Nat → Bool} : ∀ {its : List Path} {i : Nat} {d d' : Machine},
    copyItems src ok i its d = some d' →
    (∀ it ∈ its, (source src (parse it).1).isSome → ' ' ∉ written d (parse it).2) → d'.home = d.home
  | [], i, d, d', h, _ => by cases h; rfl
  | it :: rest, i, d, d', h, hb => by
    unfold copyItems at h
    cases h1 : copyOne src (ok i) it d with
    | none => rw [h1] at h; cases h
    | some d1 =>
      rw [h1] at h
      have e := (copyOne_fs h1 (hb it (by simp))).1
      have := copyItems_home h (fun x hx hs => by rw [written_home e]; exact hb x (by simp [hx]) hs)
      rw [this, e]

/-- nothing goes to `q`: it is as it was -/
theorem copyItems_other {src : Machine} {ok : Nat → Bool} {q : Path} : ∀ {its : List Path} {i : Nat} {d d' : Machine},
    copyItems src ok i its d = some d' →
    (∀ it ∈ its, (source src (parse it).1).isSome → ' ' ∉ written d (parse it).2) →
    (∀ it ∈ its, (source src (parse it).1).isSome → dest d (parse it).2 ≠ q) → d'.fs q = d.fs q
  | [], i, d, d', h, _, _ => by cases h; rfl
  | it :: rest, i, d, d', h, hb, hq => by
    unfold copyItems at h
    cases h1 : copyOne src (ok i) it d with
    | none => rw [h1] at h; cases h
    | some d1 =>
      rw [h1] at h
      obtain ⟨e, e1, e2, e3⟩ := copyOne_fs h1 (hb it (by simp))
      have h2 := copyItems_other (q := q) h (fun x hx hs => by rw [written_home e]; exact hb x (by simp [hx]) hs)
        (fun x hx hs => by rw [dest_home e]; exact hq x (by simp [hx]) hs)
      rw [h2]
      cases hs : source src (parse it).1 with
      | none => rw [e1 hs]
      | some y =>
        cases y with
        | dir => exact absurd hs e2
        | file f =>
          rw [e3 f hs q]
          have := hq it (by simp) (by rw [hs]; rfl)
          simp [Ne.symm this]

theorem copyItems_last {src : Machine} {ok : Nat → Bool} {it : Path} {f : File}
    (hf : source src (parse it).1 = some (.file f)) : ∀ {its : List Path} {i k : Nat} {d d' : Machine},
    copyItems src ok i its d = some d' →
    (∀ it ∈ its, (source src (parse it).1).isSome → ' ' ∉ written d (parse it).2) →
    its[k]? = some it →
    (∀ k' it', k < k' → its[k']? = some it' → (source src (parse it').1).isSome → dest d (parse it').2 ≠ dest d (parse it).2) →
    d'.fs (dest d (parse it).2) = some (.file { content := f.content, mode := 600, mtime := f.mtime })
  | [], i, k, d, d', h, _, hk, _ => by simp at hk
  | x :: rest, i, k, d, d', h, hb, hk, hl => by
    unfold copyItems at h
    cases h1 : copyOne src (ok i) x d with
    | none => rw [h1] at h; cases h
    | some d1 =>
      rw [h1] at h
      obtain ⟨e, e1, e2, e3⟩ := copyOne_fs h1 (hb x (by simp))
      have hb' : ∀ it ∈ rest, (source src (parse it).1).isSome → ' ' ∉ written d1 (parse it).2 :=
        fun x hx hs => by rw [written_home e]; exact hb x (by simp [hx]) hs
      cases k with
      | zero =>
        simp at hk
        subst hk
        have h2 := copyItems_other (q := dest d (parse x).2) h hb' (fun y hy hs => by
          rw [dest_home e]
          obtain ⟨n, hn⟩ := List.getElem?_of_mem hy
          exact hl (n + 1) y (by omega) (by simpa using hn) hs)
        rw [h2, e3 f hf]
        simp
      | succ k =>
        simp at hk
        have h2 := copyItems_last hf h hb' hk (fun k' it' hk' hi hs => by
          rw [dest_home e, dest_home e]
          exact hl (k' + 1) it' (by omega) (by simpa using hi) hs)
        rw [dest_home e] at h2
        exact h2

/-! ### What is written means what it should -/

/-- C129: a destination that isn't an absolute path, and does not begin with a tilde and a slash, is one in the home directory, with
the characters it has (those of other users' homes are not meant by a tilde). -/
theorem C129_relative (m : Machine) {r : Path} (h1 : ∀ q, r ≠ '/' :: q) (h2 : ∀ q, r ≠ '~' :: '/' :: q) (hr : r ≠ []) (hh : m.home ≠ []) :
    dest m r = m.home ++ '/' :: r := by
  have ht : tildeSlash r = false := by
    unfold tildeSlash
    split
    · exact absurd rfl (h2 _)
    · rfl
  unfold dest
  rw [ht]
  simp only [Bool.false_eq_true, if_false]
  unfold resolve
  split
  · exact absurd rfl (h1 _)
  · simp [joinP, hr, hh]

example : dest ⟨"/home/u".toList, "/x".toList, fun _ => none⟩ "~a/b".toList = "/home/u/~a/b".toList := by decide

/-- C129: with paths that have neither commas nor colons, what is written for a list of pairs is understood as these pairs, in order -/
theorem C129_grammar (ps : List (Path × Path)) (hn : ps ≠ []) (h : ∀ p ∈ ps, clean p) :
    (split ',' (spec ps)).map parse = ps := by
  rw [split_spec ps hn h, List.map_map]
  conv => rhs; rw [← List.map_id ps]
  apply List.map_congr_left
  intro p hp
  exact parse_text p (h p hp)

/-- two files, one of them to another place: as in the documentation -/
example : spec [("~/projectSpecific/.s3cfg".toList, "~/.s3cfg".toList), ("/etc/a".toList, "/etc/a".toList)] =
    "~/projectSpecific/.s3cfg:~/.s3cfg,/etc/a".toList ∧
    clean ("~/projectSpecific/.s3cfg".toList, "~/.s3cfg".toList) ∧ clean ("/etc/a".toList, "/etc/a".toList) := by decide +kernel

/-! ### Copying to one server -/

/-- C129: if copying worked, then each file named that is there has been copied to its place, with mode 600 and the time of the original,
unless one that was named later goes to the same place (paths on the server without blanks) -/
theorem C129_copied_partial {src d d' : Machine} {ok : Nat → Bool} {files : Path} (h : copyOver src ok files d = some d')
    (hb : ∀ it ∈ split ',' files, (source src (parse it).1).isSome → ' ' ∉ written d (parse it).2)
    {k : Nat} {it : Path} {f : File} (hk : (split ',' files)[k]? = some it) (hf : source src (parse it).1 = some (.file f))
    (hl : ∀ k' it', k < k' → (split ',' files)[k']? = some it' → (source src (parse it').1).isSome →
      dest d (parse it').2 ≠ dest d (parse it).2) :
    d'.fs (dest d (parse it).2) = some (.file { content := f.content, mode := 600, mtime := f.mtime }) :=
  copyItems_last hf h hb hk hl

/-- C129: and nothing else on the server is changed; what isn't there on this side is ignored -/
theorem C129_nothing_else_partial {src d d' : Machine} {ok : Nat → Bool} {files : Path} (h : copyOver src ok files d = some d')
    (hb : ∀ it ∈ split ',' files, (source src (parse it).1).isSome → ' ' ∉ written d (parse it).2) {q : Path}
    (hq : ∀ it ∈ split ',' files, (source src (parse it).1).isSome → dest d (parse it).2 ≠ q) : d'.fs q = d.fs q :=
  copyItems_other h hb hq

theorem finish_ok {m : Machine} {p : Path} {t : Nat} (hb : ' ' ∉ p) (hp : p ≠ []) (hs : (m.fs (resolve m.home p)).isSome) :
    (finish m p t).isSome := by
  unfold finish
  rw [words_plain p hb hp]
  simp [hs]

theorem copyItems_works {src : Machine} {ok : Nat → Bool} : ∀ {its : List Path} {i : Nat} {d : Machine}, (∀ n, ok n = true) →
    (∀ it ∈ its, source src (parse it).1 ≠ some .dir) →
    (∀ it ∈ its, (source src (parse it).1).isSome → ' ' ∉ written d (parse it).2 ∧ written d (parse it).2 ≠ [] ∧
      d.fs (dest d (parse it).2) ≠ some .dir) → (copyItems src ok i its d).isSome
  | [], _, _, _, _, _ => rfl
  | it :: rest, i, d, hok, hd, hq => by
    have h1 : ∃ d1, copyOne src (ok i) it d = some d1 := by
      unfold copyOne
      cases hs : source src (parse it).1 with
      | none => exact ⟨d, rfl⟩
      | some e =>
        cases e with
        | dir => exact absurd hs (hd it (by simp))
        | file f =>
          obtain ⟨hb, hn, hnd⟩ := hq it (by simp) (by rw [hs]; rfl)
          simp only [hok i, if_true]
          split
          · rename_i hx; exact absurd hx hnd
          · apply Option.isSome_iff_exists.mp
            apply finish_ok hb hn
            simp [Machine.put, ← dest_written]
          · apply Option.isSome_iff_exists.mp
            apply finish_ok hb hn
            simp [Machine.put, ← dest_written]
    obtain ⟨d1, h1⟩ := h1
    unfold copyItems
    rw [h1]
    obtain ⟨e, e1, e2, e3⟩ := copyOne_fs h1 (fun hs => (hq it (by simp) hs).1)
    apply copyItems_works hok (fun x hx => hd x (by simp [hx]))
    intro x hx hs
    rw [written_home e, dest_home e]
    obtain ⟨a, b, c⟩ := hq x (by simp [hx]) hs
    refine ⟨a, b, ?_⟩
    cases hs2 : source src (parse it).1 with
    | none => rw [e1 hs2]; exact c
    | some y =>
      cases y with
      | dir => exact absurd hs2 e2
      | file f =>
        rw [e3 f hs2]
        split
        · simp
        · exact c

/-- C129: copying works if nothing fails on the way, what is named and there is a file and not a directory, and its place is named
without blanks and isn't a directory -/
theorem C129_works_partial {src d : Machine} {ok : Nat → Bool} {files : Path} (hok : ∀ n, ok n = true)
    (hd : ∀ it ∈ split ',' files, source src (parse it).1 ≠ some .dir)
    (hq : ∀ it ∈ split ',' files, (source src (parse it).1).isSome → ' ' ∉ written d (parse it).2 ∧ written d (parse it).2 ≠ [] ∧
      d.fs (dest d (parse it).2) ≠ some .dir) : (copyOver src ok files d).isSome :=
  copyItems_works hok hd hq

/-! ### A concrete case -/

/-- files of a list -/
def ofList (l : List (String × Entry)) : Path → Option Entry := fun p => (l.find? (fun x => x.1.toList = p)).map (·.2)

/-- a user's computer -/
def mac : Machine where
  home := "/Users/jo".toList
  cwd := "/Users/jo/work".toList
  fs := ofList [("/Users/jo/p/.s3cfg", .file ⟨1, 644, 10⟩), ("/etc/a", .file ⟨2, 644, 20⟩), ("/Users/jo/my cfg", .file ⟨3, 644, 30⟩),
    ("/Users/jo/dir", .dir), ("/Users/jo/cfg", .file ⟨4, 600, 40⟩), ("/Users/jo/~cfg", .file ⟨5, 600, 50⟩)]

def vmFiles : List (String × Entry) := [("/home/ubuntu/.aws/config", .file ⟨9, 644, 5⟩)]

/-- a new server -/
def vm : Machine where
  home := "/home/ubuntu".toList
  cwd := "/home/ubuntu".toList
  fs := ofList vmFiles

/-- as in the documentation -/
def docSpec : Path := "~/p/.s3cfg:~/.s3cfg,~/.aws/config,/etc/a".toList

def good : Nat → Bool := fun _ => true

example : (∀ it ∈ split ',' docSpec, source mac (parse it).1 ≠ some .dir) ∧
    (∀ it ∈ split ',' docSpec, (source mac (parse it).1).isSome → ' ' ∉ written vm (parse it).2 ∧ written vm (parse it).2 ≠ [] ∧
      vm.fs (dest vm (parse it).2) ≠ some .dir) ∧
    ((copyOver mac good docSpec vm).map (fun d => [d.fs "/home/ubuntu/.s3cfg".toList, d.fs "/home/ubuntu/.aws/config".toList,
      d.fs "/etc/a".toList])) =
    some [some (.file ⟨1, 600, 10⟩), some (.file ⟨9, 644, 5⟩), some (.file ⟨2, 600, 20⟩)] := by
  decide +kernel

/-! ### What is not so -/

/-- C129: a path with a blank: the file is there and nothing fails, but the server can't be used, and so no command that needs it ever
runs -/
theorem C129_violated_blank : (source mac "~/my cfg".toList).isSome = true ∧
    (ready mac good "~/my cfg".toList vm).isNone = true := by decide +kernel

/-- C129: with a directory among what is named no server can be used either -/
theorem C129_violated_directory : (ready mac good "~/dir,/etc/a".toList vm).isNone = true ∧
    (ready mac good "/etc/a".toList vm).isSome = true := by decide +kernel

/-- C129: a file in the home directory whose name begins with a tilde is not copied; another is, to another place -/
theorem C129_violated_tilde :
    mac.fs "/Users/jo/~cfg".toList = some (.file ⟨5, 600, 50⟩) ∧
    ((ready mac good "~/~cfg".toList vm).map (fun d => (d.fs "/home/ubuntu/~cfg".toList, d.fs "/home/ubuntu/cfg".toList))) =
    some (none, some (.file ⟨4, 600, 40⟩)) := by decide +kernel

/-- C129: a path on the user's computer that doesn't exist is not ignored if there is such a file on the computer of the manager: that
goes to the servers, in a deployment and with `wr add` -/
theorem C129_violated_others_file :
    source mac "~/.aws/config".toList = none ∧
    ((ready mac good "~/.aws/config".toList vm).bind (fun h =>
      (ready h good (strip "~/.aws/config".toList) { vm with fs := fun _ => none }).map (fun d =>
        d.fs "/home/ubuntu/.aws/config".toList))) = some (some (.file ⟨9, 600, 5⟩)) := by decide +kernel

end Verif.Cloud.Config
