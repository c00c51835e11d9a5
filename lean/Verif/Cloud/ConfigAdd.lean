/-
Files that are to be on the cloud servers commands run on: from the user's computer by way of the manager's to the servers (C129).
-/
import Verif.Cloud.ConfigProps

namespace Verif.Cloud.Config
open Verif.Util (split join)

/-! ### Deployments -/

theorem strip_one (p : Path × Path) (h : clean p) :
    (match split ':' (text p) with
    | [_, b] => b
    | _ => text p) = p.2 := by
  obtain ⟨a, b⟩ := p
  obtain ⟨_, ha, _, hb⟩ := h
  unfold text
  by_cases e : a = b
  · subst e
    simp only [if_true]
    rw [Verif.Util.split_none ':' a ha]
  · simp only [e, if_false]
    rw [split_two a b ha hb]

theorem strip_spec (ps : List (Path × Path)) (hn : ps ≠ []) (h : ∀ p ∈ ps, clean p) :
    strip (spec ps) = join ',' (ps.map (·.2)) := by
  unfold strip
  rw [split_spec ps hn h, List.map_map]
  congr 1
  apply List.map_congr_left
  intro p hp
  exact strip_one p (h p hp)

theorem split_strip (ps : List (Path × Path)) (hn : ps ≠ []) (h : ∀ p ∈ ps, clean p) :
    split ',' (strip (spec ps)) = ps.map (·.2) := by
  rw [strip_spec ps hn h]
  apply Verif.Util.split_join
  · simpa using hn
  · intro x hx
    obtain ⟨p, hp, rfl⟩ := List.mem_map.mp hx
    exact (h p hp).2.2.1

theorem split_wanted (conf : Path) (own : Option Path) (hc : conf ≠ []) :
    split ',' (wanted conf own) = split ',' conf ++ (match own with
      | none => []
      | some v => split ',' v) := by
  unfold wanted
  cases own with
  | none => simp
  | some v => simp [hc, split_cat]

theorem joinP_abs {h p : Path} (hh : ∃ x, h = '/' :: x) : ∃ x, joinP h p = '/' :: x := by
  obtain ⟨x, rfl⟩ := hh
  unfold joinP
  split
  · exact ⟨x, rfl⟩
  · simp

theorem resolve_abs {c p : Path} (hp : ∃ x, p = '/' :: x) : resolve c p = p := by
  obtain ⟨x, rfl⟩ := hp
  rfl

/-- on one computer, a proper path means the same whether files are copied from there or to there -/
theorem source_dest {m : Machine} {r : Path} (hh : ∃ x, m.home = '/' :: x) (hr : proper r) : source m r = m.fs (dest m r) := by
  have hhn : m.home ≠ [] := by obtain ⟨x, hx⟩ := hh; rw [hx]; simp
  unfold source dest tildaToHome
  rcases hr with ⟨q, rfl⟩ | ⟨q, rfl⟩
  · have : tildeSlash ('/' :: q) = false := by
      unfold tildeSlash
      split
      · rename_i h; simp at h
      · rfl
    simp [this, resolve]
  · have ht : tildeSlash ('~' :: '/' :: q) = true := rfl
    simp only [ht, hhn, ne_eq, not_false_eq_true, and_self, if_true]
    obtain ⟨x, hx⟩ := joinP_abs (p := trimLeft ('~' :: '/' :: q)) hh
    rw [hx]
    simp [resolve]

/-- C129: in a deployment, a file the user named is copied to the computer of the manager and from there to every server made for a
command, whatever else is to be there: what was on the user's computer is on the server at the place asked for. (Places without
blanks, absolute or in the home directory; nothing named later goes to the same place.) -/
theorem C129_deploy_partial {user head0 head w0 w : Machine} {ok ok' : Nat → Bool} {ps : List (Path × Path)} {tok : Path}
    {own : Option Path} (hn : ps ≠ []) (hc : ∀ p ∈ ps, clean p)
    (h1 : ready user ok (spec ps) head0 = some head)
    (h2 : ready head ok' (wanted (addConfig (strip (spec ps)) tok) own) w0 = some w)
    (hh : ∃ x, head0.home = '/' :: x)
    {k : Nat} {l r : Path} {f : File} (hk : ps[k]? = some (l, r)) (hr : proper r) (hf : source user l = some (.file f))
    (b1 : ∀ p ∈ ps, ' ' ∉ written head0 p.2)
    (b2 : ∀ it ∈ split ',' (wanted (addConfig (strip (spec ps)) tok) own), ' ' ∉ written w0 (parse it).2)
    (d1 : ∀ k' p, k < k' → ps[k']? = some p → dest head0 p.2 ≠ dest head0 r)
    (d2 : ∀ k' it, k < k' → (split ',' (wanted (addConfig (strip (spec ps)) tok) own))[k']? = some it →
      dest w0 (parse it).2 ≠ dest w0 r) :
    w.fs (dest w0 r) = some (.file { content := f.content, mode := 600, mtime := f.mtime }) := by
  have hmem : (l, r) ∈ ps := List.mem_of_getElem? hk
  have hcl := hc _ hmem
  -- first copy
  have hs1 := split_spec ps hn hc
  have hne1 : spec ps ≠ [] := by
    intro e
    rw [e] at hs1
    have : ps.map text = [[]] := hs1.symm
    have hp : text (l, r) = [] := by
      have : text (l, r) ∈ ps.map text := List.mem_map_of_mem hmem
      rw [‹ps.map text = [[]]›] at this
      simpa using this
    unfold text at hp
    split at hp
    · rename_i e2
      simp only at hp e2
      rw [hp] at hf
      simp [source, tildaToHome, tildeSlash] at hf
    · simp at hp
  unfold ready at h1
  rw [if_neg hne1] at h1
  unfold copyOver at h1
  rw [hs1] at h1
  have hb1 : ∀ it ∈ ps.map text, (source user (parse it).1).isSome → ' ' ∉ written head0 (parse it).2 := by
    intro it hit _
    obtain ⟨p, hp, rfl⟩ := List.mem_map.mp hit
    rw [parse_text p (hc p hp)]
    exact b1 p hp
  have e1 := copyItems_home h1 hb1
  have hpt := parse_text (l, r) hcl
  have hfile := copyItems_last (it := text (l, r)) (f := f) (by rw [hpt]; exact hf) h1 hb1 (k := k) (by simp [hk])
    (fun k' it' hk' hi _ => by
      simp only [List.getElem?_map] at hi
      cases hp' : ps[k']? with
      | none => rw [hp'] at hi; simp at hi
      | some p' =>
        rw [hp'] at hi
        simp at hi
        subst hi
        rw [parse_text p' (hc p' (List.mem_of_getElem? hp')), hpt]
        exact d1 k' p' hk' hp')
  rw [hpt] at hfile
  -- second
  have hss := split_strip ps hn hc
  have hne2 : strip (spec ps) ≠ [] := by
    intro e
    rw [e] at hss
    have hm : r ∈ ps.map (·.2) := List.mem_map.mpr ⟨(l, r), hmem, rfl⟩
    rw [← hss] at hm
    simp [split] at hm
    subst hm
    rcases hr with ⟨q, h⟩ | ⟨q, h⟩ <;> simp at h
  have hne3 : addConfig (strip (spec ps)) tok ≠ [] := by
    unfold addConfig
    simp [hne2]
  have hsw := split_wanted (addConfig (strip (spec ps)) tok) own hne3
  have hsa : split ',' (addConfig (strip (spec ps)) tok) = ps.map (·.2) ++ split ',' tok := by
    unfold addConfig
    rw [if_neg hne2, split_cat, hss]
  have hne4 : wanted (addConfig (strip (spec ps)) tok) own ≠ [] := by
    unfold wanted
    cases own <;> simp [hne3]
  unfold ready at h2
  rw [if_neg hne4] at h2
  have hk2 : (split ',' (wanted (addConfig (strip (spec ps)) tok) own))[k]? = some r := by
    rw [hsw, hsa, List.append_assoc, List.getElem?_append_left]
    · simp [hk]
    · have := List.getElem?_eq_some_iff.mp hk
      obtain ⟨hlt, _⟩ := this
      simpa using hlt
  have hpr : parse r = (r, r) := by
    unfold parse
    rw [Verif.Util.split_none ':' r hcl.2.2.2]
  have hsrc : source head (parse r).1 = some (.file { content := f.content, mode := 600, mtime := f.mtime }) := by
    rw [hpr]
    simp only
    rw [source_dest (by rw [e1]; exact hh) hr, dest_home e1]
    exact hfile
  have := C129_copied_partial h2 (fun it hit _ => b2 it hit) hk2 hsrc (fun k' it' hk' hi _ => by
    rw [hpr]
    exact d2 k' it' hk' hi)
  rw [hpr] at this
  exact this

/-- the case of the documentation: from the user's computer to the manager's and to a server where the home directory is elsewhere -/
def centos : Machine where
  home := "/home/centos".toList
  cwd := "/home/centos".toList
  fs := fun _ => none

def twoFiles : List (Path × Path) := [("~/p/.s3cfg".toList, "~/.s3cfg".toList), ("/etc/a".toList, "/etc/a".toList)]

def tokenItem : Path := "/home/ubuntu/.wr_production/client.token:~/.wr_production/client.token".toList

example : (∀ p ∈ twoFiles, clean p) ∧
    (∀ p ∈ twoFiles, ' ' ∉ written vm p.2) ∧
    (∀ it ∈ split ',' (wanted (addConfig (strip (spec twoFiles)) tokenItem) (some "/etc/b".toList)), ' ' ∉ written centos (parse it).2) ∧
    ((ready mac good (spec twoFiles) vm).bind (fun h =>
      (ready h good (wanted (addConfig (strip (spec twoFiles)) tokenItem) (some "/etc/b".toList)) centos).map
        (fun d => (d.fs "/home/centos/.s3cfg".toList, d.fs "/etc/a".toList)))) =
    some (some (.file ⟨1, 600, 10⟩), some (.file ⟨2, 600, 20⟩)) := by decide +kernel

/-! ### Jobs -/

/-- on the manager's computer, an item is about this file -/
def about (m : Machine) (it : Path) : Path := resolve m.cwd (tildaToHome m.home (parse it).1)

/-- paths of the upload directory: absolute, without commas and colons, and another for other contents -/
structure UpOK (up : Nat → Path) : Prop where
  abs : ∀ c, ∃ x, up c = '/' :: x
  comma : ∀ c, ',' ∉ up c
  colon : ∀ c, ':' ∉ up c
  inj : ∀ a b, up a = up b → a = b

/-- events that leave the upload directory alone: nobody else changes files in it, and nobody names one -/
def Fair (up : Nat → Path) (m : Machine) : Ev → Prop
  | .mgrEdit p _ => ∀ c, p ≠ up c
  | .add files _ _ => ∀ it ∈ split ',' files, ∀ c, about m it ≠ up c
  | .addHere files => ∀ it ∈ split ',' files, ∀ c, about m it ≠ up c
  | _ => True

/-- at most one colon -/
def tidy (it : Path) : Prop := (split ':' it).length ≤ 2

instance (it : Path) : Decidable (tidy it) := by unfold tidy; infer_instance

theorem about_up {up : Nat → Path} (hu : UpOK up) (m : Machine) (c : Nat) (r : Path) (hr : ':' ∉ r) :
    parse (up c ++ ':' :: r) = (up c, r) ∧ about m (up c ++ ':' :: r) = up c := by
  have hp : parse (up c ++ ':' :: r) = (up c, r) := by
    unfold parse
    rw [split_two _ _ (hu.colon c) hr]
  refine ⟨hp, ?_⟩
  unfold about
  rw [hp]
  obtain ⟨x, hx⟩ := hu.abs c
  have : tildeSlash (up c) = false := by
    rw [hx]
    unfold tildeSlash
    split
    · rename_i h; simp at h
    · rfl
  have ht : tildaToHome m.home (up c) = up c := by simp [tildaToHome, this]
  simp only [ht]
  exact resolve_abs (hu.abs c)

theorem tidy_cases {it : Path} (h : tidy it) :
    (split ':' it = [it] ∧ parse it = (it, it) ∧ ':' ∉ it) ∨
    (∃ l r, split ':' it = [l, r] ∧ parse it = (l, r) ∧ ':' ∉ r) := by
  have hc := Verif.Util.split_clean ':' it
  have hj := Verif.Util.join_split ':' it
  unfold tidy at h
  unfold parse
  match hs : split ':' it with
  | [] => exact absurd hs (Verif.Util.split_ne_nil ':' it)
  | [a] =>
    left
    rw [hs] at hj hc
    simp [join] at hj
    subst hj
    exact ⟨rfl, rfl, hc a (by simp)⟩
  | [a, b] =>
    right
    rw [hs] at hc
    exact ⟨a, b, rfl, rfl, hc b (by simp)⟩
  | a :: b :: c :: r => rw [hs] at h; simp at h

/-- the manager's computer has the same directories, nothing is gone from the upload directory, and nothing wrong has come -/
structure Grown (up : Nat → Path) (m m' : Machine) : Prop where
  home : m'.home = m.home
  cwd : m'.cwd = m.cwd
  keep : ∀ c, (m.fs (up c)).isSome → (m'.fs (up c)).isSome
  right : (∀ c e, m.fs (up c) = some e → ∃ t, e = .file ⟨c, 600, t⟩) → ∀ c e, m'.fs (up c) = some e → ∃ t, e = .file ⟨c, 600, t⟩

theorem Grown.refl (up : Nat → Path) (m : Machine) : Grown up m m := ⟨rfl, rfl, fun _ h => h, fun h => h⟩

theorem Grown.trans {up : Nat → Path} {a b c : Machine} (h1 : Grown up a b) (h2 : Grown up b c) : Grown up a c :=
  ⟨h2.home.trans h1.home, h2.cwd.trans h1.cwd, fun x h => h2.keep x (h1.keep x h), fun h => h2.right (h1.right h)⟩

theorem uploadOne_grown {up : Nat → Path} (hu : UpOK up) (user mgr : Machine) (now : Nat) (ok : Bool) (cf : Path) :
    Grown up mgr (uploadOne up user now ok cf mgr).2 := by
  unfold uploadOne
  split
  · exact Grown.refl _ _
  · split
    · exact Grown.refl _ _
    · exact Grown.refl _ _
    · rename_i f _
      split
      · simp only
        split
        · exact Grown.refl _ _
        · refine ⟨rfl, rfl, ?_, ?_⟩
          · intro c hc
            simp only [Machine.put]
            split <;> simp_all
          · intro h c e he
            simp only [Machine.put] at he
            split at he
            · rename_i heq
              have := hu.inj _ _ heq
              subst this
              cases he
              exact ⟨now, rfl⟩
            · exact h c e he
      · exact Grown.refl _ _

theorem uploadItems_grown {up : Nat → Path} (hu : UpOK up) (user : Machine) (now : Nat) (ok : Nat → Bool) :
    ∀ (its : List Path) (i : Nat) (mgr : Machine), Grown up mgr (uploadItems up user now ok i its mgr).2
  | [], _, mgr => Grown.refl _ _
  | cf :: rest, i, mgr => by
    unfold uploadItems
    exact (uploadOne_grown hu user mgr now (ok i) cf).trans (uploadItems_grown hu user now ok rest (i + 1) _)

/-- what becomes of an item: it stays, or it is replaced by one about the upload directory, where the file then is -/
theorem uploadOne_item {up : Nat → Path} (hu : UpOK up) (user mgr : Machine) (now : Nat) (ok : Bool) {cf : Path} (hcm : ',' ∉ cf) :
    ',' ∉ (uploadOne up user now ok cf mgr).1 ∧
    (((uploadOne up user now ok cf mgr).1 = cf ∧
        (tidy cf → ok = true → ∀ f, source user (parse cf).1 ≠ some (.file f))) ∨
      (∃ f r, (uploadOne up user now ok cf mgr).1 = up f.content ++ ':' :: r ∧ ':' ∉ r ∧
        ((uploadOne up user now ok cf mgr).2.fs (up f.content)).isSome ∧
        (tidy cf → source user (parse cf).1 = some (.file f) ∧ r = (parse cf).2))) := by
  have hcl := Verif.Util.split_clean ':' cf
  have hsub : ∀ p ∈ split ':' cf, ',' ∉ p := by
    have hj := Verif.Util.join_split ':' cf
    intro p hp hx
    apply hcm
    rw [← hj]
    clear hj hcl hcm
    generalize split ':' cf = ps at hp
    induction ps with
    | nil => simp at hp
    | cons a as ih =>
      cases as with
      | nil =>
        simp at hp
        subst hp
        simpa [join] using hx
      | cons b bs =>
        rcases List.mem_cons.mp hp with rfl | hp
        · simp [join, hx]
        · have := ih hp
          simp only [join, List.mem_append, List.mem_cons]
          exact Or.inr (Or.inr this)
  unfold uploadOne
  cases hs : split ':' cf with
  | nil => exact absurd hs (Verif.Util.split_ne_nil ':' cf)
  | cons l more =>
    simp only
    have hl : ':' ∉ l ∧ ',' ∉ l := ⟨hcl l (by rw [hs]; simp), hsub l (by rw [hs]; simp)⟩
    have hp1 : tidy cf → (parse cf).1 = l := by
      intro ht
      rcases tidy_cases ht with ⟨h1, h2, _⟩ | ⟨a, b, h1, h2, _⟩
      · rw [h2]
        rw [hs] at h1
        simp at h1
        exact h1.1.symm
      · rw [h2]
        rw [hs] at h1
        simp at h1
        exact h1.1.symm
    cases hsrc : source user l with
    | none =>
      refine ⟨hcm, Or.inl ⟨rfl, ?_⟩⟩
      intro ht _ f
      rw [hp1 ht, hsrc]
      simp
    | some e =>
      cases e with
      | dir =>
        refine ⟨hcm, Or.inl ⟨rfl, ?_⟩⟩
        intro ht _ f
        rw [hp1 ht, hsrc]
        simp
      | file f =>
        simp only
        by_cases hok : ok = true
        · rw [if_pos hok]
          simp only
          have hsp : tidy cf → desired l more = (parse cf).2 := by
            intro ht
            rcases tidy_cases ht with ⟨h1, h2, _⟩ | ⟨a, b, h1, h2, _⟩
            · rw [h2]
              rw [hs] at h1
              simp at h1
              rw [h1.2]
              exact h1.1
            · rw [h2]
              rw [hs] at h1
              simp at h1
              rw [h1.2]
              rfl
          have hab : ':' ∉ desired l more ∧ ',' ∉ desired l more := by
            unfold desired
            split
            · rename_i x
              exact ⟨hcl x (by rw [hs]; simp), hsub x (by rw [hs]; simp)⟩
            · exact hl
          obtain ⟨ha, hb⟩ := hab
          have hcu := hu.comma f.content
          refine ⟨by simp [hcu, hb], Or.inr ⟨f, _, rfl, ha, ?_, ?_⟩⟩
          · split
            · assumption
            · simp [Machine.put]
          · intro ht
            refine ⟨?_, hsp ht⟩
            rw [hp1 ht, hsrc]
        · rw [if_neg hok]
          refine ⟨hcm, Or.inl ⟨rfl, ?_⟩⟩
          intro _ h
          exact absurd h hok

theorem uploadItems_get {up : Nat → Path} (hu : UpOK up) (user : Machine) (now : Nat) (ok : Nat → Bool) :
    ∀ (its : List Path) (i : Nat) (mgr : Machine), (∀ it ∈ its, ',' ∉ it) →
    (uploadItems up user now ok i its mgr).1.length = its.length ∧
    ∀ k cf, its[k]? = some cf → ∃ it, (uploadItems up user now ok i its mgr).1[k]? = some it ∧ ',' ∉ it ∧
      ((it = cf ∧ (tidy cf → ok (i + k) = true → ∀ f, source user (parse cf).1 ≠ some (.file f))) ∨
      (∃ f r, it = up f.content ++ ':' :: r ∧ ':' ∉ r ∧ ((uploadItems up user now ok i its mgr).2.fs (up f.content)).isSome ∧
        (tidy cf → source user (parse cf).1 = some (.file f) ∧ r = (parse cf).2)))
  | [], _, _, _ => ⟨rfl, by simp⟩
  | c :: rest, i, mgr, hc => by
    obtain ⟨h1, h2⟩ := uploadItems_get hu user now ok rest (i + 1) (uploadOne up user now (ok i) c mgr).2 (fun x hx => hc x (by simp [hx]))
    refine ⟨by simp [uploadItems, h1], ?_⟩
    intro k cf hk
    cases k with
    | zero =>
      simp at hk
      subst hk
      obtain ⟨ha, hb⟩ := uploadOne_item hu user mgr now (ok i) (hc c (by simp))
      refine ⟨(uploadOne up user now (ok i) c mgr).1, by simp [uploadItems], ha, ?_⟩
      rcases hb with hb | ⟨f, r, b1, b2, b3, b4⟩
      · exact Or.inl hb
      · refine Or.inr ⟨f, r, b1, b2, ?_, b4⟩
        exact (uploadItems_grown hu user now ok rest (i + 1) _).keep _ b3
    | succ k =>
      simp at hk
      obtain ⟨it, a1, a2, a3⟩ := h2 k cf hk
      have e : i + 1 + k = i + (k + 1) := by omega
      rw [e] at a3
      exact ⟨it, by simpa [uploadItems] using a1, a2, a3⟩

/-! ### the whole -/

/-- what is kept: the files of the upload directory are right; jobs name files there only that are there; and for servers, what was
named of the upload directory came there -/
structure Inv (up : Nat → Path) (m0 : Machine) (conf : Path) (s : S) : Prop where
  home : s.mgr.home = m0.home
  cwd : s.mgr.cwd = m0.cwd
  conf : s.conf = conf
  right : ∀ c e, s.mgr.fs (up c) = some e → ∃ t, e = .file ⟨c, 600, t⟩
  there : ∀ j ∈ s.jobs, ∀ o, j.own = some o → ∀ it ∈ split ',' o, ∀ c, about m0 it = up c → (s.mgr.fs (up c)).isSome
  sent : ∀ j ∈ s.jobs, ∀ (k : Nat) cf f, (split ',' j.asked)[k]? = some cf → (∀ it ∈ split ',' j.asked, tidy it) → j.sent k = true →
    source j.was (parse cf).1 = some (.file f) →
    ∃ o, j.own = some o ∧ (split ',' o)[k]? = some (up f.content ++ ':' :: (parse cf).2) ∧
      ∀ (k' : Nat) (it : Path), (split ',' o)[k']? = some it → ∃ cf', (split ',' j.asked)[k']? = some cf' ∧ (parse it).2 = (parse cf').2
  came : ∀ v ∈ s.servers, (∀ it ∈ split ',' v.files, ' ' ∉ written v.m (parse it).2) →
    ∀ (k : Nat) it c, (split ',' v.files)[k]? = some it → about m0 it = up c →
    (∀ (k' : Nat) it', k < k' → (split ',' v.files)[k']? = some it' → dest v.m (parse it').2 ≠ dest v.m (parse it).2) →
    ∃ t, v.m.fs (dest v.m (parse it).2) = some (.file ⟨c, 600, t⟩)

theorem copyOne_home' {src d d' : Machine} {ok : Bool} {it : Path} (h : copyOne src ok it d = some d') : d'.home = d.home := by
  have hf : ∀ (m m' : Machine) p t, finish m p t = some m' → m'.home = m.home := by
    intro m m' p t h
    unfold finish at h
    split at h
    · cases h; rfl
    · cases h
  unfold copyOne at h
  split at h
  · cases h; rfl
  · cases h
  · split at h
    · split at h
      · cases h
      · have := hf _ _ _ _ h; exact this
      · have := hf _ _ _ _ h; exact this
    · cases h

theorem copyItems_home' {src : Machine} {ok : Nat → Bool} : ∀ {its : List Path} {i : Nat} {d d' : Machine},
    copyItems src ok i its d = some d' → d'.home = d.home
  | [], i, d, d', h => by cases h; rfl
  | it :: rest, i, d, d', h => by
    unfold copyItems at h
    cases h1 : copyOne src (ok i) it d with
    | none => rw [h1] at h; cases h
    | some d1 =>
      rw [h1] at h
      rw [copyItems_home' h, copyOne_home' h1]

theorem mgr_step {up : Nat → Path} {m0 : Machine} {conf : Path} {s s' : S} (hI : Inv up m0 conf s) (hg : Grown up s.mgr s'.mgr)
    (hc : s'.conf = s.conf) (hj : s'.jobs = s.jobs) (hv : s'.servers = s.servers) : Inv up m0 conf s' := by
  refine ⟨hg.home.trans hI.home, hg.cwd.trans hI.cwd, hc.trans hI.conf, hg.right hI.right, ?_, ?_, ?_⟩
  · intro j hj' o ho it hit c ha
    exact hg.keep c (hI.there j (hj ▸ hj') o ho it hit c ha)
  · rw [hj]; exact hI.sent
  · rw [hv]; exact hI.came

theorem inv_step {up : Nat → Path} (hu : UpOK up) {m0 : Machine} {conf : Path} (hcwd : ∀ c, m0.cwd ≠ up c)
    (hconf : ∀ it ∈ split ',' conf, ∀ c, about m0 it ≠ up c)
    {s s' : S} {e : Ev} (hI : Inv up m0 conf s) (hf : Fair up m0 e) (h : step up s e = some s') : Inv up m0 conf s' := by
  cases e with
  | edit p e =>
    cases h
    exact mgr_step hI (Grown.refl _ _) rfl rfl rfl
  | mgrEdit p e =>
    cases h
    refine mgr_step hI ⟨rfl, rfl, ?_, ?_⟩ rfl rfl rfl
    · intro c hc
      simp only [Machine.put]
      split
      · rfl
      · exact hc
    · intro hr c e he
      simp only [Machine.put] at he
      split at he
      · rename_i hx
        exact absurd hx.symm (hf c)
      · exact hr c e he
  | addPlain =>
    cases h
    refine ⟨hI.home, hI.cwd, hI.conf, hI.right, ?_, ?_, hI.came⟩
    · intro j hj o ho
      rcases List.mem_append.mp hj with hj | hj
      · exact hI.there j hj o ho
      · simp at hj
        subst hj
        cases ho
    · intro j hj k cf f h1 h2 h3 h4
      rcases List.mem_append.mp hj with hj | hj
      · exact hI.sent j hj k cf f h1 h2 h3 h4
      · simp at hj
        subst hj
        cases h3
  | addHere files =>
    simp only [step] at h
    split at h
    · cases h
    cases h
    refine ⟨hI.home, hI.cwd, hI.conf, hI.right, ?_, ?_, hI.came⟩
    · intro j hj o ho it hit c ha
      rcases List.mem_append.mp hj with hj | hj
      · exact hI.there j hj o ho it hit c ha
      · simp at hj
        subst hj
        cases ho
        exact absurd ha (hf it hit c)
    · intro j hj k cf f h1 h2 h3 h4
      rcases List.mem_append.mp hj with hj | hj
      · exact hI.sent j hj k cf f h1 h2 h3 h4
      · simp at hj
        subst hj
        cases h3
  | add files now ok =>
    simp only [step] at h
    split at h
    · cases h
    rename_i hfn
    cases h
    have hg := uploadItems_grown hu s.user now ok (split ',' files) 0 s.mgr
    obtain ⟨hlen, hget⟩ := uploadItems_get hu s.user now ok (split ',' files) 0 s.mgr (Verif.Util.split_clean ',' files)
    have hgets : ∀ (k : Nat) it, (uploadItems up s.user now ok 0 (split ',' files) s.mgr).1[k]? = some it →
        ∃ cf, (split ',' files)[k]? = some cf := by
      intro k it hk
      have := (List.getElem?_eq_some_iff.mp hk).1
      rw [hlen] at this
      exact ⟨_, List.getElem?_eq_getElem this⟩
    have hsp : split ',' (uploadAll up s.user now ok files s.mgr).1 = (uploadItems up s.user now ok 0 (split ',' files) s.mgr).1 := by
      unfold uploadAll
      simp only
      apply Verif.Util.split_join
      · intro e
        rw [e] at hlen
        have := Verif.Util.split_ne_nil ',' files
        exact this (List.eq_nil_of_length_eq_zero hlen.symm)
      · intro it hit
        obtain ⟨k, hk⟩ := List.getElem?_of_mem hit
        obtain ⟨cf, hcf⟩ := hgets k it hk
        obtain ⟨it', h1, h2, _⟩ := hget k cf hcf
        rw [hk] at h1
        cases h1
        exact h2
    refine ⟨hg.home.trans hI.home, hg.cwd.trans hI.cwd, hI.conf, hg.right hI.right, ?_, ?_, hI.came⟩
    · intro j hj o ho it hit c ha
      rcases List.mem_append.mp hj with hj | hj
      · exact hg.keep c (hI.there j hj o ho it hit c ha)
      · simp at hj
        subst hj
        cases ho
        rw [hsp] at hit
        obtain ⟨k, hk⟩ := List.getElem?_of_mem hit
        obtain ⟨cf, hcf⟩ := hgets k it hk
        obtain ⟨it', h1, h2, h3⟩ := hget k cf hcf
        rw [hk] at h1
        cases h1
        rcases h3 with ⟨rfl, _⟩ | ⟨f, r, rfl, hr, hx, _⟩
        · exact absurd ha (hf it (List.mem_of_getElem? hcf) c)
        · have := (about_up hu m0 f.content r hr).2
          rw [ha] at this
          have := hu.inj _ _ this
          subst this
          exact hx
    · intro j hj k cf f h1 h2 h3 h4
      rcases List.mem_append.mp hj with hj | hj
      · exact hI.sent j hj k cf f h1 h2 h3 h4
      · simp at hj
        subst hj
        simp only at h1 h2 h3 h4
        refine ⟨_, rfl, ?_, ?_⟩
        · rw [hsp]
          obtain ⟨it', a1, a2, a3⟩ := hget k cf h1
          have htd := h2 cf (List.mem_of_getElem? h1)
          rcases a3 with ⟨rfl, hno⟩ | ⟨g, r, rfl, hr, hx, hy⟩
          · exact absurd h4 (hno htd (by simpa using h3) f)
          · obtain ⟨y1, y2⟩ := hy htd
            rw [h4] at y1
            cases y1
            subst y2
            exact a1
        · intro k' it hit
          rw [hsp] at hit
          obtain ⟨cf', hcf'⟩ := hgets k' it hit
          refine ⟨cf', hcf', ?_⟩
          obtain ⟨it', a1, a2, a3⟩ := hget k' cf' hcf'
          rw [hit] at a1
          cases a1
          have htd := h2 cf' (List.mem_of_getElem? hcf')
          rcases a3 with ⟨rfl, hno⟩ | ⟨g, r, rfl, hr, hx, hy⟩
          · rfl
          · rw [(about_up hu m0 g.content r hr).1]
            exact (hy htd).2
  | spawn i ok fresh =>
    simp only [step] at h
    cases hj : s.jobs[i]? with
    | none => rw [hj] at h; cases h
    | some j =>
      rw [hj] at h
      simp only at h
      cases hr : ready s.mgr ok (wanted s.conf j.own) fresh with
      | none => rw [hr] at h; cases h
      | some m =>
        rw [hr] at h
        cases h
        refine ⟨hI.home, hI.cwd, hI.conf, hI.right, hI.there, hI.sent, ?_⟩
        intro v hv hb k it c hk ha hl
        rcases List.mem_append.mp hv with hv | hv
        · exact hI.came v hv hb k it c hk ha hl
        · simp at hv
          subst hv
          simp only at hb hk hl ⊢
          have hjm := List.mem_of_getElem? hj
          have hit := List.mem_of_getElem? hk
          have hnn : ∀ it, about m0 it = up c → tildaToHome m0.home (parse it).1 ≠ [] := by
            intro it h1 h2
            unfold about at h1
            rw [h2] at h1
            exact hcwd c (by simpa [resolve, joinP] using h1)
          -- the file is on the manager's computer
          have hth : (s.mgr.fs (up c)).isSome := by
            have hown : ∀ o, j.own = some o → it ∈ split ',' o → (s.mgr.fs (up c)).isSome :=
              fun o ho hin => hI.there j hjm o ho it hin c ha
            unfold wanted at hit
            rw [hI.conf] at hit
            cases ho : j.own with
            | none =>
              rw [ho] at hit
              exact absurd ha (hconf it hit c)
            | some o =>
              rw [ho] at hit
              simp only at hit
              split at hit
              · exact hown o ho hit
              · rw [split_cat] at hit
                rcases List.mem_append.mp hit with h1 | h1
                · exact absurd ha (hconf it h1 c)
                · exact hown o ho h1
          obtain ⟨e, he⟩ := Option.isSome_iff_exists.mp hth
          obtain ⟨t, ht⟩ := hI.right c e he
          subst ht
          have hne : wanted s.conf j.own ≠ [] := by
            intro e
            rw [e] at hit
            simp [split] at hit
            subst hit
            exact hnn _ ha (by
              have : parse [] = ([], []) := by decide
              rw [this]
              simp [tildaToHome, tildeSlash])
          unfold ready at hr
          rw [if_neg hne] at hr
          have hhome := copyItems_home' hr
          have hsrc : source s.mgr (parse it).1 = some (.file ⟨c, 600, t⟩) := by
            unfold source
            have h1 : tildaToHome s.mgr.home (parse it).1 ≠ [] := by rw [hI.home]; exact hnn it ha
            rw [if_neg h1, hI.home, hI.cwd]
            have : s.mgr.fs (about m0 it) = some (.file ⟨c, 600, t⟩) := by rw [ha]; exact he
            exact this
          have := C129_copied_partial hr (fun x hx _ => by
              rw [← written_home hhome]
              exact hb x hx) hk hsrc (fun k' it' hk' hi _ => by
              rw [← dest_home hhome, ← dest_home hhome]
              exact hl k' it' hk' hi)
          rw [← dest_home hhome] at this
          exact ⟨t, this⟩

theorem inv_run {up : Nat → Path} (hu : UpOK up) {m0 : Machine} {conf : Path} (hcwd : ∀ c, m0.cwd ≠ up c)
    (hconf : ∀ it ∈ split ',' conf, ∀ c, about m0 it ≠ up c) : ∀ {es : List Ev} {s s' : S}, Inv up m0 conf s →
    (∀ e ∈ es, Fair up m0 e) → run up s es = some s' → Inv up m0 conf s'
  | [], s, s', hI, _, h => by cases h; exact hI
  | e :: es, s, s', hI, hf, h => by
    unfold run at h
    cases h1 : step up s e with
    | none => rw [h1] at h; cases h
    | some s1 =>
      rw [h1] at h
      exact inv_run hu hcwd hconf (inv_step hu hcwd hconf hI (hf e (by simp)) h1) (fun x hx => hf x (by simp [hx])) h

/-- at the start: nothing was uploaded, there are no jobs and no servers -/
def Start (up : Nat → Path) (s : S) : Prop := s.jobs = [] ∧ s.servers = [] ∧ ∀ c, s.mgr.fs (up c) = none

/-- C129: whenever a command can go to a server - one made for it, or one made before for others - each file the user named when adding it
from another computer is there at its place with the contents it had on the user's computer when the job was added, however it was
changed since. (The upload worked; what is named has at most one colon; places have no blanks; nothing of the same job that comes later
goes to the same place; the upload directory is left alone.) -/
theorem C129_add_partial {up : Nat → Path} (hu : UpOK up) {s0 s : S} (h0 : Start up s0) (hcwd : ∀ c, s0.mgr.cwd ≠ up c)
    (hconf : ∀ it ∈ split ',' s0.conf, ∀ c, about s0.mgr it ≠ up c)
    {es : List Ev} (hf : ∀ e ∈ es, Fair up s0.mgr e) (hr : run up s0 es = some s)
    {j : Job} (hj : j ∈ s.jobs) {v : Server} (hv : v ∈ s.servers) (hm : suits s j v)
    (hb : ∀ it ∈ split ',' v.files, ' ' ∉ written v.m (parse it).2)
    (ht : ∀ it ∈ split ',' j.asked, tidy it)
    {k : Nat} {cf : Path} {f : File} (hk : (split ',' j.asked)[k]? = some cf) (hs : j.sent k = true)
    (hfile : source j.was (parse cf).1 = some (.file f))
    (hl : ∀ k' cf', k < k' → (split ',' j.asked)[k']? = some cf' → dest v.m (parse cf').2 ≠ dest v.m (parse cf).2) :
    ∃ t, v.m.fs (dest v.m (parse cf).2) = some (.file ⟨f.content, 600, t⟩) := by
  have hI : Inv up s0.mgr s0.conf s := by
    refine inv_run hu hcwd hconf ⟨rfl, rfl, rfl, ?_, ?_, ?_, ?_⟩ hf hr
    · intro c e he
      rw [h0.2.2 c] at he
      cases he
    · rw [h0.1]; simp
    · rw [h0.1]; simp
    · rw [h0.2.1]; simp
  obtain ⟨o, ho, hko, hothers⟩ := hI.sent j hj k cf f hk ht hs hfile
  have hrc : ':' ∉ (parse cf).2 := by
    rcases tidy_cases (ht cf (List.mem_of_getElem? hk)) with ⟨_, h2, h3⟩ | ⟨a, b, _, h2, h3⟩ <;> rw [h2] <;> exact h3
  obtain ⟨hp, ha⟩ := about_up hu s0.mgr f.content (parse cf).2 hrc
  -- where in the list of the server
  have hfiles : ∃ pre, split ',' v.files = pre ++ split ',' o := by
    rw [hm, ho]
    unfold wanted
    simp only
    split
    · exact ⟨[], rfl⟩
    · exact ⟨split ',' s.conf, split_cat ',' s.conf o⟩
  obtain ⟨pre, hpre⟩ := hfiles
  have := hI.came v hv hb (pre.length + k) _ f.content (by
      rw [hpre, List.getElem?_append_right (by omega)]
      simpa using hko) ha (by
      intro k' it' hk' hi
      rw [hpre, List.getElem?_append_right (by omega)] at hi
      obtain ⟨cf', h1, h2⟩ := hothers _ it' hi
      rw [hp, h2]
      exact hl (k' - pre.length) cf' (by omega) h1)
  rw [hp] at this
  exact this

/-! ### A concrete case -/

/-- an upload directory -/
def upDir (c : Nat) : Path := "/up/".toList ++ List.replicate c 'x'

theorem upDir_ok : UpOK upDir := by
  refine ⟨fun c => ⟨"up/".toList ++ List.replicate c 'x', rfl⟩, ?_, ?_, ?_⟩
  · intro c h
    rcases List.mem_append.mp h with h | h
    · exact absurd h (by decide)
    · exact absurd (List.eq_of_mem_replicate h) (by decide)
  · intro c h
    rcases List.mem_append.mp h with h | h
    · exact absurd h (by decide)
    · exact absurd (List.eq_of_mem_replicate h) (by decide)
  · intro a b h
    have := congrArg List.length h
    simp [upDir] at this
    exact this

/-- not in the upload directory -/
theorem not_up (p : Path) (h : p.take 4 ≠ "/up/".toList) (c : Nat) : p ≠ upDir c := by
  intro e
  subst e
  exact h (by simp [upDir])

theorem ofList_up (l : List (String × Entry)) (h : ∀ x ∈ l, x.1.toList.take 4 ≠ "/up/".toList) (c : Nat) : ofList l (upDir c) = none := by
  unfold ofList
  have : l.find? (fun x => x.1.toList = upDir c) = none := by
    rw [List.find?_eq_none]
    intro x hx
    simpa using not_up _ (h x hx) c
  rw [this]
  rfl

def start : S := { user := mac, mgr := vm, conf := tokenItem, jobs := [], servers := [] }

/-- a job is added, the file is changed, a server is made for it; the changed file is asked for with another job -/
def history : List Ev := [.add docSpec 100 good, .edit "/Users/jo/p/.s3cfg".toList (.file ⟨7, 644, 70⟩), .spawn 0 good centos,
  .add docSpec 200 good, .spawn 1 good centos]

example : Start upDir start ∧ (∀ c, start.mgr.cwd ≠ upDir c) ∧ (∀ it ∈ split ',' start.conf, ∀ c, about start.mgr it ≠ upDir c) ∧
    (∀ e ∈ history, Fair upDir start.mgr e) := by
  have hd : ∀ it ∈ split ',' docSpec, (about start.mgr it).take 4 ≠ "/up/".toList := by decide +kernel
  have hd' : ∀ it ∈ split ',' start.conf, (about start.mgr it).take 4 ≠ "/up/".toList := by decide +kernel
  refine ⟨⟨rfl, rfl, ?_⟩, ?_, ?_, ?_⟩
  · intro c
    exact ofList_up vmFiles (by decide +kernel) c
  · exact fun c => not_up _ (by decide) c
  · exact fun it hit c => not_up _ (hd' it hit) c
  · intro e he
    simp only [history, List.mem_cons, List.not_mem_nil, or_false] at he
    rcases he with rfl | rfl | rfl | rfl | rfl
    · exact fun it hit c => not_up _ (hd it hit) c
    · trivial
    · trivial
    · exact fun it hit c => not_up _ (hd it hit) c
    · trivial

/-- both jobs have their own files: the first server is for the first only, and the second for the second -/
example : ((run upDir start history).map (fun s => (s.jobs.map (fun j => s.servers.map (fun v => decide (suits s j v))),
    s.servers.map (fun v => v.m.fs "/home/centos/.s3cfg".toList)))) =
    some ([[true, false], [false, true]], [some (.file ⟨1, 600, 100⟩), some (.file ⟨7, 600, 200⟩)]) := by decide +kernel

example : (∀ it ∈ split ',' docSpec, tidy it) ∧ (split ',' docSpec)[0]? = some "~/p/.s3cfg:~/.s3cfg".toList ∧
    source mac (parse "~/p/.s3cfg:~/.s3cfg".toList).1 = some (.file ⟨1, 644, 10⟩) := by decide +kernel

/-! ### A job with files of its own never runs where these were not copied -/

/-- C129: a server made for what the manager was started with alone - among them the manager's own computer, to which nothing is copied
(cloud.go:832-866) - is never used for a job that asks for files of its own -/
theorem C129_not_on_managers {s : S} {j : Job} {v : Server} {o : Path} (ho : j.own = some o) (hn : o ≠ []) (hv : v.files = s.conf) :
    ¬ suits s j v := by
  intro h
  unfold suits wanted at h
  rw [ho, hv] at h
  simp only at h
  split at h
  · rename_i e
    rw [e] at h
    exact hn h.symm
  · have := congrArg List.length h
    simp at this

example : ¬ suits start { own := some docSpec, asked := docSpec, was := mac, sent := good } { files := tokenItem, m := vm } := by
  decide +kernel

/-! ### What is not so -/

/-- C129: on the manager's computer nothing is uploaded: a file that was changed before a job is added is on the server as it was
before, if there is a server made for an earlier job that asked for the same path -/
theorem C129_violated_stale :
    ((run upDir start [.mgrEdit "/etc/a".toList (.file ⟨2, 644, 20⟩), .addHere "/etc/a".toList, .spawn 0 good centos,
        .mgrEdit "/etc/a".toList (.file ⟨8, 644, 80⟩), .addHere "/etc/a".toList]).map (fun s =>
      (s.jobs.map (fun j => (source j.was "/etc/a".toList, s.servers.map (fun v => decide (suits s j v)))),
       s.servers.map (fun v => v.m.fs "/etc/a".toList)))) =
    some ([(some (.file ⟨2, 644, 20⟩), [true]), (some (.file ⟨8, 644, 80⟩), [true])], [some (.file ⟨2, 600, 20⟩)]) := by decide +kernel

/-- C129: if the upload fails, that is only a warning: the job is added, and runs on a server without the file -/
theorem C129_violated_upload :
    ((run upDir start [.add "/etc/a".toList 100 (fun _ => false), .spawn 0 good centos]).map (fun s =>
      (s.jobs.map (fun j => s.servers.map (fun v => decide (suits s j v))), s.servers.map (fun v => v.m.fs "/etc/a".toList)))) =
    some ([[true]], [none]) := by decide +kernel

/-- C129: the time of a file isn't kept when it is uploaded -/
theorem C129_violated_time : source mac "/etc/a".toList = some (.file ⟨2, 644, 20⟩) ∧
    ((run upDir start [.add "/etc/a".toList 100 good, .spawn 0 good centos]).map (fun s =>
      s.servers.map (fun v => v.m.fs "/etc/a".toList))) = some [some (.file ⟨2, 600, 100⟩)] := by decide +kernel

/-- C129: with two colons, copying is from and to a path with colons, but uploading is of the first part, and to there -/
theorem C129_violated_colons : parse "/etc/a:/b:/c".toList = ("/etc/a:/b:/c".toList, "/etc/a:/b:/c".toList) ∧
    (uploadAll upDir mac 100 good "/etc/a:/b:/c".toList vm).1 = "/up/xx:/etc/a".toList := by decide +kernel

end Verif.Cloud.Config
