import Verif.Client.FilesLemmas
import Verif.Server.ModifyProps
/-!
# C88: cleaning up a job removes what was made for it, and nothing else
-/
namespace Verif.Client.Files
open Verif.Server.Groups (Str)
open Spec

namespace Spec

/-- a job's unique directory `ws` in its `cwd`, with the directory that it works in -/
structure Made (fs : FS) (cwd ws : Path) : Prop where
  tree : Tree fs
  within : Below cwd ws
  there : (ws, Kind.dir) ∈ fs

/-- where the directories that are mounted for a job are -/
def Mounted (actual : Path) (mounts : List Mount) (p : Path) : Prop :=
  (Mount.whole ∈ mounts ∧ p = actual) ∨ ∃ rel, Mount.relative rel ∈ mounts ∧ p = join actual rel

/-- they are in the working directory -/
def Inside (actual : Path) (mounts : List Mount) : Prop := ∀ rel, Mount.relative rel ∈ mounts → Below actual (join actual rel)

/-- a directory in which a mount keeps its cache -/
def Cache (ws p : Path) : Prop := ∃ name, ".muxfys".toList <+: name ∧ p = ws ++ [name]

end Spec
open Spec

theorem made_ne {fs : FS} {cwd ws : Path} (h : Made fs cwd ws) : ws ≠ [] := by
  intro e
  have := h.within.length
  rw [e] at this
  simp at this

theorem dropLast_cwd (ws : Path) (x : Str) : (ws ++ [x]).dropLast = ws := by simp

theorem keeps_none {ms : List Mount} : keeps ms = none ↔ Mount.whole ∈ ms := by
  induction ms with
  | nil => simp [keeps]
  | cons m ms ih => cases m <;> simp [keeps, ih]

theorem mem_keeps {ms : List Mount} {l : List (List Str)} (h : keeps ms = some l) (x : List Str) : x ∈ l ↔ Mount.relative x ∈ ms := by
  induction ms generalizing l with
  | nil => cases h; simp
  | cons m ms ih =>
    cases m with
    | whole => cases h
    | absolute => simp only [keeps] at h; simp [ih h]
    | relative d =>
      simp only [keeps] at h
      cases hk : keeps ms with
      | none => rw [hk] at h; cases h
      | some l' =>
        rw [hk] at h
        cases h
        simp [ih hk]

/-- what is left of the working directory -/
theorem cleanCwd_mem {fs fs' : FS} {actual : Path} {ms : List Mount} (ht : Tree fs) (hi : Inside actual ms)
    (h : cleanCwd actual ms fs = some (fs', true)) (e : Entry) :
    e ∈ fs' ↔ e ∈ fs ∧ (actual <+: e.1 → Mount.whole ∈ ms ∨ (e.1 = actual ∧ e.2 = .dir ∧ ∃ rel, Mount.relative rel ∈ ms) ∨
      ∃ rel, Mount.relative rel ∈ ms ∧ ((join actual rel = e.1 ∧ e.2 = .dir) ∨ Below (join actual rel) e.1 ∨ (e.2 = .dir ∧ Below e.1 (join actual rel)))) := by
  unfold cleanCwd at h
  cases hk : keeps ms with
  | none =>
    rw [hk] at h
    cases h
    exact ⟨fun he => ⟨he, fun _ => .inl (keeps_none.1 hk)⟩, fun h => h.1⟩
  | some l =>
    have hw : Mount.whole ∉ ms := fun hw => by rw [keeps_none.2 hw] at hk; cases hk
    rw [hk] at h
    have hl : ∀ x, x ∈ l ↔ Mount.relative x ∈ ms := mem_keeps hk
    cases l with
    | nil =>
      simp only [Option.some.injEq, Prod.mk.injEq, and_true] at h
      rw [← h, mem_removeAll]
      refine and_congr_right fun _ => ⟨fun hn hp => absurd hp hn, fun hs hp => ?_⟩
      rcases hs hp with h1 | ⟨_, _, x, h1⟩ | ⟨x, h1, _⟩
      · exact hw h1
      · have := (hl x).2 h1; cases this
      · have := (hl x).2 h1; cases this
    | cons d ds =>
      simp only at h
      split at h
      · rename_i hA
        cases hr : removeAllExcept actual (d :: ds) fs with
        | none => rw [hr] at h; cases h
        | some fs1 =>
          rw [hr] at h
          simp only [Option.map_some, Option.some.injEq, Prod.mk.injEq, and_true] at h
          rw [← h, removeAllExcept_mem ht (fun x hx => hi x ((hl x).1 hx)) hr]
          refine and_congr_right fun he => ⟨fun hs hp => ?_, fun hs hb => ?_⟩
          · by_cases ha : actual = e.1
            · exact .inr (.inl ⟨ha.symm, by rw [Uniq.one ht.one e he _ hA ha.symm], d, (hl d).1 (List.mem_cons_self ..)⟩)
            · obtain ⟨x, hx, h1⟩ := hs ⟨hp, ha⟩
              exact .inr (.inr ⟨x, (hl x).1 hx, h1⟩)
          · rcases hs hb.1 with h1 | ⟨h1, _⟩ | ⟨x, h1, h2⟩
            · exact absurd h1 hw
            · exact absurd h1.symm hb.2
            · exact ⟨x, (hl x).2 h1, h2⟩
      · cases hp : parents actual (List.map (join actual) (d :: ds)) with
        | none => rw [hp] at h; cases h
        | some a => rw [hp] at h; simp at h

theorem cleanCwd_sub {fs fs' : FS} {actual : Path} {ms : List Mount} {b : Bool} (h : cleanCwd actual ms fs = some (fs', b)) :
    fs'.Sublist fs ∧ ∀ e ∈ fs, ¬ Below actual e.1 → e.1 ≠ actual → e ∈ fs' := by
  unfold cleanCwd at h
  split at h
  · cases h; exact ⟨List.Sublist.refl _, fun e he _ _ => he⟩
  · cases h
    exact ⟨List.filter_sublist, fun e he hb hne => mem_removeAll.2 ⟨he, fun hp => hb ⟨hp, fun e0 => hne e0.symm⟩⟩⟩
  · split at h
    · rename_i ds _ _ _
      cases hr : removeAllExcept actual ds fs with
      | none => rw [hr] at h; cases h
      | some fs1 =>
        rw [hr] at h
        cases h
        refine ⟨removeAllExcept_sub hr, fun e he hb _ => ?_⟩
        unfold removeAllExcept at hr
        cases hp : parents actual (ds.map (join actual)) with
        | none => simp [hp] at hr
        | some check =>
          simp only [hp] at hr
          cases hr
          exact removeWith_far _ _ _ _ _ e he hb
    · rename_i ds _ _ _
      cases hp : parents actual (ds.map (join actual)) with
      | none => rw [hp] at h; cases h
      | some a => rw [hp] at h; cases h; exact ⟨List.Sublist.refl _, fun e he _ _ => he⟩

theorem cleanRest_sub (ws : Path) (fs : FS) : (cleanRest ws fs).Sublist fs := by
  unfold cleanRest
  refine foldl_sub _ (fun fs e => ?_) _ _
  simp only
  split
  · exact List.filter_sublist
  · exact List.Sublist.refl _

theorem cleanRest_far {ws : Path} {fs : FS} {e : Entry} (he : e ∈ fs) (h : ¬ ws <+: e.1) : e ∈ cleanRest ws fs := by
  unfold cleanRest
  simp only
  rw [foldl_removeAll (fun e => e.1.getLast?.getD [] ≠ "cwd".toList ∧ ¬ ".muxfys".toList.isPrefixOf (e.1.getLast?.getD []))]
  exact ⟨he, fun c hc _ hp => h ((mem_children.1 hc).2.2.trans hp)⟩

theorem actual_below (ws : Path) (x : Str) : Below ws (ws ++ [x]) := below_of (List.prefix_append _ _) (by simp)

/-- how a clean up goes: up to the empty directories, all that is removed is in the unique directory -/
theorem cleanup_cases {fs fs' : FS} {ws : Path} {b : Option Path} {ms : List Mount} {ok : Bool}
    (h : cleanup (some (ws ++ ["cwd".toList])) b ms fs = some (fs', ok)) :
    (ok = false ∧ ∃ b, cleanCwd (ws ++ ["cwd".toList]) ms fs = some (fs', b)) ∨
    (ok = true ∧ ms = [] ∧ fs' = rmEmptyDirs ws b (removeAll ws fs)) ∨
    (ok = true ∧ ms ≠ [] ∧ ∃ fs1, cleanCwd (ws ++ ["cwd".toList]) ms fs = some (fs1, true) ∧ fs' = rmEmptyDirs ws b (cleanRest ws fs1)) := by
  unfold cleanup at h
  simp only [dropLast_cwd] at h
  split at h
  · rename_i hm
    cases h
    exact .inr (.inl ⟨rfl, hm, rfl⟩)
  · rename_i hm
    split at h
    · cases h
    · rename_i fs1 hc
      cases h
      exact .inl ⟨rfl, false, hc⟩
    · rename_i fs1 hc
      split at h
      · cases h; exact .inl ⟨rfl, true, hc⟩
      · cases h; exact .inr (.inr ⟨rfl, hm, fs1, hc, rfl⟩)

/-- C88: nothing is removed that is not in the job's unique directory, except for directories between that and `cwd` that are empty
now; nothing is made. This holds for jobs for which the unique directory was made (`Made`), and whose `cwd` is a clean path; see the
violations for others. -/
theorem C88_partial (fs fs' : FS) (cwd ws : Path) (ms : List Mount) (ok : Bool) (hm : Made fs cwd ws)
    (h : cleanup (some (ws ++ ["cwd".toList])) (some cwd) ms fs = some (fs', ok)) :
    (∀ e ∈ fs', e ∈ fs) ∧
    ∀ e ∈ fs, ¬ ws <+: e.1 → e ∈ fs' ∨ (e.2 = .dir ∧ Below cwd e.1 ∧ Below e.1 ws ∧ ∀ e' ∈ fs', ¬ Below e.1 e'.1) := by
  have key : ∀ fs2 : FS, fs2.Sublist fs → (∀ e ∈ fs, ¬ ws <+: e.1 → e ∈ fs2) → fs' = rmEmptyDirs ws (some cwd) fs2 →
      (∀ e ∈ fs', e ∈ fs) ∧
      ∀ e ∈ fs, ¬ ws <+: e.1 → e ∈ fs' ∨ (e.2 = .dir ∧ Below cwd e.1 ∧ Below e.1 ws ∧ ∀ e' ∈ fs', ¬ Below e.1 e'.1) := by
    intro fs2 hs hf e2
    refine ⟨fun e he => hs.subset ((rmEmptyDirs_sub ws (some cwd) fs2).subset (e2 ▸ he)), fun e he hn => ?_⟩
    by_cases hin : e ∈ fs'
    · exact .inl hin
    · right
      rw [e2] at hin ⊢
      obtain ⟨i1, i2, i3⟩ := rmEmptyDirs_gone hm.within (hf e he hn) hin
      have hb : Below e.1 ws := ⟨i1, fun e0 => hn (by rw [e0]; exact List.prefix_refl _)⟩
      refine ⟨?_, i2, hb, i3⟩
      have := hm.tree.above (hm.tree.root e he) hm.there hb
      have h1 := Uniq.one hm.tree.one e he _ this rfl
      rw [h1]
  have hA : ∀ e : Entry, ¬ ws <+: e.1 → ¬ Below (ws ++ ["cwd".toList]) e.1 ∧ e.1 ≠ ws ++ ["cwd".toList] := fun e hn =>
    ⟨fun hb => hn ((actual_below ws _).1.trans hb.1), fun e0 => hn (by rw [e0]; exact (actual_below ws _).1)⟩
  rcases cleanup_cases h with ⟨_, b, hc⟩ | ⟨_, _, e1⟩ | ⟨_, _, fs1, hc, e1⟩
  · obtain ⟨h1, h2⟩ := cleanCwd_sub hc
    exact ⟨fun e he => h1.subset he, fun e he hn => .inl (h2 e he (hA e hn).1 (hA e hn).2)⟩
  · exact key _ List.filter_sublist (fun e he hn => mem_removeAll.2 ⟨he, hn⟩) e1
  · obtain ⟨h1, h2⟩ := cleanCwd_sub hc
    exact key _ ((cleanRest_sub ws fs1).trans h1) (fun e he hn => cleanRest_far (h2 e he (hA e hn).1 (hA e hn).2) hn) e1

/-- C88: files of users, and `cwd` itself, are not touched -/
theorem C88_files (fs fs' : FS) (cwd ws : Path) (ms : List Mount) (ok : Bool) (hm : Made fs cwd ws)
    (h : cleanup (some (ws ++ ["cwd".toList])) (some cwd) ms fs = some (fs', ok)) (e : Entry) (he : e ∈ fs)
    (hu : (e.2 = .file ∧ ¬ ws <+: e.1) ∨ ¬ Below cwd e.1) : e ∈ fs' := by
  have hn : ¬ ws <+: e.1 := by
    rcases hu with h1 | h1
    · exact h1.2
    · exact fun hp => h1 (hm.within.trans_pre hp)
  rcases (C88_partial fs fs' cwd ws ms ok hm h).2 e he hn with h1 | ⟨h1, h2, _⟩
  · exact h1
  · rcases hu with h3 | h3
    · rw [h3.1] at h1; cases h1
    · exact absurd h2 h3

/-- C88: nor are the directories of other jobs -/
theorem C88_others (fs fs' : FS) (cwd ws ws' : Path) (ms : List Mount) (ok : Bool) (hm : Made fs cwd ws)
    (h : cleanup (some (ws ++ ["cwd".toList])) (some cwd) ms fs = some (fs', ok)) (h1 : ¬ ws <+: ws') (h2 : ¬ ws' <+: ws)
    (e : Entry) (he : e ∈ fs) (hp : ws' <+: e.1) : e ∈ fs' := by
  have hn : ¬ ws <+: e.1 := by
    intro hq
    rcases pre_cases hq hp with ⟨_, h3⟩ | ⟨_, h3⟩
    · exact h1 h3
    · exact h2 h3.1
  rcases (C88_partial fs fs' cwd ws ms ok hm h).2 e he hn with h3 | ⟨_, _, h3, _⟩
  · exact h3
  · exact absurd (hp.trans h3.1) h2

/-- C88: without mounts, nothing is left of the unique directory -/
theorem C88_all (fs fs' : FS) (cwd ws : Path) (ok : Bool)
    (h : cleanup (some (ws ++ ["cwd".toList])) (some cwd) [] fs = some (fs', ok)) : ok = true ∧ ∀ e ∈ fs', ¬ ws <+: e.1 := by
  rcases cleanup_cases h with ⟨h1, b, _⟩ | ⟨h1, _, e1⟩ | ⟨_, h1, _⟩
  · simp only [cleanup, dropLast_cwd, if_true] at h
    cases h
    cases h1
  · refine ⟨h1, fun e he => ?_⟩
    rw [e1] at he
    exact (mem_removeAll.1 ((rmEmptyDirs_sub _ _ _).subset he)).2
  · exact absurd rfl h1

/-- C88: with mounts, only what is mounted, the directories that it is in, and caches are left of it -/
theorem C88_mounts_gone (fs fs' : FS) (cwd ws : Path) (ms : List Mount) (hm : Made fs cwd ws) (hi : Inside (ws ++ ["cwd".toList]) ms) (hne : ms ≠ [])
    (h : cleanup (some (ws ++ ["cwd".toList])) (some cwd) ms fs = some (fs', true)) (e : Entry) (he : e ∈ fs') (hp : Below ws e.1) :
    (∃ c, Cache ws c ∧ c <+: e.1) ∨ ∃ d, Mounted (ws ++ ["cwd".toList]) ms d ∧ (d <+: e.1 ∨ (e.2 = .dir ∧ e.1 <+: d)) := by
  rcases cleanup_cases h with ⟨h1, _⟩ | ⟨_, h1, _⟩ | ⟨_, _, fs1, hc, e1⟩
  · cases h1
  · exact absurd h1 hne
  · rw [e1] at he
    have he := (rmEmptyDirs_sub _ _ _).subset he
    have hc1 : Closed ws fs1 := by
      intro a ha hb
      have hafs := ((cleanCwd_mem hm.tree hi hc a).1 ha).1
      rcases hm.tree.closed ws a hafs hb with h1 | h1
      · exact .inl h1
      · refine .inr ((cleanCwd_mem hm.tree hi hc _).2 ⟨h1, fun hp1 => ?_⟩)
        have hpa : ws ++ ["cwd".toList] <+: a.1 := by
          refine hp1.trans ?_
          exact List.dropLast_prefix _
        rcases ((cleanCwd_mem hm.tree hi hc a).1 ha).2 hpa with h2 | ⟨h2, _⟩ | ⟨x, hx, h2⟩
        · exact .inl h2
        · exfalso
          have := hp1.length_le
          simp only [h2, List.dropLast_concat, List.length_append, List.length_cons, List.length_nil] at this
          omega
        · by_cases hA : a.1.dropLast = ws ++ ["cwd".toList]
          · exact .inr (.inl ⟨hA, rfl, x, hx⟩)
          · have hane : a.1 ≠ [] := hm.tree.root a hafs
            refine .inr (.inr ⟨x, hx, ?_⟩)
            rcases h2 with ⟨h2, _⟩ | h2 | ⟨_, h2⟩
            · exact .inr (.inr ⟨rfl, by rw [h2]; exact dropLast_below hane⟩)
            · by_cases h3 : join (ws ++ ["cwd".toList]) x = a.1.dropLast
              · exact .inl ⟨h3, rfl⟩
              · exact .inr (.inl ⟨pre_dropLast h2, h3⟩)
            · exact .inr (.inr ⟨rfl, pre_below (dropLast_below hane).1 h2⟩)
    obtain ⟨h1, h2⟩ := (cleanRest_mem hc1 e).1 he
    obtain ⟨name, hl, hpre⟩ := h2 hp
    rcases hl with rfl | hl
    · right
      rcases ((cleanCwd_mem hm.tree hi hc e).1 h1).2 hpre with h3 | ⟨h3, hd, x, hx⟩ | ⟨x, hx, h3⟩
      · exact ⟨_, .inl ⟨h3, rfl⟩, .inl hpre⟩
      · exact ⟨_, .inr ⟨x, hx, rfl⟩, .inr ⟨hd, by rw [h3]; exact (hi x hx).1⟩⟩
      · refine ⟨_, .inr ⟨x, hx, rfl⟩, ?_⟩
        rcases h3 with h3 | h3 | h3
        · exact .inl (by rw [h3.1]; exact List.prefix_refl _)
        · exact .inl h3.1
        · exact .inr ⟨h3.1, h3.2.1⟩
    · exact .inl ⟨_, ⟨name, hl, rfl⟩, hpre⟩

/-- C88: and these are left: what is mounted, and caches -/
theorem C88_mounts_kept (fs fs' : FS) (cwd ws : Path) (ms : List Mount) (ok : Bool) (hm : Made fs cwd ws) (hi : Inside (ws ++ ["cwd".toList]) ms) (hne : ms ≠ [])
    (h : cleanup (some (ws ++ ["cwd".toList])) (some cwd) ms fs = some (fs', ok)) (e : Entry) (he : e ∈ fs)
    (hk : (∃ c, Cache ws c ∧ c <+: e.1) ∨ ∃ d, Mounted (ws ++ ["cwd".toList]) ms d ∧ (d, Kind.dir) ∈ fs ∧ d <+: e.1) : e ∈ fs' := by
  have hbw : Below ws e.1 := by
    rcases hk with ⟨c, ⟨name, _, hc⟩, hp⟩ | ⟨d, hd, _, hp⟩
    · rw [hc] at hp; exact (actual_below ws name).trans_pre hp
    · rcases hd with ⟨_, hd⟩ | ⟨x, hx, hd⟩
      · rw [hd] at hp; exact (actual_below ws _).trans_pre hp
      · rw [hd] at hp
        exact (actual_below ws _).trans_pre ((hi x hx).1.trans hp)
  have hmid : ∀ fs1, cleanCwd (ws ++ ["cwd".toList]) ms fs = some (fs1, true) → e ∈ fs1 := by
    intro fs1 hc
    refine (cleanCwd_mem hm.tree hi hc e).2 ⟨he, fun hA => ?_⟩
    rcases hk with ⟨c, ⟨name, hl, hc'⟩, hp⟩ | ⟨d, hd, hdfs, hp⟩
    · exfalso
      rw [hc'] at hp
      have h1 : ws ++ [name] = ws ++ ["cwd".toList] :=
        (List.prefix_of_prefix_length_le hp hA (by simp)).eq_of_length (by simp)
      have h2 : name = "cwd".toList := by simpa using h1
      rw [h2] at hl
      exact absurd hl (by decide)
    · rcases hd with ⟨hw, _⟩ | ⟨x, hx, hd⟩
      · exact .inl hw
      · refine .inr (.inr ⟨x, hx, ?_⟩)
        by_cases e0 : d = e.1
        · refine .inl ⟨by rw [← hd]; exact e0, ?_⟩
          rw [Uniq.one hm.tree.one e he _ hdfs e0.symm]
        · exact .inr (.inl (by rw [← hd]; exact ⟨hp, e0⟩))
  rcases cleanup_cases h with ⟨_, b, hc⟩ | ⟨_, h1, _⟩ | ⟨_, _, fs1, hc, e1⟩
  · cases b with
    | true => exact hmid _ hc
    | false =>
      unfold cleanCwd at hc
      split at hc
      · cases hc
      · cases hc
      · split at hc
        · rename_i ds _ _ _
          cases hr : removeAllExcept (ws ++ ["cwd".toList]) ds fs with
          | none => rw [hr] at hc; cases hc
          | some fs1 => rw [hr] at hc; cases hc
        · rename_i ds _ _ _
          cases hp : parents (ws ++ ["cwd".toList]) (ds.map (join (ws ++ ["cwd".toList]))) with
          | none => rw [hp] at hc; cases hc
          | some a => rw [hp] at hc; cases hc; exact he
  · exact absurd h1 hne
  · have hin : e ∈ cleanRest ws fs1 := by
      unfold cleanRest
      simp only
      rw [foldl_removeAll (fun e => e.1.getLast?.getD [] ≠ "cwd".toList ∧ ¬ ".muxfys".toList.isPrefixOf (e.1.getLast?.getD []))]
      refine ⟨hmid fs1 hc, fun c hcm hP hpre => ?_⟩
      obtain ⟨_, hl, hwc⟩ := mem_children.1 hcm
      have hname : ∀ name, ws ++ [name] <+: e.1 → c.1 = ws ++ [name] := fun name hp =>
        (List.prefix_of_prefix_length_le hpre hp (by simp; omega)).eq_of_length (by simp; omega)
      have hlast : ∀ name, c.1 = ws ++ [name] → c.1.getLast?.getD [] = name := fun name hn => by
        rw [hn, List.getLast?_append]; rfl
      rcases hk with ⟨c', ⟨name, hl', hc'⟩, hp⟩ | ⟨d, hd, _, hp⟩
      · rw [hc'] at hp
        rw [hlast _ (hname _ hp)] at hP
        exact hP.2 (List.isPrefixOf_iff_prefix.2 hl')
      · have hp' : ws ++ ["cwd".toList] <+: e.1 := by
          rcases hd with ⟨_, hd⟩ | ⟨x, hx, hd⟩
          · rw [hd] at hp; exact hp
          · rw [hd] at hp; exact (hi x hx).1.trans hp
        rw [hlast _ (hname _ hp')] at hP
        exact hP.1 rfl
    rw [e1]
    by_cases hf : e ∈ rmEmptyDirs ws (some cwd) (cleanRest ws fs1)
    · exact hf
    · have := (rmEmptyDirs_gone hm.within hin hf).1.length_le
      have := hbw.length
      omega

/-- C88: it ends, if all relative mount points are in the working directory -/
theorem C88_ends_partial (fs : FS) (actual : Path) (base : Option Path) (ms : List Mount) (hi : Inside actual ms) :
    (cleanup (some actual) base ms fs).isSome := by
  have hc : ∃ r, cleanCwd actual ms fs = some r := by
    unfold cleanCwd
    cases hk : keeps ms with
    | none => exact ⟨_, rfl⟩
    | some l =>
      cases l with
      | nil => exact ⟨_, rfl⟩
      | cons d ds =>
        have hp : (parents actual ((d :: ds).map (join actual))).isSome := by
          refine parents_of fun q hq => ?_
          obtain ⟨x, hx, rfl⟩ := List.mem_map.1 hq
          exact pre_dropLast (hi x ((mem_keeps hk x).1 hx))
        obtain ⟨a, ha⟩ := Option.isSome_iff_exists.1 hp
        simp only
        split
        · simp only [removeAllExcept, ha]
          exact ⟨_, rfl⟩
        · rw [ha]; exact ⟨_, rfl⟩
  obtain ⟨⟨fs1, b⟩, hr⟩ := hc
  unfold cleanup
  simp only
  split
  · rfl
  · rw [hr]
    cases b with
    | false => rfl
    | true =>
      simp only
      split <;> rfl

/-- C88, violated: a job with a relative mount point that is not in its working directory, say "../m", or "." -/
theorem C88_violated_loop (fs : FS) (actual : Path) (base : Option Path) (ha : actual ≠ []) :
    cleanup (some actual) base [.relative ["..".toList, "m".toList]] fs = none ∧ cleanup (some actual) base [.relative [".".toList]] fs = none := by
  have key : ∀ rel, ¬ actual <+: (join actual rel).dropLast → cleanup (some actual) base [.relative rel] fs = none := by
    intro rel h
    have hp : parents actual [join actual rel] = none := by
      unfold parents
      rw [climb_not _ h]
      rfl
    have hc : cleanCwd actual [.relative rel] fs = none := by
      unfold cleanCwd
      simp only [keeps, Option.map_some, List.map_cons, List.map_nil, hp, removeAllExcept]
      split <;> rfl
    unfold cleanup
    simp only [hc]
    rfl
  have h1 := List.length_pos_iff.2 ha
  constructor
  · refine key _ fun h => ?_
    have := h.length_le
    have hj : join actual ["..".toList, "m".toList] = actual.dropLast ++ ["m".toList] := by
      unfold join
      simp [List.foldl]
    rw [hj] at this
    simp only [List.dropLast_concat, List.length_dropLast] at this
    omega
  · refine key _ fun h => ?_
    have := h.length_le
    have hj : join actual [".".toList] = actual := by
      unfold join
      simp [List.foldl]
    rw [hj] at this
    simp only [List.length_dropLast] at this
    omega

/-! ## the directories of jobs -/

/-- a name that can be part of a path -/
def Name (x : Str) : Prop := x ≠ [] ∧ x ≠ ".".toList ∧ x ≠ "..".toList ∧ '/' ∉ x

theorem join_names (p q : Path) (h : ∀ x ∈ q, Name x) : join p q = p ++ q := by
  unfold join
  induction q generalizing p with
  | nil => simp
  | cons x q ih =>
    obtain ⟨h1, h2, h3, _⟩ := h x (List.mem_cons_self ..)
    rw [List.foldl_cons, if_neg (by rintro (h | h); exact h1 h; exact h2 h), if_neg h3,
      ih _ fun y hy => h y (List.mem_cons_of_mem _ hy)]
    simp

theorem split_append (a s : Str) (h : '/' ∉ a) : ∀ x l, split s = x :: l → split (a ++ s) = (a ++ x) :: l := by
  induction a with
  | nil => intro x l hs; exact hs
  | cons c a ih =>
    intro x l hs
    rw [List.mem_cons, not_or] at h
    rw [List.cons_append]
    unfold split
    rw [if_neg (fun e => h.1 e.symm), ih h.2 x l hs]
    rfl

theorem split_names : ∀ p : Path, (∀ x ∈ p, Name x) → split (p.map ('/' :: ·)).flatten = [] :: p
  | [], _ => rfl
  | x :: p, h => by
    have ih := split_names p fun y hy => h y (List.mem_cons_of_mem _ hy)
    simp only [List.map_cons, List.flatten_cons, List.cons_append]
    conv => lhs; unfold split
    rw [if_pos rfl, split_append x _ (h x (List.mem_cons_self ..)).2.2.2 _ _ ih]
    simp

theorem parse_render (p : Path) (h : ∀ x ∈ p, Name x) : parse (render p) = p := by
  unfold parse
  cases p with
  | nil => rfl
  | cons x p =>
    show join [] (split ((x :: p).map ('/' :: ·)).flatten) = x :: p
    rw [split_names _ h]
    show join [] (x :: p) = x :: p
    rw [join_names _ _ h]
    rfl

theorem mem_split (s : Str) : ∀ x ∈ split s, '/' ∉ x := by
  induction s with
  | nil => intro x hx; simp [split] at hx; simp [hx]
  | cons c s ih =>
    intro x hx
    unfold split at hx
    split at hx
    · rcases List.mem_cons.1 hx with h | h
      · simp [h]
      · exact ih x h
    · rename_i hc
      split at hx
      · rw [List.mem_singleton] at hx
        rw [hx]
        simpa using fun e => hc e.symm
      · rename_i y l hy
        rcases List.mem_cons.1 hx with h | h
        · rw [h, List.mem_cons, not_or]
          exact ⟨fun e => hc e.symm, ih y (by rw [hy]; exact List.mem_cons_self ..)⟩
        · exact ih x (by rw [hy]; exact List.mem_cons_of_mem _ h)

theorem join_all (rel : List Str) (hr : ∀ x ∈ rel, '/' ∉ x) : ∀ p : Path, (∀ x ∈ p, Name x) → ∀ x ∈ join p rel, Name x := by
  induction rel with
  | nil => exact fun p h => h
  | cons y rel ih =>
    intro p h
    unfold join
    rw [List.foldl_cons]
    refine ih (fun x hx => hr x (List.mem_cons_of_mem _ hx)) _ ?_
    intro x hx
    split at hx
    · exact h x hx
    · rename_i h1
      rw [not_or] at h1
      split at hx
      · exact h x (List.dropLast_subset _ hx)
      · rename_i h2
        rcases List.mem_append.1 hx with h3 | h3
        · exact h x h3
        · rw [List.mem_singleton] at h3
          rw [h3]
          exact ⟨h1.1, h1.2, h2, hr y (List.mem_cons_self ..)⟩

theorem parse_names (s : Str) : ∀ x ∈ parse s, Name x := join_all _ (mem_split s) [] (by simp)

/-- the key of a job is 32 hexadecimal digits, `MkdirTemp` adds decimal ones -/
def Digits (s : Str) : Prop := ∀ c ∈ s, c.isAlphanum

theorem digits_name {s : Str} (h : Digits s) (hne : s ≠ []) : Name s := by
  refine ⟨hne, ?_, ?_, ?_⟩
  · rintro rfl; exact absurd (h '.' (by decide)) (by decide)
  · rintro rfl; exact absurd (h '.' (by decide)) (by decide)
  · intro hm; exact absurd (h '/' hm) (by decide)

/-- the unique directory -/
def wsOf (cwd : Path) (hash unique : Str) : Path := cwd ++ ["wr_cwd".toList] ++ (hash.take 3).map ([·]) ++ [hash.drop 3 ++ unique]

theorem start_actual (j : Verif.Server.Modify.Job) (hash unique : Str) (fs : FS) (hc : j.cwdMatters = false) (hh : Digits hash) (hu : Digits unique)
    (hl : 3 < hash.length) : (start j hash unique fs).1.actualCwd ≠ [] ∧
      parse (start j hash unique fs).1.actualCwd = wsOf (parse j.cwd) hash unique ++ ["cwd".toList] ∧ (start j hash unique fs).1.cwd = j.cwd ∧
      (start j hash unique fs).1.mounts = j.mounts := by
  have hs : start j hash unique fs = ({ j with actualCwd := render (wsOf (parse j.cwd) hash unique ++ ["cwd".toList]) },
      (mkHashedDir (parse j.cwd) hash unique (mkdirAll (parse j.cwd) fs)).2) := by
    unfold start
    rw [hc]
    rfl
  rw [hs]
  have hn : ∀ x ∈ wsOf (parse j.cwd) hash unique ++ ["cwd".toList], Name x := by
    intro x hx
    unfold wsOf at hx
    simp only [List.mem_append, List.mem_singleton, List.mem_map] at hx
    rcases hx with (((h | h) | ⟨c, h, rfl⟩) | h) | h
    · exact parse_names _ x h
    · rw [h]; unfold Name; decide
    · exact digits_name (fun d hd => by rw [List.mem_singleton] at hd; rw [hd]; exact hh c (List.mem_of_mem_take h)) (by simp)
    · rw [h]
      refine digits_name ?_ ?_
      · intro d hd
        rcases List.mem_append.1 hd with h1 | h1
        · exact hh d (List.mem_of_mem_drop h1)
        · exact hu d h1
      · intro e
        have : (hash.drop 3).length = 0 := by rw [(List.append_eq_nil_iff.1 e).1]; rfl
        rw [List.length_drop] at this
        omega
    · rw [h]; unfold Name; decide
  refine ⟨?_, parse_render _ hn, rfl, rfl⟩
  cases hw : wsOf (parse j.cwd) hash unique ++ ["cwd".toList] with
  | nil => simp at hw
  | cons a l => simp [render]

theorem within_wsOf (cwd : Path) (hash unique : Str) : Below cwd (wsOf cwd hash unique) := by
  refine below_of ?_ ?_
  · unfold wsOf
    rw [List.append_assoc, List.append_assoc]
    exact List.prefix_append _ _
  · unfold wsOf
    simp only [List.length_append, List.length_cons, List.length_nil]
    omega

/-- C88, for jobs: one that was added without `CwdMatters` and not modified since is started, its command does whatever it does (`fs`
is what it leaves), and then it is cleaned up: no file is removed that is not in the unique directory, nor `cwd` -/
theorem C88_job_partial (j : Verif.Server.Modify.Job) (hash unique : Str) (fs0 fs fs' : FS) (ok : Bool) (hc : j.cwdMatters = false)
    (hcl : isClean j.cwd = true) (hh : Digits hash) (hu : Digits unique) (hl : 3 < hash.length) (ht : Tree fs)
    (hd : (wsOf (parse j.cwd) hash unique, Kind.dir) ∈ fs) (h : cleanupJob (start j hash unique fs0).1 fs = some (fs', ok)) (e : Entry) (he : e ∈ fs)
    (hu : (e.2 = .file ∧ ¬ wsOf (parse j.cwd) hash unique <+: e.1) ∨ ¬ Below (parse j.cwd) e.1) : e ∈ fs' := by
  obtain ⟨h1, h2, h3, h4⟩ := start_actual j hash unique fs0 hc hh ‹Digits unique› hl
  unfold cleanupJob at h
  rw [if_neg h1, h2, h3, hcl, if_pos rfl] at h
  exact C88_files fs fs' _ _ _ ok ⟨ht, within_wsOf _ _ _, hd⟩ h e he hu

/-- C88: one that was added with `CwdMatters`, and not modified since, is not cleaned up at all -/
theorem C88_matters_partial (j : Verif.Server.Modify.Job) (hash unique : Str) (fs0 fs : FS) (hc : j.cwdMatters = true) (ha : j.actualCwd = []) :
    cleanupJob (start j hash unique fs0).1 fs = some (fs, true) := by
  unfold start
  rw [hc]
  unfold cleanupJob cleanup
  rw [if_pos rfl]
  simp only
  rw [if_pos ha]

/-- C88, violated: of a job that was modified to have `CwdMatters`, everything is removed that is in the parent directory of its
`cwd`, whatever it is and whoever made it -/
theorem C88_violated_modified (m : Verif.Server.Modify.Modifier) (j : Verif.Server.Modify.Job) (hash unique : Str) (fs0 fs : FS)
    (hm : m.cwdMatters = some true) (hne : (Verif.Server.Modify.apply m j).cwd ≠ []) (hmt : (Verif.Server.Modify.apply m j).mounts = []) :
    ∃ fs', cleanupJob (start (Verif.Server.Modify.apply m j) hash unique fs0).1 fs = some (fs', true) ∧
      ∀ e ∈ fs', ¬ (parse (Verif.Server.Modify.apply m j).cwd).dropLast <+: e.1 := by
  have h1 : (Verif.Server.Modify.apply m j).cwdMatters = true := by simp [Verif.Server.Modify.apply, hm]
  have h2 : (Verif.Server.Modify.apply m j).actualCwd = (Verif.Server.Modify.apply m j).cwd := by simp [Verif.Server.Modify.apply, hm]
  unfold start
  rw [h1, if_pos rfl]
  unfold cleanupJob cleanup
  rw [h2, if_neg hne, hmt]
  exact ⟨_, rfl, fun e he => (mem_removeAll.1 ((rmEmptyDirs_sub _ _ _).subset he)).2⟩

namespace Ex
open Verif.Server.Modify (plain apply)

def p (s : String) : Path := parse s.toList

/-- /home/u has `dir`, and an important file; a job's directories are in `dir`, and there is a file of it -/
def disk : FS :=
  [(p "/home", .dir), (p "/home/u", .dir), (p "/home/u/thesis", .file), (p "/home/u/dir", .dir), (p "/home/u/dir/wr_cwd", .dir),
   (p "/home/u/dir/wr_cwd/a", .dir), (p "/home/u/dir/wr_cwd/a/b", .dir), (p "/home/u/dir/wr_cwd/a/b/c", .dir),
   (p "/home/u/dir/wr_cwd/a/b/c/d0", .dir), (p "/home/u/dir/wr_cwd/a/b/c/d0/tmp", .dir), (p "/home/u/dir/wr_cwd/a/b/c/d0/cwd", .dir),
   (p "/home/u/dir/wr_cwd/a/b/c/d0/cwd/out", .file), (p "/home/u/dir/wr_cwd/a/b/c/d0/cwd/m", .dir), (p "/home/u/dir/wr_cwd/a/b/c/d0/cwd/m/x", .file),
   (p "/home/u/dir/wr_cwd/a/b/c/d0/cwd/m/x2", .dir), (p "/home/u/dir/wr_cwd/a/b/c/d0/.muxfys1", .dir)]

def abcd : Str := "abcd".toList

/-- a job is started in the empty `dir`, and has the directories above -/
example : (start plain abcd "0".toList [(p "/home", .dir), (p "/home/u", .dir), (p "/home/u/dir", .dir)]).1.actualCwd = "/home/u/dir/wr_cwd/a/b/c/d0/cwd".toList ∧
    (start plain abcd "0".toList [(p "/home", .dir), (p "/home/u", .dir), (p "/home/u/dir", .dir)]).2.length = 10 := by decide +kernel

theorem tree_disk : Tree disk := ⟨by decide +kernel, by decide +kernel, by decide +kernel⟩

theorem made_disk : Made disk (p "/home/u/dir") (p "/home/u/dir/wr_cwd/a/b/c/d0") := ⟨tree_disk, by decide +kernel, by decide +kernel⟩

/-- it is cleaned up: only the user's file is left, and `dir` -/
example : cleanupJob (start plain abcd "0".toList []).1 disk =
    some ([(p "/home", .dir), (p "/home/u", .dir), (p "/home/u/thesis", .file), (p "/home/u/dir", .dir)], true) := by decide +kernel

/-- the same with `m` mounted: it is left, and the cache -/
example : cleanupJob (start { plain with mounts := [⟨"m".toList, []⟩] } abcd "0".toList []).1 disk =
    some (disk.filter fun e => e.1 != p "/home/u/dir/wr_cwd/a/b/c/d0/tmp" && e.1 != p "/home/u/dir/wr_cwd/a/b/c/d0/cwd/out", true) := by decide +kernel

example : Inside (p "/home/u/dir/wr_cwd/a/b/c/d0/cwd") [.relative ["m".toList]] := by
  intro rel h
  simp only [List.mem_singleton, Mount.relative.injEq] at h
  rw [h]
  decide +kernel

/-- C88, violated: the user's file is lost, and all of their home directory -/
theorem C88_violated_lost : ∃ m j, m.cwdMatters = some true ∧ j.actualCwd = [] ∧
    cleanupJob (start (apply m j) abcd "0".toList disk).1 disk = some ([], true) :=
  ⟨{ cwdMatters := some true }, plain, rfl, rfl, by decide +kernel⟩

/-- C88, violated: a `cwd` with a slash at the end is removed too, if it is empty otherwise, and all empty directories above it -/
theorem C88_violated_slash : ∃ j fs, j.cwd = "/data/u/dir/".toList ∧ j.cwdMatters = false ∧ Tree fs ∧
    fs = [(p "/data", .dir), (p "/data/u", .dir), (p "/data/u/dir", .dir)] ∧
    cleanupJob (start j abcd "0".toList fs).1 (start j abcd "0".toList fs).2 = some ([], true) :=
  ⟨{ plain with cwd := "/data/u/dir/".toList }, _, rfl, rfl, ⟨by decide +kernel, by decide +kernel, by decide +kernel⟩, rfl, by decide +kernel⟩

end Ex
end Verif.Client.Files
