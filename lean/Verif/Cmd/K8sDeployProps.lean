import Verif.Cmd.K8sDeploy
/-!
# C138: what `wr k8s deploy` makes, `wr k8s teardown` deletes, and the history is kept
-/
namespace Verif.Cmd.K8sDeploy

/-! ## Nothing is left -/

/-- What may happen without anything being left behind: the calls that come between something being made and it being recorded work, the user
    does not delete the namespace that is in use, and gives `--namespace` only if there is no deployment or for the one that there is. -/
def Tidy (w : World) : Ev → Prop
  | .deploy fails _ _ flag _ =>
    fails .createMap = false ∧ fails .createMgrMap = false ∧ fails .save = false ∧ fails .createDep = false ∧
      (∀ f x, w.file = some f → flag = some x → x = f.ns)
  | .teardown fails _ flag => fails .listCrb = false ∧ fails .delCrb = false ∧ (∀ f x, w.file = some f → flag = some x → x = f.ns)
  | .mkNs _ => True
  | .rmNs ns => ∀ f, w.file = some f → f.ns ≠ ns

def AllTidy : World → List Ev → Prop
  | _, [] => True
  | w, e :: es => Tidy w e ∧ AllTidy (step w e).1 es

/-- `users`: the namespaces that the user made at any time -/
structure Inv (users : Ns → Prop) (w : World) : Prop where
  none : w.file = none → w.crbs = [] ∧ w.maps = [] ∧ w.deps = [] ∧ w.svcs = [] ∧ ∀ ns ∈ w.nss, users ns
  some : ∀ f, w.file = some f →
    (w.crbs = [] ∧ w.deps = [] ∨ ∃ n d, w.crbs = [(n, f.ns)] ∧ w.deps = [d] ∧ d.ns = f.ns) ∧ (∀ m ∈ w.maps, m.1 = f.ns) ∧
      (∀ x ∈ w.svcs, x = f.ns) ∧ ∀ ns ∈ w.nss, users ns ∨ ns = f.ns

/-- Before `create`: a file, and no deployment or all is left as it was. -/
theorem exam_new {fails : Call → Bool} {healthy : Bool} {w : World} {ns : Ns} (h : exam fails healthy w ns = some true) :
    hasDep w ns = false := by
  unfold exam at h
  split at h
  · cases h
  · split at h
    · rename_i hd
      simpa using hd
    · split at h <;> simp at h

theorem exam_old {fails : Call → Bool} {healthy : Bool} {w : World} {ns : Ns} (h : exam fails healthy w ns = some false) :
    hasDep w ns = true := by
  unfold exam at h
  split at h
  · cases h
  · split at h
    · simp at h
    · rename_i hd
      simpa using hd

theorem initNs_some {fails : Call → Bool} {w w1 : World} {ns : Ns} (h : initNs fails w ns = some w1) :
    ns ∈ w1.nss ∧ (∀ x ∈ w1.nss, x ∈ w.nss ∨ x = ns) ∧ (∀ x ∈ w.nss, x ∈ w1.nss) ∧ w1 = { w with nss := w1.nss } := by
  unfold initNs at h
  split at h
  · rename_i hm
    cases h
    exact ⟨hm, fun x hx => Or.inl hx, fun x hx => hx, rfl⟩
  · split at h
    · cases h
    · cases h
      refine ⟨by simp, fun x hx => ?_, fun x hx => by simp [hx], rfl⟩
      rcases List.mem_cons.mp hx with h | h
      · exact Or.inr h
      · exact Or.inl h

theorem initRandom_some {fails : Call → Bool} {w w1 : World} {ns : Ns} (h : initRandom fails w ns = some w1) :
    ns ∈ w1.nss ∧ (∀ x ∈ w1.nss, x ∈ w.nss ∨ x = ns) ∧ (∀ x ∈ w.nss, x ∈ w1.nss) ∧ w1 = { w with nss := w1.nss } := by
  unfold initRandom at h
  split at h
  · cases h
  · split at h
    · cases h
    · cases h
      refine ⟨by simp, fun x hx => ?_, fun x hx => by simp [hx], rfl⟩
      rcases List.mem_cons.mp hx with h | h
      · exact Or.inr h
      · exact Or.inl h

/-- What `prepare` does when there was no file and nothing fails. -/
structure Fresh (w w1 : World) (f : File) : Prop where
  file : w1.file = some f
  here : f.ns ∈ w1.nss
  nss : ∀ x ∈ w1.nss, x ∈ w.nss ∨ x = f.ns
  keeps : ∀ x ∈ w.nss, x ∈ w1.nss
  maps : w1.maps = (f.ns, f.mcm) :: w.maps ∧ f.cm = f.mcm ∨ w1.maps = (f.ns, f.mcm) :: (f.ns, f.cm) :: w.maps
  rest : w1.deps = w.deps ∧ w1.svcs = w.svcs ∧ w1.crbs = w.crbs

theorem prepare_fresh {fails : Call → Bool} {same : Bool} {flag : Option Ns} {random : Ns} {w : World} (hf : w.file = none)
    (h1 : fails .createMap = false) (h2 : fails .createMgrMap = false) (h3 : fails .save = false) :
    prepare fails same flag random w = (w, none) ∨ ∃ w1 f, prepare fails same flag random w = (w1, some f) ∧ Fresh w w1 f ∧
      f.ns = flag.getD random := by
  cases hr : initAny fails w flag random with
  | none => exact Or.inl (by simp [prepare, hf, hr])
  | some p =>
    obtain ⟨w1, ns⟩ := p
    right
    have hw : (ns ∈ w1.nss ∧ (∀ x ∈ w1.nss, x ∈ w.nss ∨ x = ns) ∧ (∀ x ∈ w.nss, x ∈ w1.nss) ∧ w1 = { w with nss := w1.nss }) ∧
        ns = flag.getD random := by
      cases flag with
      | none =>
        simp only [initAny, Option.map_eq_some_iff, Prod.mk.injEq] at hr
        obtain ⟨a, ha, rfl, rfl⟩ := hr
        exact ⟨initRandom_some ha, rfl⟩
      | some x =>
        simp only [initAny, Option.map_eq_some_iff, Prod.mk.injEq] at hr
        obtain ⟨a, ha, rfl, rfl⟩ := hr
        exact ⟨initNs_some ha, rfl⟩
    obtain ⟨⟨a1, a2, a3, a4⟩, a5⟩ := hw
    have hp : prepare fails same flag random w = if same then
        ({ w1 with maps := (ns, w1.next) :: w1.maps, next := w1.next + 1, file := some ⟨ns, w1.next, w1.next⟩ }, some ⟨ns, w1.next, w1.next⟩)
      else
        ({ w1 with maps := (ns, w1.next + 1) :: (ns, w1.next) :: w1.maps, next := w1.next + 2, file := some ⟨ns, w1.next, w1.next + 1⟩ },
          some ⟨ns, w1.next, w1.next + 1⟩) := by
      unfold prepare
      simp only [hf, hr, h1, h2, h3, Bool.false_eq_true, if_false, newMap]
    rw [hp]
    cases same with
    | true =>
      refine ⟨_, _, rfl, ⟨rfl, a1, a2, a3, Or.inl ⟨?_, rfl⟩, ?_⟩, a5⟩
      · simp only; rw [a4]
      · simp only; rw [a4]; exact ⟨rfl, rfl, rfl⟩
    | false =>
      refine ⟨_, _, rfl, ⟨rfl, a1, a2, a3, Or.inr ?_, ?_⟩, a5⟩
      · simp only; rw [a4]
      · simp only; rw [a4]; exact ⟨rfl, rfl, rfl⟩

theorem prepare_file {fails : Call → Bool} {same : Bool} {flag : Option Ns} {random : Ns} {w : World} {f : File} (hf : w.file = some f) :
    prepare fails same flag random w = (w, none) ∨ ∃ w1, prepare fails same flag random w = (w1, some f) ∧ initNs fails w f.ns = some w1 := by
  unfold prepare
  rw [hf]
  simp only
  cases h : initNs fails w f.ns with
  | none => exact Or.inl rfl
  | some w1 => exact Or.inr ⟨w1, rfl, rfl⟩

theorem create_ok {fails : Call → Bool} {f : File} {w : World} (h1 : fails .createDep = false) (h2 : hasDep w f.ns = false) :
    create fails f w = (w, false) ∨ (fails .createCrb = false ∧ (create fails f w).1.nss = w.nss ∧ (create fails f w).1.maps = w.maps ∧
      (create fails f w).1.file = w.file ∧ (create fails f w).1.deps = ⟨f.ns, f.mcm, f.cm⟩ :: w.deps ∧
      (∀ x ∈ (create fails f w).1.svcs, x ∈ w.svcs ∨ x = f.ns) ∧ ∃ n, (create fails f w).1.crbs = w.crbs ++ [(n, f.ns)]) := by
  unfold create
  have hd : hasDep { w with crbs := w.crbs ++ [(w.next, f.ns)], next := w.next + 1 } f.ns = false := h2
  split
  · exact Or.inl rfl
  · rename_i hc
    right
    simp only [h1, hd, Bool.or_false, Bool.false_eq_true, if_false]
    refine ⟨by simpa using hc, ?_⟩
    split
    · exact ⟨rfl, rfl, rfl, rfl, fun x hx => Or.inl hx, _, rfl⟩
    · refine ⟨rfl, rfl, rfl, rfl, fun x hx => ?_, _, rfl⟩
      rcases List.mem_cons.mp hx with h | h
      · exact Or.inr h
      · exact Or.inl h

theorem hasDep_nil {w : World} (ns : Ns) (h : w.deps = []) : hasDep w ns = false := by simp [hasDep, h]

theorem kubeDeploy_none {fails : Call → Bool} {healthy : Bool} {flag : Option Ns} {w : World} (hf : w.file = none) (hd : w.deps = []) :
    kubeDeploy fails healthy flag w = none ∨ kubeDeploy fails healthy flag w = some true := by
  unfold kubeDeploy
  cases flag with
  | none => simp [hf]
  | some x =>
    simp only [exam, hasDep_nil x hd]
    split
    · exact Or.inl rfl
    · exact Or.inr rfl

theorem kubeDeploy_file {fails : Call → Bool} {healthy : Bool} {flag : Option Ns} {w : World} {f : File} (hf : w.file = some f)
    (hx : ∀ x, flag = some x → x = f.ns) : kubeDeploy fails healthy flag w = exam fails healthy w f.ns := by
  unfold kubeDeploy
  cases flag with
  | none => simp [hf]
  | some x => rw [hx x rfl]

theorem inv_deploy {users : Ns → Prop} {w : World} (hi : Inv users w) (fails : Call → Bool) (healthy same : Bool) (flag : Option Ns)
    (random : Ns) (ht : Tidy w (.deploy fails healthy same flag random)) : Inv users (deploy fails healthy same flag random w).1 := by
  obtain ⟨t1, t2, t3, t4, t5⟩ := ht
  unfold deploy
  cases hk : kubeDeploy fails healthy flag w with
  | none => exact hi
  | some new =>
    simp only
    cases hf : w.file with
    | none =>
      obtain ⟨c1, c2, c3, c4, c5⟩ := hi.none hf
      have hnew : new = true := by
        rcases kubeDeploy_none (fails := fails) (healthy := healthy) (flag := flag) hf c3 with h | h <;> rw [h] at hk <;> simp at hk
        exact hk
      subst hnew
      rcases prepare_fresh (same := same) (flag := flag) (random := random) hf t1 t2 t3 with hp | ⟨w1, f, hp, fr, _⟩
      · rw [hp]; exact hi
      · rw [hp]
        simp only [if_true]
        have hmaps : ∀ m ∈ w1.maps, m.1 = f.ns := by
          intro m hm
          rcases fr.maps with ⟨h, _⟩ | h
          · rw [h, c2] at hm; simp at hm; rw [hm]
          · rw [h, c2] at hm
            simp at hm
            rcases hm with h | h <;> rw [h]
        have hns : ∀ ns ∈ w1.nss, users ns ∨ ns = f.ns := fun ns hm => (fr.nss ns hm).imp (c5 ns) id
        obtain ⟨r1, r2, r3⟩ := fr.rest
        have hd : hasDep w1 f.ns = false := hasDep_nil _ (r1.trans c3)
        have i1 : Inv users w1 := by
          refine ⟨fun h => ?_, fun g hg => ?_⟩
          · rw [fr.file] at h; cases h
          · rw [fr.file] at hg
            cases hg
            exact ⟨Or.inl ⟨r3.trans c1, r1.trans c3⟩, hmaps, by rw [r2, c4]; simp, hns⟩
        rcases create_ok (f := f) (w := w1) t4 hd with hc | ⟨_, e1, e2, e3, e4, e5, n, e6⟩
        · rw [hc]; exact i1
        · have i2 : Inv users (create fails f w1).1 := by
            refine ⟨fun h => ?_, fun g hg => ?_⟩
            · rw [e3, fr.file] at h; cases h
            · rw [e3, fr.file] at hg
              cases hg
              refine ⟨Or.inr ⟨n, ⟨f.ns, f.mcm, f.cm⟩, ?_, ?_, rfl⟩, by rw [e2]; exact hmaps, fun x hx => ?_, by rw [e1]; exact hns⟩
              · rw [e6, r3, c1]; rfl
              · rw [e4, r1, c3]
              · rcases e5 x hx with h | h
                · rw [r2, c4] at h; cases h
                · exact h
          split <;> rename_i heq <;> rw [heq] at i2 <;> exact i2
    | some f =>
      obtain ⟨c1, c2, c3, c4⟩ := hi.some f hf
      rw [kubeDeploy_file hf (fun x hx => t5 f x hf hx)] at hk
      rcases prepare_file (fails := fails) (same := same) (flag := flag) (random := random) hf with hp | ⟨w1, hp, hn⟩
      · rw [hp]; exact hi
      · rw [hp]
        simp only
        obtain ⟨n1, n2, n3, n4⟩ := initNs_some hn
        have i1 : Inv users w1 := by
          rw [n4]
          refine ⟨fun h => ?_, fun g hg => ?_⟩
          · simp only [hf] at h; cases h
          · simp only [hf] at hg
            cases hg
            refine ⟨c1, c2, c3, fun ns hm => ?_⟩
            rcases n2 ns hm with h | h
            · exact c4 ns h
            · exact Or.inr h
        cases new with
        | false => exact i1
        | true =>
          simp only [if_true]
          have hd0 := exam_new hk
          have hd : hasDep w1 f.ns = false := by rw [n4]; exact hd0
          have f1 : w1.file = some f := by rw [n4]; exact hf
          obtain ⟨i1a, i1b, i1c, i1d⟩ := i1.some f f1
          have hemp : w1.crbs = [] ∧ w1.deps = [] := by
            rcases i1a with h | ⟨n, d, _, h2, h3⟩
            · exact h
            · simp [hasDep, h2, h3] at hd
          rcases create_ok (f := f) (w := w1) t4 hd with hc | ⟨_, e1, e2, e3, e4, e5, n, e6⟩
          · rw [hc]; exact i1
          · have i2 : Inv users (create fails f w1).1 := by
              refine ⟨fun h => ?_, fun g hg => ?_⟩
              · rw [e3, f1] at h; cases h
              · rw [e3, f1] at hg
                cases hg
                refine ⟨Or.inr ⟨n, ⟨f.ns, f.mcm, f.cm⟩, ?_, ?_, rfl⟩, by rw [e2]; exact i1b, fun x hx => ?_, by rw [e1]; exact i1d⟩
                · rw [e6, hemp.1]; rfl
                · rw [e4, hemp.2]
                · rcases e5 x hx with h | h
                  · exact i1c x h
                  · exact h
            split <;> rename_i heq <;> rw [heq] at i2 <;> exact i2

/-- What deleting in the cluster does if the role bindings can be listed and deleted. -/
theorem tear_cases (fails : Call → Bool) (ns : Ns) (w : World) (t1 : fails .listCrb = false) (t2 : fails .delCrb = false) :
    tearCluster fails ns w = (w, some false) ∨
      (tearCluster fails ns w = (delNs ns w, none) ∧ w.crbs.filter (fun x => x.2 = ns) = []) ∨
      ∃ b bs, tearCluster fails ns w = ({ delNs ns w with crbs := w.crbs.filter fun x => x.1 ≠ b.1 }, some true) ∧
        w.crbs.filter (fun x => x.2 = ns) = b :: bs := by
  unfold tearCluster
  split
  · exact Or.inl rfl
  · right
    simp only [t1, t2, Bool.false_eq_true, if_false]
    have hc : (delNs ns w).crbs = w.crbs := rfl
    rw [hc]
    cases h : w.crbs.filter (fun x => x.2 = ns) with
    | nil => exact Or.inl ⟨rfl, rfl⟩
    | cons b bs => exact Or.inr ⟨b, bs, rfl, rfl⟩

/-- What `teardown` did, if it was tidy. -/
theorem inv_teardown {users : Ns → Prop} {w : World} (hi : Inv users w) (fails : Call → Bool) (stopped : Bool) (flag : Option Ns)
    (ht : Tidy w (.teardown fails stopped flag)) : Inv users (teardown fails stopped flag w).1 := by
  obtain ⟨t1, t2, t3⟩ := ht
  unfold teardown
  cases hf : w.file with
  | none => exact hi
  | some f =>
    simp only
    split
    · exact hi
    · have hx : flag.getD f.ns = f.ns := by
        cases flag with
        | none => rfl
        | some x => exact t3 f x hf rfl
      obtain ⟨c1, c2, c3, c4⟩ := hi.some f hf
      have k2 : (w.maps.filter fun x => x.1 ≠ f.ns) = [] := by
        rw [List.filter_eq_nil_iff]; intro m hm; simp [c2 m hm]
      have k3 : (w.svcs.filter fun x => x ≠ f.ns) = [] := by
        rw [List.filter_eq_nil_iff]; intro m hm; simp [c3 m hm]
      have k4 : ∀ ns ∈ (w.nss.filter fun x => x ≠ f.ns), users ns := by
        intro ns hm
        rw [List.mem_filter] at hm
        rcases c4 ns hm.1 with h | h
        · exact h
        · simp [h] at hm
      rw [hx]
      rcases tear_cases fails f.ns w t1 t2 with hc | ⟨hc, hb⟩ | ⟨b, bs, hc, hb⟩
      · rw [hc]; exact hi
      · rw [hc]
        rcases c1 with ⟨h1, h2⟩ | ⟨n, d, h1, h2, h3⟩
        · refine ⟨fun h => ?_, fun g hg => ?_⟩
          · simp only [delNs, hf] at h; cases h
          · simp only [delNs, hf] at hg
            cases hg
            exact ⟨Or.inl ⟨h1, by simp [delNs, h2]⟩, by simp only [delNs, k2]; simp, by simp only [delNs, k3]; simp,
              fun ns hm => Or.inl (k4 ns hm)⟩
        · simp [h1] at hb
      · rw [hc]
        rcases c1 with ⟨h1, h2⟩ | ⟨n, d, h1, h2, h3⟩
        · simp [h1] at hb
        · simp [h1] at hb
          refine ⟨fun _ => ⟨?_, ?_, ?_, ?_, ?_⟩, fun g hg => by cases hg⟩
          · simp [delNs, h1, ← hb.1]
          · exact k2
          · simp [delNs, h2, h3]
          · exact k3
          · exact k4

theorem inv_step {users : Ns → Prop} {w : World} (e : Ev) (hu : ∀ ns, e = .mkNs ns → users ns) (hi : Inv users w) (ht : Tidy w e) :
    Inv users (step w e).1 := by
  cases e with
  | deploy fails healthy same flag random => exact inv_deploy hi _ _ _ _ _ ht
  | teardown fails stopped flag => exact inv_teardown hi _ _ _ ht
  | mkNs ns =>
    simp only [step]
    split
    · exact hi
    · refine ⟨fun h => ?_, fun f h => ?_⟩
      · obtain ⟨c1, c2, c3, c4, c5⟩ := hi.none h
        refine ⟨c1, c2, c3, c4, fun x hx => ?_⟩
        rcases List.mem_cons.mp hx with h | h
        · rw [h]; exact hu ns rfl
        · exact c5 x h
      · obtain ⟨c1, c2, c3, c4⟩ := hi.some f h
        refine ⟨c1, c2, c3, fun x hx => ?_⟩
        rcases List.mem_cons.mp hx with h | h
        · rw [h]; exact Or.inl (hu ns rfl)
        · exact c4 x h
  | rmNs ns =>
    simp only [step]
    refine ⟨fun h => ?_, fun f h => ?_⟩
    · obtain ⟨c1, c2, c3, c4, c5⟩ := hi.none h
      refine ⟨c1, by simp [delNs, c2], by simp [delNs, c3], by simp [delNs, c4], fun x hx => ?_⟩
      simp only [delNs, List.mem_filter] at hx
      exact c5 x hx.1
    · obtain ⟨c1, c2, c3, c4⟩ := hi.some f h
      have hne := ht f h
      refine ⟨?_, fun m hm => ?_, fun m hm => ?_, fun m hm => ?_⟩
      · rcases c1 with ⟨h1, h2⟩ | ⟨n, d, h1, h2, h3⟩
        · exact Or.inl ⟨h1, by simp [delNs, h2]⟩
        · refine Or.inr ⟨n, d, h1, ?_, h3⟩
          simp [delNs, h2, h3, hne]
      · simp only [delNs, List.mem_filter] at hm
        exact c2 m hm.1
      · simp only [delNs, List.mem_filter] at hm
        exact c3 m hm.1
      · simp only [delNs, List.mem_filter] at hm
        exact c4 m hm.1

theorem inv_run {users : Ns → Prop} : ∀ (es : List Ev) (w : World), (∀ ns, .mkNs ns ∈ es → users ns) → Inv users w → AllTidy w es →
    Inv users (run w es) := by
  intro es
  induction es with
  | nil => intro w _ hi _; exact hi
  | cons e es ih =>
    intro w hu hi ht
    exact ih _ (fun ns hm => hu ns (by simp [hm])) (inv_step e (fun ns he => hu ns (by simp [he])) hi ht.1) ht.2

theorem inv_init (users : Ns → Prop) : Inv users World.init :=
  ⟨fun _ => ⟨rfl, rfl, rfl, rfl, by simp [World.init]⟩, fun f h => by cases h⟩

/-- C138, as far as it holds: whenever `wr` has no record of a deployment, there are no role bindings, config maps, deployments and services of
    it in the cluster, and all namespaces there are ones that the user made. -/
theorem C138_clean_partial (es : List Ev) (ht : AllTidy World.init es) (h : (run World.init es).file = none) :
    (run World.init es).crbs = [] ∧ (run World.init es).maps = [] ∧ (run World.init es).deps = [] ∧ (run World.init es).svcs = [] ∧
      ∀ ns ∈ (run World.init es).nss, .mkNs ns ∈ es :=
  (inv_run (users := fun ns => .mkNs ns ∈ es) es World.init (fun _ h => h) (inv_init _) ht).none h

/-- C138: a teardown that says that it deleted all leaves no record, so with the above nothing is left. -/
theorem C138_recorded (w w' : World) (fails : Call → Bool) (stopped : Bool) (flag : Option Ns)
    (h : teardown fails stopped flag w = (w', .tornDown)) : w'.file = none ∧ ∃ f, w.file = some f ∧ flag.getD f.ns ∉ w'.nss := by
  unfold teardown at h
  cases hf : w.file with
  | none => rw [hf] at h; simp at h
  | some f =>
    rw [hf] at h
    simp only at h
    split at h
    · simp at h
    · cases ht : tearCluster fails (flag.getD f.ns) w with
      | mk w1 r =>
        rw [ht] at h
        cases r with
        | none => simp at h
        | some b =>
          cases b with
          | false => simp at h
          | true =>
            simp only [Prod.mk.injEq, and_true] at h
            subst h
            refine ⟨rfl, f, rfl, ?_⟩
            unfold tearCluster at ht
            split at ht
            · simp at ht
            · simp only at ht
              split at ht
              · simp at ht
              · split at ht
                · simp at ht
                · split at ht
                  · simp at ht
                  · simp only [Prod.mk.injEq, and_true] at ht
                    rw [← ht]
                    simp [delNs]

/-! ## It works -/

/-- As above, and also the role binding can be made. -/
def Sound (w : World) (e : Ev) : Prop :=
  Tidy w e ∧ match e with
    | .deploy fails _ _ _ _ => fails .createCrb = false
    | _ => True

def AllSound : World → List Ev → Prop
  | _, [] => True
  | w, e :: es => Sound w e ∧ AllSound (step w e).1 es

theorem sound_tidy : ∀ (es : List Ev) (w : World), AllSound w es → AllTidy w es := by
  intro es
  induction es with
  | nil => intro w _; trivial
  | cons e es ih => intro w h; exact ⟨h.1.1, ih _ h.2⟩

/-- A recorded deployment is there with all it needs. -/
def Whole (w : World) : Prop :=
  ∀ f, w.file = some f → f.ns ∈ w.nss ∧ (f.ns, f.cm) ∈ w.maps ∧ (f.ns, f.mcm) ∈ w.maps ∧ (∃ n, w.crbs = [(n, f.ns)]) ∧
    w.deps = [⟨f.ns, f.mcm, f.cm⟩]

theorem whole_step {users : Ns → Prop} {w : World} (e : Ev) (hi : Inv users w) (hw : Whole w) (hs : Sound w e) : Whole (step w e).1 := by
  obtain ⟨ht, hs⟩ := hs
  cases e with
  | deploy fails healthy same flag random =>
    simp only [step, deploy]
    obtain ⟨t1, t2, t3, t4, t5⟩ := ht
    cases hk : kubeDeploy fails healthy flag w with
    | none => exact hw
    | some new =>
      simp only
      cases hf : w.file with
      | none =>
        obtain ⟨c1, c2, c3, c4, c5⟩ := hi.none hf
        have hnew : new = true := by
          rcases kubeDeploy_none (fails := fails) (healthy := healthy) (flag := flag) hf c3 with h | h <;> rw [h] at hk <;> simp at hk
          exact hk
        subst hnew
        rcases prepare_fresh (same := same) (flag := flag) (random := random) hf t1 t2 t3 with hp | ⟨w1, f, hp, fr, _⟩
        · rw [hp]; exact hw
        · rw [hp]
          simp only [if_true]
          obtain ⟨r1, r2, r3⟩ := fr.rest
          have hd : hasDep w1 f.ns = false := hasDep_nil _ (r1.trans c3)
          rcases create_ok (fails := fails) (f := f) (w := w1) t4 hd with hc | ⟨_, e1, e2, e3, e4, e5, n, e6⟩
          · simp only [create, hs, Bool.false_eq_true, if_false] at hc
            have := congrArg (fun p => p.1.crbs.length) hc
            simp only at this
            split at this <;> (try split at this) <;> simp at this
          · have i2 : Whole (create fails f w1).1 := by
              intro g hg
              rw [e3, fr.file] at hg
              cases hg
              rw [e1, e2, e4, e6, r3, c1, r1, c3]
              refine ⟨fr.here, ?_, ?_, ⟨n, rfl⟩, rfl⟩
              · rcases fr.maps with ⟨h, h2⟩ | h
                · rw [h, h2]; simp
                · rw [h]; simp
              · rcases fr.maps with ⟨h, _⟩ | h
                · rw [h]; simp
                · rw [h]; simp
            split <;> rename_i heq <;> rw [heq] at i2 <;> exact i2
      | some f =>
        obtain ⟨b1, b2, b3, b4, b5⟩ := hw f hf
        rw [kubeDeploy_file hf (fun x hx => t5 f x hf hx)] at hk
        have hnew : new = false := by
          cases new with
          | false => rfl
          | true =>
            have := exam_new hk
            simp [hasDep, b5] at this
        subst hnew
        rcases prepare_file (fails := fails) (same := same) (flag := flag) (random := random) hf with hp | ⟨w1, hp, hn⟩
        · rw [hp]; exact hw
        · rw [hp]
          simp only [initNs, b1, if_true, Option.some.injEq] at hn
          subst hn
          exact hw
  | teardown fails stopped flag =>
    simp only [step, teardown]
    cases hf : w.file with
    | none => exact hw
    | some f =>
      simp only
      split
      · exact hw
      · obtain ⟨t1, t2, t3⟩ := ht
        have hx : flag.getD f.ns = f.ns := by
          cases flag with
          | none => rfl
          | some x => exact t3 f x hf rfl
        rw [hx]
        rcases tear_cases fails f.ns w t1 t2 with hc | ⟨hc, hb⟩ | ⟨b, bs, hc, hb⟩
        · rw [hc]; exact hw
        · obtain ⟨n, h⟩ := (hw f hf).2.2.2.1
          simp [h] at hb
        · rw [hc]
          intro g hg
          cases hg
  | mkNs ns =>
    simp only [step]
    split
    · exact hw
    · intro f hf
      obtain ⟨b1, b2, b3, b4, b5⟩ := hw f hf
      exact ⟨by simp [b1], b2, b3, b4, b5⟩
  | rmNs ns =>
    simp only [step]
    intro f hf
    obtain ⟨b1, b2, b3, b4, b5⟩ := hw f hf
    have hne : f.ns ≠ ns := ht f hf
    refine ⟨?_, ?_, ?_, b4, ?_⟩ <;> simp [delNs, b1, b2, b3, b5, hne]

theorem whole_run {users : Ns → Prop} : ∀ (es : List Ev) (w : World), (∀ ns, .mkNs ns ∈ es → users ns) → Inv users w → Whole w →
    AllSound w es → Whole (run w es) := by
  intro es
  induction es with
  | nil => intro w _ _ hw _; exact hw
  | cons e es ih =>
    intro w hu hi hw hs
    exact ih _ (fun ns hm => hu ns (by simp [hm])) (inv_step e (fun ns he => hu ns (by simp [he])) hi hs.1.1) (whole_step e hi hw hs.1) hs.2

theorem whole_init : Whole World.init := fun f h => by cases h

/-- C138, as far as it holds: the config maps that a deployment needs, of its own pod and of the pods of runners, are there. -/
theorem C138_mounts_partial (es : List Ev) (hs : AllSound World.init es) (d : Dep) (hd : d ∈ (run World.init es).deps) :
    d.ns ∈ (run World.init es).nss ∧ (d.ns, d.mcm) ∈ (run World.init es).maps ∧ (d.ns, d.cm) ∈ (run World.init es).maps := by
  have hi := inv_run (users := fun ns => .mkNs ns ∈ es) es World.init (fun _ h => h) (inv_init _) (sound_tidy _ _ hs)
  have hw := whole_run (users := fun ns => .mkNs ns ∈ es) es World.init (fun _ h => h) (inv_init _) whole_init hs
  cases hf : (run World.init es).file with
  | none => rw [(hi.none hf).2.2.1] at hd; cases hd
  | some f =>
    obtain ⟨b1, b2, b3, _, b5⟩ := hw f hf
    rw [b5] at hd
    simp only [List.mem_singleton] at hd
    subst hd
    exact ⟨b1, b3, b2⟩

/-- C138, as far as it holds: what was deployed can be torn down. -/
theorem C138_removable_partial (es : List Ev) (hs : AllSound World.init es) (f : File) (hf : (run World.init es).file = some f)
    (fails : Call → Bool) (h : ∀ c, fails c = false) : ∃ w', teardown fails true none (run World.init es) = (w', .tornDown) := by
  have hw := whole_run (users := fun ns => .mkNs ns ∈ es) es World.init (fun _ h => h) (inv_init _) whole_init hs
  obtain ⟨b1, _, _, ⟨n, b4⟩, _⟩ := hw f hf
  simp [teardown, hf, tearCluster, h, b1, delNs, b4]

/-- C138, as far as it holds: when nothing is deployed, `wr k8s deploy` deploys, to the namespace asked for. -/
theorem C138_deploys_partial (es : List Ev) (hs : AllTidy World.init es) (hf : (run World.init es).file = none)
    (fails : Call → Bool) (h : ∀ c, fails c = false) (healthy same : Bool) (flag : Option Ns) (random : Ns)
    (hr : random ∉ (run World.init es).nss) :
    ∃ w', deploy fails healthy same flag random (run World.init es) = (w', .deployed (flag.getD random)) ∧ flag.getD random ∈ w'.nss ∧
      hasDep w' (flag.getD random) = true ∧ flag.getD random ∈ w'.svcs ∧ ∃ n, (n, flag.getD random) ∈ w'.crbs := by
  have hi := inv_run (users := fun ns => .mkNs ns ∈ es) es World.init (fun _ h => h) (inv_init _) hs
  obtain ⟨c1, c2, c3, c4, c5⟩ := hi.none hf
  generalize run World.init es = w at *
  have hk : kubeDeploy fails healthy flag w = some true := by
    cases flag with
    | none => simp [kubeDeploy, hf]
    | some x => simp [kubeDeploy, exam, h, hasDep_nil x c3]
  have hp : ∃ w1 f, prepare fails same flag random w = (w1, some f) ∧ Fresh w w1 f ∧ f.ns = flag.getD random := by
    rcases prepare_fresh (fails := fails) (same := same) (flag := flag) (random := random) hf (h _) (h _) (h _) with hp | hp
    · exfalso
      have ha : ∃ p, initAny fails w flag random = some p := by
        cases flag with
        | none => exact ⟨_, by simp [initAny, initRandom, hr, h]; rfl⟩
        | some x =>
          simp only [initAny, initNs, h]
          split <;> exact ⟨_, rfl⟩
      obtain ⟨p, ha⟩ := ha
      simp only [prepare, hf, ha, h, Bool.false_eq_true, if_false] at hp
      cases same <;> simp at hp
    · exact hp
  obtain ⟨w1, f, hp, fr, hn⟩ := hp
  obtain ⟨r1, r2, r3⟩ := fr.rest
  have hd : ∀ x, hasDep w1 x = false := fun x => hasDep_nil _ (r1.trans c3)
  have hd2 : hasDep { w1 with crbs := w1.crbs ++ [(w1.next, f.ns)], next := w1.next + 1 } f.ns = false := hd f.ns
  have hsv : f.ns ∉ w1.svcs := by rw [r2, c4]; simp
  unfold deploy
  rw [hk, hp]
  simp only [if_true, create, h, hd2, Bool.false_eq_true, if_false, Bool.or_false, hsv, decide_false, ← hn]
  exact ⟨_, rfl, fr.here, by simp [hasDep], by simp, w1.next, by simp⟩

/-! ## One call, in any state -/

theorem prepare_some {fails : Call → Bool} {same : Bool} {flag : Option Ns} {random : Ns} {w w1 : World} {f : File}
    (h : prepare fails same flag random w = (w1, some f)) :
    f.ns ∈ w1.nss ∧ (w.file = none → f.ns = flag.getD random ∧ (fails .save = false → w1.file = some f)) ∧
      (∀ g, w.file = some g → f = g ∧ w1.file = some f) := by
  cases hf : w.file with
  | some g =>
    rcases prepare_file (fails := fails) (same := same) (flag := flag) (random := random) hf with hp | ⟨w2, hp, hn⟩
    · rw [hp] at h; cases h
    · rw [hp] at h
      cases h
      obtain ⟨n1, _, _, n4⟩ := initNs_some hn
      refine ⟨n1, fun h => (by cases h), fun g' hg => ?_⟩
      cases hg
      refine ⟨rfl, ?_⟩
      rw [n4]; exact hf
  | none =>
    unfold prepare at h
    rw [hf] at h
    cases hr : initAny fails w flag random with
    | none => simp [hr] at h
    | some p =>
      obtain ⟨w2, ns⟩ := p
      have hw : ns ∈ w2.nss ∧ ns = flag.getD random := by
        cases flag with
        | none =>
          simp only [initAny, Option.map_eq_some_iff, Prod.mk.injEq] at hr
          obtain ⟨a, ha, rfl, rfl⟩ := hr
          exact ⟨(initRandom_some ha).1, rfl⟩
        | some x =>
          simp only [initAny, Option.map_eq_some_iff, Prod.mk.injEq] at hr
          obtain ⟨a, ha, rfl, rfl⟩ := hr
          exact ⟨(initNs_some ha).1, rfl⟩
      simp only [hr, newMap] at h
      split at h
      · cases h
      · split at h
        · cases h
          refine ⟨?_, fun _ => ⟨hw.2, fun hs => by simp [hs]⟩, fun g hg => (by cases hg)⟩
          split <;> exact hw.1
        · split at h
          · cases h
          · cases h
            refine ⟨?_, fun _ => ⟨hw.2, fun hs => by simp [hs]⟩, fun g hg => (by cases hg)⟩
            split <;> exact hw.1

theorem create_true {fails : Call → Bool} {f : File} {w w' : World} (h : create fails f w = (w', true)) :
    w'.nss = w.nss ∧ w'.file = w.file ∧ hasDep w' f.ns = true := by
  unfold create at h
  split at h
  · cases h
  · simp only at h
    split at h
    · cases h
    · split at h
      · cases h
      · cases h
        exact ⟨rfl, rfl, by simp [hasDep]⟩

/-- C138, as far as it holds: `--namespace` is where the manager is deployed or connected to, if nothing else is recorded. -/
theorem C138_where_partial (fails : Call → Bool) (healthy same : Bool) (x random : Ns) (w w' : World) (ns : Ns)
    (hw : ∀ f, w.file = some f → f.ns = x)
    (h : deploy fails healthy same (some x) random w = (w', .deployed ns) ∨
      deploy fails healthy same (some x) random w = (w', .reconnected ns)) : ns = x := by
  have key : ∀ w1 f, prepare fails same (some x) random w = (w1, some f) → f.ns = x := by
    intro w1 f hp
    obtain ⟨_, p2, p3⟩ := prepare_some hp
    cases hf : w.file with
    | none => exact (p2 hf).1
    | some g => rw [(p3 g hf).1]; exact hw g hf
  unfold deploy at h
  cases hk : kubeDeploy fails healthy (some x) w with
  | none => rw [hk] at h; simp at h
  | some new =>
    rw [hk] at h
    simp only at h
    cases hp : prepare fails same (some x) random w with
    | mk w1 o =>
      rw [hp] at h
      cases o with
      | none => simp at h
      | some f =>
        rw [← key w1 f hp]
        cases new with
        | false => simp at h; exact h.2.symm
        | true =>
          simp only [if_true] at h
          cases hc : create fails f w1 with
          | mk w2 b =>
            rw [hc] at h
            cases b with
            | false => simp at h
            | true => simp at h; exact h.2.symm

/-- C138: deploying again, when the manager is healthy, connects to the same one and changes nothing in the cluster. -/
theorem C138_again (fails fails' : Call → Bool) (healthy same same' : Bool) (flag : Option Ns) (random random' : Ns) (w w' : World) (ns : Ns)
    (hs : fails .save = false) (h : deploy fails healthy same flag random w = (w', .deployed ns)) (hg : fails' .getDep = false) :
    deploy fails' true same' none random' w' = (w', .reconnected ns) := by
  unfold deploy at h
  cases hk : kubeDeploy fails healthy flag w with
  | none => rw [hk] at h; simp at h
  | some new =>
    rw [hk] at h
    simp only at h
    cases hp : prepare fails same flag random w with
    | mk w1 o =>
      rw [hp] at h
      cases o with
      | none => simp at h
      | some f =>
        cases new with
        | false => simp at h
        | true =>
          simp only [if_true] at h
          cases hc : create fails f w1 with
          | mk w2 b =>
            rw [hc] at h
            cases b with
            | false => simp at h
            | true =>
              simp only [Prod.mk.injEq, Res.deployed.injEq] at h
              obtain ⟨rfl, rfl⟩ := h
              obtain ⟨k1, k2, k3⟩ := create_true hc
              obtain ⟨p1, p2, p3⟩ := prepare_some hp
              have hfile : w2.file = some f := by
                rw [k2]
                cases hf : w.file with
                | none => exact (p2 hf).2 hs
                | some g => exact (p3 g hf).2
              have hin : f.ns ∈ w2.nss := by rw [k1]; exact p1
              simp [deploy, kubeDeploy, hfile, exam, hg, k3, prepare, initNs, hin]

/-- C138: `wr k8s deploy` deletes nothing. -/
theorem C138_adds (fails : Call → Bool) (healthy same : Bool) (flag : Option Ns) (random : Ns) (w : World) :
    let w' := (deploy fails healthy same flag random w).1
    (∀ x ∈ w.nss, x ∈ w'.nss) ∧ (∀ x ∈ w.maps, x ∈ w'.maps) ∧ (∀ x ∈ w.deps, x ∈ w'.deps) ∧ (∀ x ∈ w.svcs, x ∈ w'.svcs) ∧
      ∀ x ∈ w.crbs, x ∈ w'.crbs := by
  have hcr : ∀ f w1, (∀ x ∈ w1.nss, x ∈ (create fails f w1).1.nss) ∧ (∀ x ∈ w1.maps, x ∈ (create fails f w1).1.maps) ∧
      (∀ x ∈ w1.deps, x ∈ (create fails f w1).1.deps) ∧ (∀ x ∈ w1.svcs, x ∈ (create fails f w1).1.svcs) ∧
      ∀ x ∈ w1.crbs, x ∈ (create fails f w1).1.crbs := by
    intro f w1
    unfold create
    split
    · exact ⟨fun _ h => h, fun _ h => h, fun _ h => h, fun _ h => h, fun _ h => h⟩
    · simp only
      split
      · exact ⟨fun _ h => h, fun _ h => h, fun _ h => h, fun _ h => h, fun _ h => by simp [h]⟩
      · split
        · exact ⟨fun _ h => h, fun _ h => h, fun _ h => by simp [h], fun _ h => h, fun _ h => by simp [h]⟩
        · exact ⟨fun _ h => h, fun _ h => h, fun _ h => by simp [h], fun _ h => by simp [h], fun _ h => by simp [h]⟩
  have hpr : (∀ x ∈ w.nss, x ∈ (prepare fails same flag random w).1.nss) ∧ (∀ x ∈ w.maps, x ∈ (prepare fails same flag random w).1.maps) ∧
      (prepare fails same flag random w).1.deps = w.deps ∧ (prepare fails same flag random w).1.svcs = w.svcs ∧
      (prepare fails same flag random w).1.crbs = w.crbs := by
    cases hf : w.file with
    | some f =>
      rcases prepare_file (fails := fails) (same := same) (flag := flag) (random := random) hf with hp | ⟨w1, hp, hn⟩
      · rw [hp]; exact ⟨fun _ h => h, fun _ h => h, rfl, rfl, rfl⟩
      · rw [hp]
        obtain ⟨_, _, n3, n4⟩ := initNs_some hn
        refine ⟨n3, ?_⟩
        simp only
        rw [n4]
        exact ⟨fun _ h => h, rfl, rfl, rfl⟩
    | none =>
      unfold prepare
      rw [hf]
      simp only
      cases hr : initAny fails w flag random with
      | none => exact ⟨fun _ h => h, fun _ h => h, rfl, rfl, rfl⟩
      | some p =>
        obtain ⟨w2, ns⟩ := p
        have hw : (∀ x ∈ w.nss, x ∈ w2.nss) ∧ w2 = { w with nss := w2.nss } := by
          cases flag with
          | none =>
            simp only [initAny, Option.map_eq_some_iff, Prod.mk.injEq] at hr
            obtain ⟨a, ha, rfl, rfl⟩ := hr
            exact (initRandom_some ha).2.2
          | some x =>
            simp only [initAny, Option.map_eq_some_iff, Prod.mk.injEq] at hr
            obtain ⟨a, ha, rfl, rfl⟩ := hr
            exact (initNs_some ha).2.2
        obtain ⟨n3, n4⟩ := hw
        have m : w2.maps = w.maps ∧ w2.deps = w.deps ∧ w2.svcs = w.svcs ∧ w2.crbs = w.crbs := by rw [n4]; exact ⟨rfl, rfl, rfl, rfl⟩
        obtain ⟨m1, m2, m3, m4⟩ := m
        simp only [newMap]
        split
        · exact ⟨n3, by rw [m1]; exact fun _ h => h, m2, m3, m4⟩
        · split
          · split <;> exact ⟨n3, by simp only [m1]; exact fun _ h => by simp [h], m2, m3, m4⟩
          · split
            · exact ⟨n3, by simp only [m1]; exact fun _ h => by simp [h], m2, m3, m4⟩
            · split <;> exact ⟨n3, by simp only [m1]; exact fun _ h => by simp [h], m2, m3, m4⟩
  simp only
  unfold deploy
  cases hk : kubeDeploy fails healthy flag w with
  | none => exact ⟨fun _ h => h, fun _ h => h, fun _ h => h, fun _ h => h, fun _ h => h⟩
  | some new =>
    simp only
    cases hp : prepare fails same flag random w with
    | mk w1 o =>
      rw [hp] at hpr
      obtain ⟨q1, q2, q3, q4, q5⟩ := hpr
      simp only at q1 q2 q3 q4 q5
      have base : (∀ x ∈ w.nss, x ∈ w1.nss) ∧ (∀ x ∈ w.maps, x ∈ w1.maps) ∧ (∀ x ∈ w.deps, x ∈ w1.deps) ∧ (∀ x ∈ w.svcs, x ∈ w1.svcs) ∧
          ∀ x ∈ w.crbs, x ∈ w1.crbs := ⟨q1, q2, by rw [q3]; exact fun _ h => h, by rw [q4]; exact fun _ h => h, by rw [q5]; exact fun _ h => h⟩
      cases o with
      | none => exact base
      | some f =>
        cases new with
        | false => exact base
        | true =>
          simp only [if_true]
          obtain ⟨b1, b2, b3, b4, b5⟩ := base
          have hc := hcr f w1
          obtain ⟨d1, d2, d3, d4, d5⟩ := hc
          have all : (∀ x ∈ w.nss, x ∈ (create fails f w1).1.nss) ∧ (∀ x ∈ w.maps, x ∈ (create fails f w1).1.maps) ∧
              (∀ x ∈ w.deps, x ∈ (create fails f w1).1.deps) ∧ (∀ x ∈ w.svcs, x ∈ (create fails f w1).1.svcs) ∧
              ∀ x ∈ w.crbs, x ∈ (create fails f w1).1.crbs :=
            ⟨fun x h => d1 x (b1 x h), fun x h => d2 x (b2 x h), fun x h => d3 x (b3 x h), fun x h => d4 x (b4 x h), fun x h => d5 x (b5 x h)⟩
          split <;> rename_i heq <;> rw [heq] at all <;> exact all

/-- C138: `wr k8s teardown` deletes nothing in other namespaces than the given or recorded one. -/
theorem C138_others (fails : Call → Bool) (stopped : Bool) (flag : Option Ns) (w : World) (f : File) (hf : w.file = some f) (ns : Ns)
    (hn : ns ≠ flag.getD f.ns) :
    let w' := (teardown fails stopped flag w).1
    (ns ∈ w.nss → ns ∈ w'.nss) ∧ (∀ m, (ns, m) ∈ w.maps → (ns, m) ∈ w'.maps) ∧ (∀ d ∈ w.deps, d.ns = ns → d ∈ w'.deps) ∧
      (ns ∈ w.svcs → ns ∈ w'.svcs) := by
  have hd : ∀ t, t ≠ ns → (ns ∈ w.nss → ns ∈ (delNs t w).nss) ∧ (∀ m, (ns, m) ∈ w.maps → (ns, m) ∈ (delNs t w).maps) ∧
      (∀ d ∈ w.deps, d.ns = ns → d ∈ (delNs t w).deps) ∧ (ns ∈ w.svcs → ns ∈ (delNs t w).svcs) := by
    intro t ht
    refine ⟨fun h => ?_, fun m h => ?_, fun d h he => ?_, fun h => ?_⟩ <;> simp [delNs, h] <;> first | exact fun e => ht e.symm | skip
    rw [he]; exact fun e => ht e.symm
  have hd' := hd (flag.getD f.ns) (Ne.symm hn)
  simp only
  unfold teardown
  rw [hf]
  simp only
  split
  · exact ⟨fun h => h, fun _ h => h, fun _ h _ => h, fun h => h⟩
  · unfold tearCluster
    cases hc : (fails .delNs || !decide (flag.getD f.ns ∈ w.nss)) with
    | true => exact ⟨fun h => h, fun _ h => h, fun _ h _ => h, fun h => h⟩
    | false =>
      simp only [Bool.false_eq_true, if_false]
      cases fails .listCrb with
      | true => exact hd'
      | false =>
        simp only [Bool.false_eq_true, if_false]
        cases (delNs (flag.getD f.ns) w).crbs.filter (fun x => x.2 = flag.getD f.ns) with
        | nil => exact hd'
        | cons b bs =>
          cases fails .delCrb with
          | true => exact hd'
          | false => exact hd'

/-! ## Cases, and what goes wrong -/

def ok : Call → Bool := fun _ => false

def bad (c : Call) : Call → Bool := fun d => decide (d = c)

/-- Deployed, connected to again, torn down. -/
def ordinary : List Ev := [.mkNs 1, .deploy ok true false none 5, .deploy ok true false none 6, .teardown ok true none]

example : AllSound World.init ordinary := by
  refine ⟨⟨trivial, trivial⟩, ⟨⟨rfl, rfl, rfl, rfl, by intro f x h; cases h⟩, rfl⟩, ⟨⟨rfl, rfl, rfl, rfl, by intro f x _ h; cases h⟩, rfl⟩,
    ⟨⟨rfl, rfl, by intro f x _ h; cases h⟩, trivial⟩, trivial⟩

example : (run World.init ordinary).file = none ∧ (run World.init ordinary).nss = [1] := by decide

example : ((run World.init (ordinary.take 3)).file.map (·.ns)) = some 5 ∧ (run World.init (ordinary.take 3)).deps.length = 1 := by decide

example : (deploy ok true false (some 7) 5 World.init).2 = .deployed 7 := by decide

/-- C138 is violated: with `--namespace 7` the manager is deployed to the namespace that is recorded. -/
theorem C138_violated_where : ∃ es, (deploy ok true false (some 7) 6 (run World.init es)).2 = .deployed 5 ∧
    7 ∉ (deploy ok true false (some 7) 6 (run World.init es)).1.nss :=
  ⟨[.deploy ok true false none 5, .rmNs 5], by decide, by decide⟩

/-- C138 is violated: a deployment may need config maps that are not there, so that its pod never starts. -/
theorem C138_violated_mounts : ∃ es, (deploy ok true false none 6 (run World.init es)).2 = .deployed 5 ∧
    ∃ d ∈ (deploy ok true false none 6 (run World.init es)).1.deps, (d.ns, d.mcm) ∉ (deploy ok true false none 6 (run World.init es)).1.maps :=
  ⟨[.deploy ok true false none 5, .rmNs 5], by decide, by decide⟩

/-- C138 is violated: role bindings, which make what runs in the namespace an administrator of the cluster, are left after a teardown that says
    that it deleted all, if a deploy was tried twice. No call has to fail for that. -/
theorem C138_violated_left : ∃ es, (teardown ok true none (run World.init es)).2 = .tornDown ∧
    (teardown ok true none (run World.init es)).1.crbs.length = 1 :=
  ⟨[.deploy ok true false none 5, .deploy ok true false (some 7) 6], by decide, by decide⟩

/-- C138 is violated: if the record cannot be written, the deployment works, but can never be torn down. -/
theorem C138_violated_save : ∃ w, deploy (bad .save) true false none 5 World.init = (w, .deployed 5) ∧ w.deps.length = 1 ∧
    ∀ fails stopped flag, teardown fails stopped flag w = (w, .died) :=
  ⟨_, rfl, by decide, fun _ _ _ => rfl⟩

/-- C138 is violated: a namespace that the user made, and what they have in it, is deleted. -/
theorem C138_violated_own : ∃ es, .mkNs 7 ∈ es ∧ (teardown ok true none (run World.init es)).2 = .tornDown ∧
    7 ∈ (run World.init es).nss ∧ 7 ∉ (teardown ok true none (run World.init es)).1.nss :=
  ⟨[.mkNs 7, .deploy ok true false (some 7) 6], by simp, by decide, by decide, by decide⟩

/-- C138 is violated: also one that was never deployed to, if it is given with `--namespace`; and then it crashes. -/
theorem C138_violated_given : ∃ es, (teardown ok true (some 7) (run World.init es)).2 = .panicked ∧
    7 ∈ (run World.init es).nss ∧ 7 ∉ (teardown ok true (some 7) (run World.init es)).1.nss :=
  ⟨[.mkNs 7, .deploy ok true false none 5], by decide, by decide, by decide⟩

/-- C138 is violated: a teardown of one namespace can make `wr` forget another, which is left. -/
theorem C138_violated_forgets : ∃ es, (teardown ok true (some 7) (run World.init es)).2 = .tornDown ∧
    (run World.init es).file.map (·.ns) = some 5 ∧ (teardown ok true (some 7) (run World.init es)).1.file = none ∧
      5 ∈ (teardown ok true (some 7) (run World.init es)).1.nss :=
  ⟨[.deploy (bad .save) true false (some 7) 6, .deploy ok true false none 5], by decide, by decide, by decide, by decide⟩

/-- C138: once the recorded namespace is gone, a teardown cannot succeed. -/
theorem C138_stuck (w : World) (f : File) (hf : w.file = some f) (hn : f.ns ∉ w.nss) (fails : Call → Bool) (stopped : Bool) :
    teardown fails stopped none w = (w, .died) := by
  unfold teardown
  rw [hf]
  cases stopped with
  | false => rfl
  | true => simp [tearCluster, hn]

/-- C138 is violated: a teardown that could not delete the role binding cannot be tried again. -/
theorem C138_violated_retry : ∃ es w, run World.init es = w ∧ w.crbs.length = 1 ∧ w.file.isSome = true ∧
    ∀ fails stopped, teardown fails stopped none w = (w, .died) :=
  ⟨[.deploy ok true false none 5, .teardown (bad .delCrb) true none], _, rfl, by decide, by decide,
    fun fails stopped => C138_stuck _ ⟨5, 0, 1⟩ (by decide) (by decide) fails stopped⟩

/-- C138 is violated: if the role binding could not be made, the teardown crashes and `wr` still has its record. -/
theorem C138_violated_crash : ∃ es, (teardown ok true none (run World.init es)).2 = .panicked ∧
    (teardown ok true none (run World.init es)).1.file.isSome = true :=
  ⟨[.deploy (bad .createCrb) true false none 5], by decide, by decide⟩

/-! ## The history -/

/-- What may happen without history being lost. -/
def HCareful (s3 : Bool) (w : HW) : HEv → Prop
  | .deploy => s3 = true ∨ w.pod.isSome = true ∨ startDb w.loc w.bk = []
  | .podLost => s3 = true
  | .tear e => e.force = false ∧ (s3 = true → e.renames = true ∨ w.loc = none)
  | _ => True

def AllHCareful (s3 : Bool) : HW → List HEv → Prop
  | _, [] => True
  | w, e :: es => HCareful s3 w e ∧ ∀ w', hstep s3 w e = some w' → AllHCareful s3 w' es

structure HInv (s3 : Bool) (w : HW) : Prop where
  noBk : s3 = false → w.bk = none
  bk : s3 = true → w.bk.getD [] = w.done
  off : w.pod = none → startDb w.loc w.bk = w.done
  on : ∀ h, w.pod = some h → h = w.done

theorem hinv_step (s3 : Bool) (w w' : HW) (e : HEv) (hi : HInv s3 w) (hc : HCareful s3 w e) (h : hstep s3 w e = some w') : HInv s3 w' := by
  obtain ⟨loc, bk, pod, dn⟩ := w
  obtain ⟨i1, i2, i3, i4⟩ := hi
  simp only at i1 i2 i3 i4
  cases e with
  | work x =>
    cases pod with
    | none => simp [hstep] at h
    | some p =>
      simp [hstep] at h
      subst h
      have := i4 p rfl
      subst this
      refine ⟨fun hs => by simp [hs, i1 hs], fun hs => by simp [hs], (fun h => by cases h), fun q hq => ?_⟩
      cases hq; rfl
  | localWork x =>
    cases pod with
    | some p => simp [hstep] at h
    | none =>
      simp [hstep] at h
      subst h
      have := i3 rfl
      refine ⟨fun hs => by simp [hs, i1 hs], fun hs => by simp [hs, this], fun _ => by simp [startDb] at this ⊢; exact this,
        fun q hq => by cases hq⟩
  | deploy =>
    cases pod with
    | some p => simp [hstep] at h; subst h; exact ⟨i1, i2, i3, i4⟩
    | none =>
      simp [hstep] at h
      subst h
      refine ⟨i1, i2, (fun h => by cases h), fun q hq => ?_⟩
      cases hq
      rcases hc with h | h | h
      · exact i2 h
      · simp at h
      · have h3 := i3 rfl
        have h' : startDb loc bk = [] := h
        rw [h3] at h'
        cases s3 with
        | true => exact i2 rfl
        | false => rw [i1 rfl, h']; rfl
  | podLost =>
    cases pod with
    | none => simp [hstep] at h
    | some p =>
      simp [hstep] at h
      subst h
      refine ⟨i1, i2, (fun h => by cases h), fun q hq => ?_⟩
      cases hq
      exact i2 hc
  | tear e =>
    obtain ⟨c1, c2⟩ := hc
    simp only [hstep, Option.some.injEq] at h
    subst h
    obtain ⟨cn, rn, bu, sh, fo⟩ := e
    simp only at c1 c2
    subst c1
    cases pod with
    | none => exact ⟨i1, i2, i3, i4⟩
    | some p =>
      have hp := i4 p rfl
      subst hp
      cases cn with
      | false => exact ⟨i1, i2, i3, i4⟩
      | true =>
        cases s3 with
        | true =>
          have hb := i2 rfl
          have hl : startDb (if rn then none else loc) bk = p := by
            rcases c2 rfl with h | h
            · subst h; exact hb
            · subst h; cases rn <;> exact hb
          cases sh with
          | true =>
            cases rn with
            | true => exact ⟨i1, i2, fun _ => hl, fun q hq => by cases hq⟩
            | false => exact ⟨i1, i2, fun _ => hl, fun q hq => by cases hq⟩
          | false =>
            cases rn with
            | true => exact ⟨i1, i2, (fun h => by cases h), i4⟩
            | false => exact ⟨i1, i2, (fun h => by cases h), i4⟩
        | false =>
          cases bu with
          | false => exact ⟨i1, i2, i3, i4⟩
          | true =>
            cases sh with
            | true => exact ⟨i1, i2, fun _ => rfl, fun q hq => by cases hq⟩
            | false => exact ⟨i1, i2, (fun h => by cases h), i4⟩

/-- C138, as far as it holds: what the manager knows, in the cluster or locally after a teardown, is all that was ever recorded. -/
theorem C138_history_partial (s3 : Bool) (es : List HEv) (w : HW) (hc : AllHCareful s3 HW.init es) (h : hrun s3 HW.init es = some w) :
    history w = w.done := by
  have key : ∀ (es : List HEv) (w0 : HW), HInv s3 w0 → AllHCareful s3 w0 es → hrun s3 w0 es = some w → HInv s3 w := by
    intro es
    induction es with
    | nil => intro w0 hi _ h; cases h; exact hi
    | cons e es ih =>
      intro w0 hi hc h
      rw [hrun, Option.bind_eq_some_iff] at h
      obtain ⟨w1, h1, h2⟩ := h
      exact ih w1 (hinv_step s3 _ _ e hi hc.1 h1) (hc.2 w1 h1) h2
  have hi := key es _ ⟨fun _ => rfl, fun _ => rfl, fun _ => rfl, fun h hh => by cases hh⟩ hc h
  unfold history
  cases hp : w.pod with
  | none => exact hi.off hp
  | some p => exact hi.on p hp

/-- all is well -/
def fine : TearEnv := ⟨true, true, true, true, false⟩

/-- With a backup in S3: local work, two deployments, and a pod that is lost. -/
def backed : List HEv := [.localWork 1, .deploy, .work 2, .podLost, .work 3, .tear fine, .localWork 4, .deploy, .work 5, .tear fine]

example : AllHCareful true HW.init backed ∧ ∃ w, hrun true HW.init backed = some w ∧ w.done = [1, 2, 3, 4, 5] ∧ history w = [1, 2, 3, 4, 5] := by
  refine ⟨?_, _, rfl, rfl, rfl⟩
  refine ⟨trivial, fun w h => ?_⟩; cases h
  refine ⟨Or.inl rfl, fun w h => ?_⟩; cases h
  refine ⟨trivial, fun w h => ?_⟩; cases h
  refine ⟨rfl, fun w h => ?_⟩; cases h
  refine ⟨trivial, fun w h => ?_⟩; cases h
  refine ⟨⟨rfl, fun _ => Or.inl rfl⟩, fun w h => ?_⟩; cases h
  refine ⟨trivial, fun w h => ?_⟩; cases h
  refine ⟨Or.inl rfl, fun w h => ?_⟩; cases h
  refine ⟨trivial, fun w h => ?_⟩; cases h
  refine ⟨⟨rfl, fun _ => Or.inl rfl⟩, fun w h => ?_⟩; cases h
  trivial

example : ∃ w, hrun false HW.init [.deploy, .work 2, .tear fine] = some w ∧ history w = [2] ∧ w.pod = none := ⟨_, rfl, rfl, rfl⟩

/-- C138 is violated: without a backup in S3 the local database is not copied to the pod, and the teardown replaces it with that of the pod:
    all that was done before is lost. -/
theorem C138_violated_history : ∃ w, hrun false HW.init [.localWork 1, .deploy, .work 2, .tear fine] = some w ∧ w.done = [1, 2] ∧
    history w = [2] := ⟨_, rfl, rfl, rfl⟩

/-- C138 is violated: also what was done in an earlier deployment. -/
theorem C138_violated_second : ∃ w, hrun false HW.init [.deploy, .work 1, .tear fine, .deploy, .work 2, .tear fine] = some w ∧
    w.done = [1, 2] ∧ history w = [2] := ⟨_, rfl, rfl, rfl⟩

/-- C138 is violated: a pod that is lost takes what was done with it. -/
theorem C138_violated_pod : ∃ w, hrun false HW.init [.deploy, .work 1, .podLost] = some w ∧ w.done = [1] ∧ history w = [] := ⟨_, rfl, rfl, rfl⟩

/-- C138, as far as it holds: what is said about the local database is so. -/
theorem C138_told_partial (s3 : Bool) (e : TearEnv) (w w' : HW) :
    (tear s3 e w = (w', some .updated) → e.force = false ∨ e.backup = true → w'.loc = w.pod) ∧
    (tear s3 e w = (w', some .fromS3) → e.renames = true → w'.loc = none) := by
  obtain ⟨loc, bk, pod, dn⟩ := w
  obtain ⟨cn, rn, bu, sh, fo⟩ := e
  cases pod with
  | none => simp [tear]
  | some p => cases s3 <;> cases cn <;> cases rn <;> cases bu <;> cases sh <;> cases fo <;> cases loc <;> simp [tear] <;> intro h <;> rw [← h]

example : tear false fine ⟨some [1], none, some [2], [1, 2]⟩ = (⟨some [2], none, none, [1, 2]⟩, some .updated) := rfl

/-- C138 is violated: with `--force` the local database is said to be updated although it could not be. -/
theorem C138_violated_told : ∃ w', tear false { fine with backup := false, force := true } ⟨some [], none, some [2], [2]⟩ = (w', some .updated) ∧
    w'.loc = some [] ∧ history w' = [] := ⟨_, rfl, rfl, rfl⟩

/-- C138 is violated: the local database is said to be updated from S3 on the next start also if it could not be moved aside, and then it is
    not. -/
theorem C138_violated_aside : ∃ w', tear true { fine with renames := false } ⟨some [], some [2], some [2], [2]⟩ = (w', some .fromS3) ∧
    history w' = [] := ⟨_, rfl, rfl⟩

end Verif.Cmd.K8sDeploy
