import Verif.Bsub.Spec
import Verif.Bsub.Lex

/-! # Lemmas about replacing values in trees -/
namespace Verif.Bsub

/-! ## values after replacement -/
section
variable (key : Str) (op : BinOp) (v : Str)

mutual
theorem Primary.values_replace (p : Primary) : ∀ x ∈ (p.replace key op v).values key, x = (op, v) := by
  match p with
  | .word d => simp [Primary.replace, Primary.values]
  | .lit t d => simp [Primary.replace, Primary.values]
  | .parens cs => simp only [Primary.replace, Primary.values]; exact Clauses.values_replace cs
  | .braces cs => simp only [Primary.replace, Primary.values]; exact Clauses.values_replace cs

theorem Clauses.values_replace (cs : Clauses) : ∀ x ∈ (cs.replace key op v).values key, x = (op, v) := by
  match cs with
  | .one c => simp only [Clauses.replace, Clauses.values]; exact Clause.values_replace c
  | .more c cs =>
    simp only [Clauses.replace, Clauses.values, List.mem_append]
    rintro x (h | h)
    · exact Clause.values_replace c x h
    · exact Clauses.values_replace cs x h

theorem Clause.values_replace (c : Clause) : ∀ x ∈ (c.replace key op v).values key, x = (op, v) := by
  match c with
  | .bare l => simp only [Clause.replace, Clause.values]; exact Logic.values_replace l
  | .cond l c =>
    simp only [Clause.replace, Clause.values, List.mem_append]
    rintro x (h | h)
    · exact Logic.values_replace l x h
    · exact Logic.values_replace c x h

theorem Logic.values_replace (l : Logic) : ∀ x ∈ (l.replace key op v).values key, x = (op, v) := by
  match l with
  | .one b => simp only [Logic.replace, Logic.values]; exact Binary.values_replace b
  | .ext b o l =>
    simp only [Logic.replace, Logic.values, List.mem_append]
    rintro x (h | h)
    · exact Binary.values_replace b x h
    · exact Logic.values_replace l x h

theorem Binary.values_replace (b : Binary) : ∀ x ∈ (b.replace key op v).values key, x = (op, v) := by
  match b with
  | .one c => simp only [Binary.replace, Binary.values]; exact Call.values_replace c
  | .bin c o b =>
    simp only [Binary.replace]
    split
    · rename_i h
      simp [Binary.values, h, Binary.print, Call.print, Primary.print]
    · rename_i h
      simp [Binary.values, h]

theorem Call.values_replace (c : Call) : ∀ x ∈ (c.replace key op v).values key, x = (op, v) := by
  match c with
  | .bare p => simp only [Call.replace, Call.values]; exact Primary.values_replace p
  | .app p l =>
    simp only [Call.replace, Call.values, List.mem_append]
    rintro x (h | h)
    · exact Primary.values_replace p x h
    · exact Logic.values_replace l x h
end

/-! ## nothing else changes -/

mutual
theorem Primary.blank_replace (p : Primary) : (p.replace key op v).blank key = p.blank key := by
  match p with
  | .word d => rfl
  | .lit t d => rfl
  | .parens cs => simp only [Primary.replace, Primary.blank]; rw [Clauses.blank_replace cs]
  | .braces cs => simp only [Primary.replace, Primary.blank]; rw [Clauses.blank_replace cs]

theorem Clauses.blank_replace (cs : Clauses) : (cs.replace key op v).blank key = cs.blank key := by
  match cs with
  | .one c => simp only [Clauses.replace, Clauses.blank]; rw [Clause.blank_replace c]
  | .more c cs => simp only [Clauses.replace, Clauses.blank]; rw [Clause.blank_replace c, Clauses.blank_replace cs]

theorem Clause.blank_replace (c : Clause) : (c.replace key op v).blank key = c.blank key := by
  match c with
  | .bare l => simp only [Clause.replace, Clause.blank]; rw [Logic.blank_replace l]
  | .cond l c => simp only [Clause.replace, Clause.blank]; rw [Logic.blank_replace l, Logic.blank_replace c]

theorem Logic.blank_replace (l : Logic) : (l.replace key op v).blank key = l.blank key := by
  match l with
  | .one b => simp only [Logic.replace, Logic.blank]; rw [Binary.blank_replace b]
  | .ext b o l => simp only [Logic.replace, Logic.blank]; rw [Binary.blank_replace b, Logic.blank_replace l]

theorem Binary.blank_replace (b : Binary) : (b.replace key op v).blank key = b.blank key := by
  match b with
  | .one c => simp only [Binary.replace, Binary.blank]; rw [Call.blank_replace c]
  | .bin c o b =>
    simp only [Binary.replace]
    split
    · rename_i h
      simp [Binary.blank, h]
    · rfl

theorem Call.blank_replace (c : Call) : (c.replace key op v).blank key = c.blank key := by
  match c with
  | .bare p => simp only [Call.replace, Call.blank]; rw [Primary.blank_replace p]
  | .app p l => simp only [Call.replace, Call.blank]; rw [Primary.blank_replace p, Logic.blank_replace l]
end


end

/-! ## printing a normalised tree -/

mutual
theorem Primary.print_norm (p : Primary) : p.norm.print = p.print := by
  match p with
  | .word d => simp only [Primary.norm]; split <;> simp [Primary.print]
  | .lit t d => rfl
  | .parens cs => simp only [Primary.norm, Primary.print]; rw [Clauses.print_norm cs]
  | .braces cs => simp only [Primary.norm, Primary.print]; rw [Clauses.print_norm cs]

theorem Clauses.print_norm (cs : Clauses) : cs.norm.print = cs.print := by
  match cs with
  | .one c => simp only [Clauses.norm, Clauses.print]; rw [Clause.print_norm c]
  | .more c cs => simp only [Clauses.norm, Clauses.print]; rw [Clause.print_norm c, Clauses.print_norm cs]

theorem Clause.print_norm (c : Clause) : c.norm.print = c.print := by
  match c with
  | .bare l => simp only [Clause.norm, Clause.print]; rw [Logic.print_norm l]
  | .cond l c => simp only [Clause.norm, Clause.print]; rw [Logic.print_norm l, Logic.print_norm c]

theorem Logic.print_norm (l : Logic) : l.norm.print = l.print := by
  match l with
  | .one b => simp only [Logic.norm, Logic.print]; rw [Binary.print_norm b]
  | .ext b o l => simp only [Logic.norm, Logic.print]; rw [Binary.print_norm b, Logic.print_norm l]

theorem Binary.print_norm (b : Binary) : b.norm.print = b.print := by
  match b with
  | .one c => simp only [Binary.norm, Binary.print]; rw [Call.print_norm c]
  | .bin c o b => simp only [Binary.norm, Binary.print]; rw [Call.print_norm c, Binary.print_norm b]

theorem Call.print_norm (c : Call) : c.norm.print = c.print := by
  match c with
  | .bare p => simp only [Call.norm, Call.print]; rw [Primary.print_norm p]
  | .app p l => simp only [Call.norm, Call.print]; rw [Primary.print_norm p, Logic.print_norm l]
end

theorem printReq_norm : ∀ cs : List Clause, printReq (cs.map Clause.norm) = printReq cs
  | [] => rfl
  | [c] => c.print_norm
  | c :: c' :: cs => by
    have ih := printReq_norm (c' :: cs)
    simp only [List.map_cons] at ih
    simp only [List.map_cons, printReq, ih, Clause.print_norm]

/-! ## words that were read are not numbers -/

theorem word_not_num (d : Str) (h : Valid ⟨.word, d⟩) : d.head?.all isDig = false := by
  have hs := h (Or.inl rfl) [] [] (by intro c hc; simp at hc)
  simp only [List.append_nil] at hs
  cases d with
  | nil => simp [lexOne] at hs
  | cons c s =>
    simp only [List.head?_cons, Option.all_some]
    cases hd : isDig c with
    | false => rfl
    | true =>
      exfalso
      have hl : isLetter c = false := by
        cases hl : isLetter c with
        | false => rfl
        | true => rw [letter_not_dig c hl] at hd; cases hd
      simp only [lexOne, hl, hd, if_true, Bool.false_eq_true, if_false] at hs
      split at hs
      · have := congrArg (fun x => x.map fun y => y.1.ty) hs
        simp at this
      · have := congrArg (fun x => x.map fun y => y.1.ty) hs
        simp at this

mutual
theorem Primary.norm_id (p : Primary) (h : p.Canon Valid) : p.norm = p := by
  match p with
  | .word d =>
    simp only [Primary.Canon] at h
    simp [Primary.norm, word_not_num d h]
  | .lit t d => rfl
  | .parens cs => simp only [Primary.Canon] at h; simp only [Primary.norm]; rw [Clauses.norm_id cs h]
  | .braces cs => simp only [Primary.Canon] at h; simp only [Primary.norm]; rw [Clauses.norm_id cs h]

theorem Clauses.norm_id (cs : Clauses) (h : cs.Canon Valid) : cs.norm = cs := by
  match cs with
  | .one c => simp only [Clauses.Canon] at h; simp only [Clauses.norm]; rw [Clause.norm_id c h]
  | .more c cs =>
    simp only [Clauses.Canon] at h; simp only [Clauses.norm]; rw [Clause.norm_id c h.1, Clauses.norm_id cs h.2.1]

theorem Clause.norm_id (c : Clause) (h : c.Canon Valid) : c.norm = c := by
  match c with
  | .bare l => simp only [Clause.Canon] at h; simp only [Clause.norm]; rw [Logic.norm_id l h]
  | .cond l c => simp only [Clause.Canon] at h; simp only [Clause.norm]; rw [Logic.norm_id l h.1, Logic.norm_id c h.2]

theorem Logic.norm_id (l : Logic) (h : l.Canon Valid) : l.norm = l := by
  match l with
  | .one b => simp only [Logic.Canon] at h; simp only [Logic.norm]; rw [Binary.norm_id b h]
  | .ext b o l => simp only [Logic.Canon] at h; simp only [Logic.norm]; rw [Binary.norm_id b h.1, Logic.norm_id l h.2]

theorem Binary.norm_id (b : Binary) (h : b.Canon Valid) : b.norm = b := by
  match b with
  | .one c => simp only [Binary.Canon] at h; simp only [Binary.norm]; rw [Call.norm_id c h]
  | .bin c o b => simp only [Binary.Canon] at h; simp only [Binary.norm]; rw [Call.norm_id c h.1, Binary.norm_id b h.2]

theorem Call.norm_id (c : Call) (h : c.Canon Valid) : c.norm = c := by
  match c with
  | .bare p => simp only [Call.Canon] at h; simp only [Call.norm]; rw [Primary.norm_id p h]
  | .app p l => simp only [Call.Canon] at h; simp only [Call.norm]; rw [Primary.norm_id p h.1, Logic.norm_id l h.2]
end

theorem num_head (v : Str) (h : IsNum v) : v.head?.all isDig = true := by
  cases v with
  | nil => rfl
  | cons c v => simpa using h.2 c (by simp)

theorem num_valid (v : Str) (h : IsNum v) : Valid ⟨.number, v⟩ := by
  cases v with
  | nil => exact absurd rfl h.1
  | cons c v =>
    intro _ depth r hs
    have hc := h.2 c (by simp)
    have hv : ∀ x ∈ v, isDig x = true := fun x hx => h.2 x (List.mem_cons_of_mem _ hx)
    have hl : isLetter c = false := by
      cases hl : isLetter c with
      | false => rfl
      | true => rw [letter_not_dig c hl] at hc; cases hc
    have hw : isWs c = false := by
      cases hw : isWs c with
      | false => rfl
      | true =>
        simp [isWs] at hw
        rcases hw with ((rfl | rfl) | rfl) | rfl <;> exact absurd hc (by decide)
    have hn : number (v ++ r) = (v, r) := by
      have h1 : (number v).1 = v := by
        have e := takeWhile_stable isDig v [] hv (by simp)
        simp only [List.append_nil] at e
        simp [number, e.1, e.2]
      have := number_stable v r (fun x hx => ⟨(hs x hx (by simp)).1, (hs x hx (by simp)).2.1⟩)
      rw [h1] at this
      exact this
    simp only [List.cons_append, lexOne, hw, hl, hc, hn]
    simp

/-! ## replacement keeps trees canonical -/

theorem isKey_word {c : Call} {key : Str} (h : c.isKey key = true) : c = .bare (.word key) := by
  match c with
  | .bare (.word d) => simp [Call.isKey] at h; rw [h]
  | .bare (.lit _ _) => simp [Call.isKey] at h
  | .bare (.parens _) => simp [Call.isKey] at h
  | .bare (.braces _) => simp [Call.isKey] at h
  | .app _ _ => simp [Call.isKey] at h

section
variable (key : Str) (op : BinOp) (v : Str)

theorem Primary.sp (p : Primary) : (p.replace key op v).norm.startsParen = p.startsParen := by
  match p with
  | .word d => simp only [Primary.replace, Primary.norm]; split <;> rfl
  | .lit _ _ => rfl
  | .parens _ => simp only [Primary.replace, Primary.norm]; rfl
  | .braces _ => simp only [Primary.replace, Primary.norm]; rfl

theorem Primary.sp' (p : Primary) : p.norm.startsParen = p.startsParen := by
  match p with
  | .word d => simp only [Primary.norm]; split <;> rfl
  | .lit _ _ => rfl
  | .parens _ => simp only [Primary.norm]; rfl
  | .braces _ => simp only [Primary.norm]; rfl

theorem Call.sp (c : Call) : (c.replace key op v).norm.startsParen = c.startsParen := by
  match c with
  | .bare p => simp only [Call.replace, Call.norm, Call.startsParen]; exact p.sp key op v
  | .app p _ => simp only [Call.replace, Call.norm, Call.startsParen]; exact p.sp key op v

theorem Call.sp' (c : Call) : c.norm.startsParen = c.startsParen := by
  match c with
  | .bare p => simp only [Call.norm, Call.startsParen]; exact p.sp'
  | .app p _ => simp only [Call.norm, Call.startsParen]; exact p.sp'

theorem Binary.sp (b : Binary) : (b.replace key op v).norm.startsParen = b.startsParen := by
  match b with
  | .one c => simp only [Binary.replace, Binary.norm, Binary.startsParen]; exact c.sp key op v
  | .bin c o b =>
    simp only [Binary.replace]
    split <;> simp only [Binary.norm, Binary.startsParen] <;> exact c.sp'

theorem Logic.sp (l : Logic) : (l.replace key op v).norm.startsParen = l.startsParen := by
  match l with
  | .one b => simp only [Logic.replace, Logic.norm, Logic.startsParen]; exact b.sp key op v
  | .ext b _ _ => simp only [Logic.replace, Logic.norm, Logic.startsParen]; exact b.sp key op v

theorem Clause.sp (c : Clause) : (c.replace key op v).norm.startsParen = c.startsParen := by
  match c with
  | .bare l => simp only [Clause.replace, Clause.norm, Clause.startsParen]; exact l.sp key op v
  | .cond l _ => simp only [Clause.replace, Clause.norm, Clause.startsParen]; exact l.sp key op v

theorem Clauses.sp (cs : Clauses) : (cs.replace key op v).norm.startsParen = cs.startsParen := by
  match cs with
  | .one c => simp only [Clauses.replace, Clauses.norm, Clauses.startsParen]; exact c.sp key op v
  | .more c _ => simp only [Clauses.replace, Clauses.norm, Clauses.startsParen]; exact c.sp key op v

theorem Call.isKey_replace (c : Call) (k : Str) (h : c.Canon Valid) :
    (c.replace key op v).norm.isKey k = c.isKey k := by
  match c with
  | .bare (.word d) =>
    simp only [Call.Canon, Primary.Canon] at h
    simp [Call.replace, Primary.replace, Call.norm, Primary.norm, word_not_num d h, Call.isKey]
  | .bare (.lit _ _) => rfl
  | .bare (.parens _) => simp [Call.replace, Primary.replace, Call.norm, Primary.norm, Call.isKey]
  | .bare (.braces _) => simp [Call.replace, Primary.replace, Call.norm, Primary.norm, Call.isKey]
  | .app _ _ => simp [Call.replace, Call.norm, Call.isKey]

section
variable (hk : key.head?.all isDig = false)
include hk

theorem Call.isKey_norm (c : Call) : c.norm.isKey key = c.isKey key := by
  match c with
  | .bare (.word d) =>
    simp only [Call.norm, Primary.norm]
    split
    · rename_i hd
      have : d ≠ key := by rintro rfl; rw [hk] at hd; cases hd
      simp [Call.isKey, this]
    · rfl
  | .bare (.lit _ _) => rfl
  | .bare (.parens _) => simp [Call.norm, Primary.norm, Call.isKey]
  | .bare (.braces _) => simp [Call.norm, Primary.norm, Call.isKey]
  | .app _ _ => simp [Call.norm, Call.isKey]

mutual
theorem Primary.values_norm (p : Primary) : p.norm.values key = p.values key := by
  match p with
  | .word d => simp only [Primary.norm]; split <;> simp [Primary.values]
  | .lit t d => rfl
  | .parens cs => simp only [Primary.norm, Primary.values]; exact Clauses.values_norm cs
  | .braces cs => simp only [Primary.norm, Primary.values]; exact Clauses.values_norm cs

theorem Clauses.values_norm (cs : Clauses) : cs.norm.values key = cs.values key := by
  match cs with
  | .one c => simp only [Clauses.norm, Clauses.values]; exact Clause.values_norm c
  | .more c cs => simp only [Clauses.norm, Clauses.values]; rw [Clause.values_norm c, Clauses.values_norm cs]

theorem Clause.values_norm (c : Clause) : c.norm.values key = c.values key := by
  match c with
  | .bare l => simp only [Clause.norm, Clause.values]; exact Logic.values_norm l
  | .cond l c => simp only [Clause.norm, Clause.values]; rw [Logic.values_norm l, Logic.values_norm c]

theorem Logic.values_norm (l : Logic) : l.norm.values key = l.values key := by
  match l with
  | .one b => simp only [Logic.norm, Logic.values]; exact Binary.values_norm b
  | .ext b o l => simp only [Logic.norm, Logic.values]; rw [Binary.values_norm b, Logic.values_norm l]

theorem Binary.values_norm (b : Binary) : b.norm.values key = b.values key := by
  match b with
  | .one c => simp only [Binary.norm, Binary.values]; exact Call.values_norm c
  | .bin c o b => simp only [Binary.norm, Binary.values]; rw [Call.isKey_norm key hk c, Binary.print_norm b]

theorem Call.values_norm (c : Call) : c.norm.values key = c.values key := by
  match c with
  | .bare p => simp only [Call.norm, Call.values]; exact Primary.values_norm p
  | .app p l => simp only [Call.norm, Call.values]; rw [Primary.values_norm p, Logic.values_norm l]
end

mutual
theorem Primary.blank_fin (p : Primary) (h : p.Canon Valid) : (p.replace key op v).norm.blank key = p.blank key := by
  match p with
  | .word d =>
    have e : ((Primary.word d).replace key op v).norm = .word d := Primary.norm_id _ h
    rw [e]
  | .lit t d => rfl
  | .parens cs =>
    simp only [Primary.Canon] at h
    simp only [Primary.replace, Primary.norm, Primary.blank]; rw [Clauses.blank_fin cs h]
  | .braces cs =>
    simp only [Primary.Canon] at h
    simp only [Primary.replace, Primary.norm, Primary.blank]; rw [Clauses.blank_fin cs h]

theorem Clauses.blank_fin (cs : Clauses) (h : cs.Canon Valid) : (cs.replace key op v).norm.blank key = cs.blank key := by
  match cs with
  | .one c =>
    simp only [Clauses.Canon] at h
    simp only [Clauses.replace, Clauses.norm, Clauses.blank]; rw [Clause.blank_fin c h]
  | .more c cs =>
    simp only [Clauses.Canon] at h
    simp only [Clauses.replace, Clauses.norm, Clauses.blank]; rw [Clause.blank_fin c h.1, Clauses.blank_fin cs h.2.1]

theorem Clause.blank_fin (c : Clause) (h : c.Canon Valid) : (c.replace key op v).norm.blank key = c.blank key := by
  match c with
  | .bare l =>
    simp only [Clause.Canon] at h
    simp only [Clause.replace, Clause.norm, Clause.blank]; rw [Logic.blank_fin l h]
  | .cond l c =>
    simp only [Clause.Canon] at h
    simp only [Clause.replace, Clause.norm, Clause.blank]; rw [Logic.blank_fin l h.1, Logic.blank_fin c h.2]

theorem Logic.blank_fin (l : Logic) (h : l.Canon Valid) : (l.replace key op v).norm.blank key = l.blank key := by
  match l with
  | .one b =>
    simp only [Logic.Canon] at h
    simp only [Logic.replace, Logic.norm, Logic.blank]; rw [Binary.blank_fin b h]
  | .ext b o l =>
    simp only [Logic.Canon] at h
    simp only [Logic.replace, Logic.norm, Logic.blank]; rw [Binary.blank_fin b h.1, Logic.blank_fin l h.2]

theorem Binary.blank_fin (b : Binary) (h : b.Canon Valid) : (b.replace key op v).norm.blank key = b.blank key := by
  match b with
  | .one c =>
    simp only [Binary.Canon] at h
    simp only [Binary.replace, Binary.norm, Binary.blank]; rw [Call.blank_fin c h]
  | .bin c o b =>
    simp only [Binary.replace]
    split
    · rename_i hkc
      simp only [Binary.Canon] at h
      simp only [Binary.norm, Binary.blank, Call.isKey_norm key hk c, hkc, if_true]
      rw [Call.norm_id c h.1]
    · rw [Binary.norm_id _ h]

theorem Call.blank_fin (c : Call) (h : c.Canon Valid) : (c.replace key op v).norm.blank key = c.blank key := by
  match c with
  | .bare p =>
    simp only [Call.Canon] at h
    simp only [Call.replace, Call.norm, Call.blank]; rw [Primary.blank_fin p h]
  | .app p l =>
    simp only [Call.Canon] at h
    simp only [Call.replace, Call.norm, Call.blank]; rw [Primary.blank_fin p h.1, Logic.blank_fin l h.2]
end

end

variable (hkey : key ≠ ['!']) (hv : IsNum v)
include hkey hv

mutual
theorem Primary.fin (p : Primary) (hc : p.Canon Valid) (hb : p.NoBang) (hp : p.NoParen) :
    (p.replace key op v).norm.Canon Valid ∧ (p.replace key op v).norm.NoBang := by
  match p with
  | .word d =>
    have e : ((Primary.word d).replace key op v).norm = .word d := Primary.norm_id _ hc
    rw [e]; exact ⟨hc, hb⟩
  | .lit t d => exact ⟨hc, hb⟩
  | .parens cs =>
    simp only [Primary.Canon] at hc
    simp only [Primary.NoBang] at hb
    simp only [Primary.NoParen] at hp
    simp only [Primary.replace, Primary.norm, Primary.Canon, Primary.NoBang]
    exact Clauses.fin cs hc hb hp
  | .braces cs =>
    simp only [Primary.Canon] at hc
    simp only [Primary.NoBang] at hb
    simp only [Primary.NoParen] at hp
    simp only [Primary.replace, Primary.norm, Primary.Canon, Primary.NoBang]
    exact Clauses.fin cs hc hb hp

theorem Clauses.fin (cs : Clauses) (hc : cs.Canon Valid) (hb : cs.NoBang) (hp : cs.NoParen) :
    (cs.replace key op v).norm.Canon Valid ∧ (cs.replace key op v).norm.NoBang := by
  match cs with
  | .one c =>
    simp only [Clauses.Canon] at hc
    simp only [Clauses.NoBang] at hb
    simp only [Clauses.NoParen] at hp
    simp only [Clauses.replace, Clauses.norm, Clauses.Canon, Clauses.NoBang]
    exact Clause.fin c hc hb hp
  | .more c cs =>
    simp only [Clauses.Canon] at hc
    simp only [Clauses.NoBang] at hb
    simp only [Clauses.NoParen] at hp
    simp only [Clauses.replace, Clauses.norm, Clauses.Canon, Clauses.NoBang]
    have h1 := Clause.fin c hc.1 hb.1 hp.1
    have h2 := Clauses.fin cs hc.2.1 hb.2 hp.2.1
    refine ⟨⟨h1.1, h2.1, ?_⟩, h1.2, h2.2⟩
    rintro ⟨_, h⟩
    rw [Clauses.sp, hp.2.2] at h
    cases h

theorem Clause.fin (c : Clause) (hc : c.Canon Valid) (hb : c.NoBang) (hp : c.NoParen) :
    (c.replace key op v).norm.Canon Valid ∧ (c.replace key op v).norm.NoBang := by
  match c with
  | .bare l =>
    simp only [Clause.Canon] at hc
    simp only [Clause.NoBang] at hb
    simp only [Clause.NoParen] at hp
    simp only [Clause.replace, Clause.norm, Clause.Canon, Clause.NoBang]
    exact Logic.fin l hc hb hp
  | .cond l c =>
    simp only [Clause.Canon] at hc
    simp only [Clause.NoBang] at hb
    simp only [Clause.NoParen] at hp
    simp only [Clause.replace, Clause.norm, Clause.Canon, Clause.NoBang]
    have h1 := Logic.fin l hc.1 hb.1 hp.1
    have h2 := Logic.fin c hc.2 hb.2 hp.2
    exact ⟨⟨h1.1, h2.1⟩, h1.2, h2.2⟩

theorem Logic.fin (l : Logic) (hc : l.Canon Valid) (hb : l.NoBang) (hp : l.NoParen) :
    (l.replace key op v).norm.Canon Valid ∧ (l.replace key op v).norm.NoBang := by
  match l with
  | .one b =>
    simp only [Logic.Canon] at hc
    simp only [Logic.NoBang] at hb
    simp only [Logic.NoParen] at hp
    simp only [Logic.replace, Logic.norm, Logic.Canon, Logic.NoBang]
    exact Binary.fin b hc hb hp
  | .ext b o l =>
    simp only [Logic.Canon] at hc
    simp only [Logic.NoBang] at hb
    simp only [Logic.NoParen] at hp
    simp only [Logic.replace, Logic.norm, Logic.Canon, Logic.NoBang]
    have h1 := Binary.fin b hc.1 hb.1 hp.1
    have h2 := Logic.fin l hc.2 hb.2 hp.2
    exact ⟨⟨h1.1, h2.1⟩, h1.2, h2.2⟩

theorem Binary.fin (b : Binary) (hc : b.Canon Valid) (hb : b.NoBang) (hp : b.NoParen) :
    (b.replace key op v).norm.Canon Valid ∧ (b.replace key op v).norm.NoBang := by
  match b with
  | .one c =>
    simp only [Binary.Canon] at hc
    simp only [Binary.NoBang] at hb
    simp only [Binary.NoParen] at hp
    simp only [Binary.replace, Binary.norm, Binary.Canon, Binary.NoBang]
    exact Call.fin c hc hb hp
  | .bin c o b =>
    simp only [Binary.replace]
    split
    · rename_i hk
      simp only [Binary.Canon] at hc
      simp only [Binary.NoBang] at hb
      simp only [Binary.norm, Binary.Canon, Binary.NoBang]
      rw [Call.norm_id c hc.1]
      have e : (Call.bare (.word v)).norm = .bare (.lit .number v) := by
        simp [Call.norm, Primary.norm, num_head v hv]
      rw [e]
      refine ⟨⟨hc.1, ?_⟩, hb.1, ?_, ?_⟩
      · simp only [Call.Canon, Primary.Canon]
        exact ⟨Or.inl trivial, num_valid v hv⟩
      · simp only [Call.NoBang, Primary.NoBang]
      · rintro ⟨hk', _⟩
        rw [isKey_word hk] at hk'
        simp [Call.isKey] at hk'
        exact hkey hk'
    · rw [Binary.norm_id _ hc]; exact ⟨hc, hb⟩

theorem Call.fin (c : Call) (hc : c.Canon Valid) (hb : c.NoBang) (hp : c.NoParen) :
    (c.replace key op v).norm.Canon Valid ∧ (c.replace key op v).norm.NoBang := by
  match c with
  | .bare p =>
    simp only [Call.Canon] at hc
    simp only [Call.NoBang] at hb
    simp only [Call.NoParen] at hp
    simp only [Call.replace, Call.norm, Call.Canon, Call.NoBang]
    exact Primary.fin p hc hb hp
  | .app p l =>
    simp only [Call.Canon] at hc
    simp only [Call.NoBang] at hb
    simp only [Call.NoParen] at hp
    simp only [Call.replace, Call.norm, Call.Canon, Call.NoBang]
    have h1 := Primary.fin p hc.1 hb.1 hp.1
    have h2 := Logic.fin l hc.2 hb.2 hp.2
    exact ⟨⟨h1.1, h2.1⟩, h1.2, h2.2⟩
end

end

/-! ## whole strings -/

theorem replaceSection_fin (mem hosts name : Str) (l : Logic) (hm : IsNum mem) (hh : IsNum hosts)
    (hc : l.Canon Valid) (hb : l.NoBang) (hp : l.NoParen) :
    (replaceSection mem hosts name l).norm.Canon Valid ∧ (replaceSection mem hosts name l).norm.NoBang ∧
      (replaceSection mem hosts name l).norm.startsParen = l.startsParen := by
  unfold replaceSection
  split
  · exact ⟨(Logic.fin _ _ _ (by decide) hm l hc hb hp).1, (Logic.fin _ _ _ (by decide) hm l hc hb hp).2, l.sp _ _ _⟩
  split
  · exact ⟨(Logic.fin _ _ _ (by decide) hm l hc hb hp).1, (Logic.fin _ _ _ (by decide) hm l hc hb hp).2, l.sp _ _ _⟩
  split
  · exact ⟨(Logic.fin _ _ _ (by decide) hh l hc hb hp).1, (Logic.fin _ _ _ (by decide) hh l hc hb hp).2, l.sp _ _ _⟩
  · rw [l.norm_id hc]; exact ⟨hc, hb, rfl⟩

theorem replaceClause_fin (mem hosts : Str) (first : Bool) (c : Clause) (hm : IsNum mem) (hh : IsNum hosts)
    (hc : c.Canon Valid) (hb : c.NoBang) (hp : c.NoParen) :
    (replaceClause mem hosts first c).norm.Canon Valid ∧ (replaceClause mem hosts first c).norm.NoBang ∧
      (replaceClause mem hosts first c).norm.startsParen = c.startsParen := by
  match c with
  | .bare l =>
    simp only [replaceClause]
    split
    · simp only [Clause.Canon] at hc
      simp only [Clause.NoBang] at hb
      simp only [Clause.NoParen] at hp
      simp only [Clause.norm, Clause.Canon, Clause.NoBang, Clause.startsParen]
      exact replaceSection_fin mem hosts _ l hm hh hc hb hp
    · rw [Clause.norm_id _ hc]; exact ⟨hc, hb, rfl⟩
  | .cond l c =>
    simp only [replaceClause]
    split
    · simp only [Clause.Canon] at hc
      simp only [Clause.NoBang] at hb
      simp only [Clause.NoParen] at hp
      simp only [Clause.norm, Clause.Canon, Clause.NoBang, Clause.startsParen]
      have h := replaceSection_fin mem hosts ‹Str› c hm hh hc.2 hb.2 hp.2
      rw [l.norm_id hc.1]
      exact ⟨⟨hc.1, h.1⟩, ⟨hb.1, h.2.1⟩, rfl⟩
    · rw [Clause.norm_id _ hc]; exact ⟨hc, hb, rfl⟩

theorem sectionOf_norm (first : Bool) (c : Clause) (hp : c.Plain) (hc : c.Canon Valid) (mem hosts : Str) :
    sectionOf first (replaceClause mem hosts first c).norm =
      (sectionOf first c).map fun x => (x.1, (replaceSection mem hosts x.1 x.2).norm) := by
  match c, hp with
  | .bare l, _ =>
    cases first
    · rfl
    · simp only [replaceClause, if_true, Clause.norm, sectionOf, Option.map_some]
  | .cond _ c, ⟨n, rfl⟩ =>
    simp only [Clause.Canon, Logic.Canon, Binary.Canon, Call.Canon, Primary.Canon] at hc
    simp [replaceClause, Logic.firstName, Clause.norm, Logic.norm, Binary.norm, Call.norm, Primary.norm,
      word_not_num n hc.1, sectionOf]

theorem wanted_key {mem hosts n k v : Str} {o : BinOp} (h : wanted mem hosts n = some (k, o, v)) (l : Logic) :
    k.head?.all isDig = false ∧ replaceSection mem hosts n l = l.replace k o v ∧ keyOf n = some k := by
  unfold wanted at h
  unfold replaceSection keyOf
  by_cases h1 : n = "select".toList
  · rw [if_pos h1] at h ⊢; cases h; exact ⟨by decide, rfl, by simp [h1]⟩
  by_cases h2 : n = "rusage".toList
  · rw [if_neg h1, if_pos h2] at h ⊢; cases h; exact ⟨by decide, rfl, by simp [h2]⟩
  by_cases h3 : n = "span".toList
  · rw [if_neg h1, if_neg h2, if_pos h3] at h ⊢; cases h
    refine ⟨by decide, rfl, ?_⟩
    rw [if_neg (by rintro (h | h) <;> contradiction), if_pos h3]
  · rw [if_neg h1, if_neg h2, if_neg h3] at h; cases h

theorem wanted_none {mem hosts n : Str} (h : keyOf n = none) (l : Logic) : replaceSection mem hosts n l = l := by
  unfold keyOf at h
  unfold replaceSection
  by_cases h1 : n = "select".toList
  · simp [h1] at h
  by_cases h2 : n = "rusage".toList
  · simp [h2] at h
  by_cases h3 : n = "span".toList
  · simp [h3] at h
  · rw [if_neg h1, if_neg h2, if_neg h3]

theorem keyOf_wanted {mem hosts n k : Str} (h : keyOf n = some k) : ∃ o v, wanted mem hosts n = some (k, o, v) := by
  unfold keyOf at h
  unfold wanted
  by_cases h1 : n = "select".toList
  · simp [h1] at h ⊢; exact h
  by_cases h2 : n = "rusage".toList
  · simp [h2] at h ⊢; exact h
  by_cases h3 : n = "span".toList
  · simp [h3] at h ⊢; exact h
  · rw [if_neg (by rintro (h | h) <;> contradiction), if_neg h3] at h; cases h

theorem hasWanted_norm (mem hosts : Str) (first : Bool) (c : Clause) (hp : c.Plain) (hc : c.Canon Valid) :
    (replaceClause mem hosts first c).norm.HasWanted mem hosts first := by
  intro n l k o v hs hw x hx
  rw [sectionOf_norm first c hp hc] at hs
  simp only [Option.map_eq_some_iff] at hs
  obtain ⟨y, _, hy⟩ := hs
  cases hy
  obtain ⟨h1, h2, _⟩ := wanted_key hw y.2
  rw [h2, Logic.values_norm k h1] at hx
  exact Logic.values_replace k o v _ x hx

theorem blanked_norm (mem hosts : Str) (first : Bool) (c : Clause) (hp : c.Plain) (hc : c.Canon Valid) :
    (replaceClause mem hosts first c).norm.blanked first = c.blanked first := by
  unfold Clause.blanked
  rw [sectionOf_norm first c hp hc]
  match c, hp with
  | .bare l, _ =>
    cases first
    · simp only [sectionOf, Bool.false_eq_true, if_false, Option.map_none, replaceClause]
      exact Clause.norm_id _ hc
    · simp only [Clause.Canon] at hc
      simp only [sectionOf, if_true, Option.map_some, replaceClause, Clause.norm, Clause.withContent]
      have hk : keyOf "select".toList = some "mem".toList := by decide
      rw [hk]
      simp only
      obtain ⟨o, v, hw⟩ := keyOf_wanted (mem := mem) (hosts := hosts) hk
      obtain ⟨h1, h2, _⟩ := wanted_key hw l
      rw [h2, Logic.blank_fin _ o v h1 l hc]
  | .cond _ c, ⟨n, rfl⟩ =>
    have hh : (Logic.one (.one (.bare (.word n)))).norm = .one (.one (.bare (.word n))) := by
      simp only [Clause.Canon] at hc; exact Logic.norm_id _ hc.1
    simp only [Clause.Canon] at hc
    simp only [sectionOf, Option.map_some, replaceClause, Logic.firstName, Clause.norm, Clause.withContent, hh]
    cases hk : keyOf n with
    | none => simp only; rw [wanted_none hk, Logic.norm_id c hc.2]
    | some k =>
      simp only
      obtain ⟨o, v, hw⟩ := keyOf_wanted (mem := mem) (hosts := hosts) hk
      obtain ⟨h1, h2, _⟩ := wanted_key hw c
      rw [h2, Logic.blank_fin _ o v h1 c hc.2]

theorem topCanon_all {V : Tok → Prop} : ∀ {cs : List Clause}, TopCanon V cs → ∀ c ∈ cs, c.Canon V
  | [], _, c, h => by simp at h
  | [c], hc, x, h => by simp at h; subst h; exact hc
  | c :: c' :: cs, hc, x, h => by
    rcases List.mem_cons.1 h with rfl | h
    · exact hc.1
    · exact topCanon_all hc.2.2 x h

theorem topCanon_of {V : Tok → Prop} : ∀ {cs : List Clause}, (∀ c ∈ cs, c.Canon V) → (∀ c ∈ cs.tail, c.startsParen = false) →
    TopCanon V cs
  | [], _, _ => trivial
  | [c], h, _ => h c (by simp)
  | c :: c' :: cs, h, hp => by
    refine ⟨h c (by simp), ?_, topCanon_of (fun x hx => h x (List.mem_cons_of_mem _ hx)) fun x hx => hp x (by
      simp only [List.tail_cons] at hx ⊢; exact List.mem_cons_of_mem _ hx)⟩
    rintro ⟨_, h'⟩
    rw [hp c' (by simp)] at h'
    cases h'

theorem replaced_reads (mem hosts : Str) (a : List Clause) (hm : IsNum mem) (hh : IsNum hosts)
    (hc : TopCanon Valid a) (hb : ∀ c ∈ a, c.NoBang) (hp : TopNoParen a) :
    parseBsubR (printReq (replaceMemoryAndHosts mem hosts a)) = some ((replaceMemoryAndHosts mem hosts a).map Clause.norm) := by
  rw [← printReq_norm]
  have key : ∀ c ∈ replaceMemoryAndHosts mem hosts a, ∃ c' ∈ a, ∃ f, c = replaceClause mem hosts f c' := by
    intro c h
    cases a with
    | nil => simp [replaceMemoryAndHosts] at h
    | cons x a =>
      rcases List.mem_cons.1 h with rfl | h
      · exact ⟨x, by simp, true, rfl⟩
      · obtain ⟨y, hy, rfl⟩ := List.mem_map.1 h
        exact ⟨y, List.mem_cons_of_mem _ hy, false, rfl⟩
  apply parse_print
  · apply topCanon_of
    · intro c h
      obtain ⟨c0, h0, rfl⟩ := List.mem_map.1 h
      obtain ⟨c', h', f, rfl⟩ := key c0 h0
      exact (replaceClause_fin mem hosts f c' hm hh (topCanon_all hc c' h') (hb c' h') (hp.1 c' h')).1
    · cases a with
      | nil => simp [replaceMemoryAndHosts]
      | cons x a =>
        simp only [replaceMemoryAndHosts, List.map_cons, List.tail_cons]
        intro c h
        obtain ⟨c0, h0, rfl⟩ := List.mem_map.1 h
        obtain ⟨y, hy, rfl⟩ := List.mem_map.1 h0
        have hy' : y ∈ x :: a := List.mem_cons_of_mem _ hy
        rw [(replaceClause_fin mem hosts false y hm hh (topCanon_all hc y hy') (hb y hy') (hp.1 y hy')).2.2]
        exact hp.2 y hy
  · intro c h
    obtain ⟨c0, h0, rfl⟩ := List.mem_map.1 h
    obtain ⟨c', h', f, rfl⟩ := key c0 h0
    exact (replaceClause_fin mem hosts f c' hm hh (topCanon_all hc c' h') (hb c' h') (hp.1 c' h')).2.1

end Verif.Bsub
