import Verif.Server.Start
/-
Properties of starting the server: C125.
-/
namespace Verif.Server.Start

/-! ## specification -/

/-- the bytes that need no escaping in a URL and are no white space -/
def UrlSafe (n : Nat) : Prop := (65 ≤ n ∧ n ≤ 90) ∨ (97 ≤ n ∧ n ≤ 122) ∨ (48 ≤ n ∧ n ≤ 57) ∨ n = 45 ∨ n = 95

/-- what the random source gives -/
def Random (r : Bytes) : Prop := r.length = 32 ∧ ∀ b ∈ r, b < 256

/-- the directory has no certificate, CA or key -/
def Fresh (fs : FS) : Prop := ∀ p, fs.pem p = none

/-- nothing goes wrong -/
def Smooth (e : Env) : Prop := e.genFail = none ∧ e.db.isSome ∧ e.rest = true ∧ e.tokOk = true

/-! ## the token -/

theorem sixes_length : ∀ l : Bytes, (sixes l).length = (8 * l.length + 5) / 6
  | [] => rfl
  | [_] => by simp [sixes]
  | [_, _] => by simp [sixes]
  | _ :: _ :: _ :: t => by
    have := sixes_length t
    simp only [sixes, List.length_cons]
    omega

theorem sixes_lt : ∀ l : Bytes, (∀ b ∈ l, b < 256) → ∀ x ∈ sixes l, x < 64
  | [], _, x, hx => by simp [sixes] at hx
  | [a], h, x, hx => by
    have := h a (by simp)
    simp only [sixes, List.mem_cons, List.not_mem_nil, or_false] at hx
    omega
  | [a, b], h, x, hx => by
    have := h a (by simp)
    have := h b (by simp)
    simp only [sixes, List.mem_cons, List.not_mem_nil, or_false] at hx
    omega
  | a :: b :: c :: t, h, x, hx => by
    have := h a (by simp)
    have := h b (by simp)
    have := h c (by simp)
    simp only [sixes, List.mem_cons] at hx
    rcases hx with hx | hx | hx | hx | hx
    · omega
    · omega
    · omega
    · omega
    · exact sixes_lt t (fun y hy => h y (by simp [hy])) x hx

theorem sixes_inj : ∀ l m : Bytes, (∀ b ∈ l, b < 256) → (∀ b ∈ m, b < 256) → sixes l = sixes m → l = m
  | [], [], _, _, _ => rfl
  | [], [_], _, _, h => by simp [sixes] at h
  | [], [_, _], _, _, h => by simp [sixes] at h
  | [], _ :: _ :: _ :: _, _, _, h => by simp [sixes] at h
  | [_], [], _, _, h => by simp [sixes] at h
  | [a], [b], h1, h2, h => by
    have := h1 a (by simp)
    have := h2 b (by simp)
    simp only [sixes, List.cons.injEq, and_true] at h
    simp only [List.cons.injEq, and_true]
    omega
  | [_], [_, _], _, _, h => by simp [sixes] at h
  | [_], _ :: _ :: _ :: _, _, _, h => by simp [sixes] at h
  | [_, _], [], _, _, h => by simp [sixes] at h
  | [_, _], [_], _, _, h => by simp [sixes] at h
  | [a, b], [x, y], h1, h2, h => by
    have := h1 a (by simp)
    have := h1 b (by simp)
    have := h2 x (by simp)
    have := h2 y (by simp)
    simp only [sixes, List.cons.injEq, and_true] at h
    simp only [List.cons.injEq, and_true]
    omega
  | [_, _], _ :: _ :: _ :: _, _, _, h => by simp [sixes] at h
  | _ :: _ :: _ :: _, [], _, _, h => by simp [sixes] at h
  | _ :: _ :: _ :: _, [_], _, _, h => by simp [sixes] at h
  | _ :: _ :: _ :: _, [_, _], _, _, h => by simp [sixes] at h
  | a :: b :: c :: t, x :: y :: z :: u, h1, h2, h => by
    have := h1 a (by simp)
    have := h1 b (by simp)
    have := h1 c (by simp)
    have := h2 x (by simp)
    have := h2 y (by simp)
    have := h2 z (by simp)
    simp only [sixes, List.cons.injEq] at h
    obtain ⟨g1, g2, g3, g4, g5⟩ := h
    have e := sixes_inj t u (fun w hw => h1 w (by simp [hw])) (fun w hw => h2 w (by simp [hw])) g5
    simp only [List.cons.injEq]
    exact ⟨by omega, by omega, by omega, e⟩

theorem urlChar_safe (n : Nat) (h : n < 64) : UrlSafe (urlChar n) := by
  unfold UrlSafe urlChar
  repeat' split
  all_goals omega

theorem urlChar_inj {m n : Nat} (hm : m < 64) (hn : n < 64) (h : urlChar m = urlChar n) : m = n := by
  unfold urlChar at h
  repeat' split at h
  all_goals omega

theorem map_inj {l m : List Nat} (hl : ∀ x ∈ l, x < 64) (hm : ∀ x ∈ m, x < 64)
    (h : l.map urlChar = m.map urlChar) : l = m := by
  induction l generalizing m with
  | nil => cases m <;> simp at h ⊢
  | cons a l ih =>
    cases m with
    | nil => simp at h
    | cons b m =>
      simp only [List.map_cons, List.cons.injEq] at h
      rw [urlChar_inj (hl a (by simp)) (hm b (by simp)) h.1,
        ih (fun x hx => hl x (by simp [hx])) (fun x hx => hm x (by simp [hx])) h.2]

/-- C125.  A new token is 43 bytes that can be put in a URL as they are, and
different random bytes give different tokens. -/
theorem C125_new_token (r r' : Bytes) (h : Random r) (h' : Random r') :
    (newToken r).length = 43 ∧ (∀ b ∈ newToken r, UrlSafe b) ∧ (newToken r = newToken r' → r = r') := by
  refine ⟨?_, ?_, ?_⟩
  · simp only [newToken, List.length_map, sixes_length, h.1]
  · intro b hb
    obtain ⟨x, hx, rfl⟩ := List.mem_map.1 hb
    exact urlChar_safe x (sixes_lt r h.2 x hx)
  · intro e
    exact sixes_inj r r' h.2 h'.2 (map_inj (sixes_lt r h.2) (sixes_lt r' h'.2) e)

example : Random (List.replicate 32 255) ∧ newToken (List.replicate 32 255) = List.replicate 42 95 ++ [56] := by
  refine ⟨⟨rfl, ?_⟩, rfl⟩
  intro b hb
  rw [List.eq_of_mem_replicate hb]
  decide

/-! ## what a start writes -/

theorem applyAll_append (fs : FS) (a b : List W) : applyAll fs (a ++ b) = applyAll (applyAll fs a) b := by
  simp [applyAll]

def tokenWrites (e : Env) (t : Bytes) : List W := if e.saveToken then [.tmake, .tfill t] else []

theorem rest_cases (e : Env) (fs : FS) (ws : List W) (t : Bytes) (c : List Char) :
    (∃ err, rest e fs ws t c = (ws, .error err)) ∨
    (∃ m x y, rest e fs ws t c = (ws ++ tokenWrites e t, .ok ⟨t, joinMsg c m, certsOf (blocks fs .cert), min x y⟩) ∧
      e.db = some m ∧ certExpiry fs .ca = some x ∧ certExpiry fs .cert = some y ∧ e.now ≤ x ∧ e.now ≤ y ∧
      pairOk fs = true ∧ e.rest = true ∧ (e.saveToken = true → e.tokOk = true)) := by
  unfold rest
  split
  · exact Or.inl ⟨_, rfl⟩
  · rename_i m hm
    split
    · exact Or.inl ⟨_, rfl⟩
    · rename_i x hx
      split
      · exact Or.inl ⟨_, rfl⟩
      · rename_i h1
        split
        · exact Or.inl ⟨_, rfl⟩
        · rename_i y hy
          split
          · exact Or.inl ⟨_, rfl⟩
          · rename_i h2
            split
            · exact Or.inl ⟨_, rfl⟩
            · rename_i h3
              split
              · exact Or.inl ⟨_, rfl⟩
              · rename_i h4
                split
                · exact Or.inl ⟨_, rfl⟩
                · rename_i h5
                  refine Or.inr ⟨m, x, y, rfl, hm, hx, hy, by omega, by omega, by simpa using h3, by simpa using h4, ?_⟩
                  intro hs
                  simpa [hs] using h5

theorem present_none {fs : FS} {ps : List Pem} : present fs ps = none ↔ ∀ p ∈ ps, fs.pem p = none := by
  induction ps with
  | nil => simp [present]
  | cons a ps ih =>
    simp only [present]
    cases h : fs.pem a <;> simp [ih, h]

theorem fresh_iff {fs : FS} : Fresh fs ↔ present fs [.ca, .cert, .key] = none := by
  rw [present_none]
  constructor
  · intro h p _; exact h p
  · intro h p; exact h p (by cases p <;> simp)

/-- all that a start can do -/
theorem serve_cases (e : Env) (fs : FS) :
    -- certificate and key are there
    (checkCerts fs = true ∧ serve e fs = rest e fs [] (tokenFor e fs) []) ∨
    -- one is missing, but something is there
    (checkCerts fs = false ∧ ¬ Fresh fs ∧ ∃ p, serve e fs = ([], .error (.exists p))) ∨
    -- nothing is there
    (Fresh fs ∧ ∃ n, e.genFail = some n ∧ serve e fs = ((genWrites e).take n, .error .create)) ∨
    (Fresh fs ∧ e.genFail = none ∧
      serve e fs = rest e (applyAll fs (genWrites e)) (genWrites e) (tokenFor e fs) certMsg) := by
  cases hc : checkCerts fs
  · right
    simp only [serve, hc, Bool.false_eq_true, if_false, generate]
    cases hp : present fs [.ca, .cert, .key]
    · right
      have hf := fresh_iff.2 hp
      cases hg : e.genFail with
      | none => exact Or.inr ⟨hf, rfl, rfl⟩
      | some n => exact Or.inl ⟨hf, n, rfl, rfl⟩
    · rename_i p
      exact Or.inl ⟨trivial, fun hf => (by rw [fresh_iff.1 hf] at hp; cases hp), p, rfl⟩
  · exact Or.inl ⟨rfl, by simp [serve, hc]⟩

theorem fresh_check {fs : FS} (h : Fresh fs) : checkCerts fs = false := by
  simp [checkCerts, h .cert]

/-- the writes of a start: of certificates, if there were none at all; then of
the token -/
theorem serve_writes (e : Env) (fs : FS) :
    ∃ g t, (serve e fs).1 = g ++ t ∧ (g = [] ∨ (Fresh fs ∧ g = genWrites e ∧ e.genFail = none) ∨
      (Fresh fs ∧ t = [] ∧ ∃ n, e.genFail = some n ∧ g = (genWrites e).take n)) ∧
      ((t = [] ∧ ∃ err, (serve e fs).2 = .error err) ∨
       ((∃ st, (serve e fs).2 = .ok st) ∧ t = tokenWrites e (tokenFor e fs))) := by
  rcases serve_cases e fs with ⟨_, h⟩ | ⟨_, _, p, h⟩ | ⟨hf, n, hg, h⟩ | ⟨hf, hg, h⟩
  · rw [h]
    rcases rest_cases e fs [] (tokenFor e fs) [] with ⟨err, h1⟩ | ⟨m, x, y, h1, _⟩ <;> rw [h1]
    · exact ⟨[], [], rfl, Or.inl rfl, Or.inl ⟨rfl, _, rfl⟩⟩
    · exact ⟨[], _, rfl, Or.inl rfl, Or.inr ⟨⟨_, rfl⟩, rfl⟩⟩
  · rw [h]; exact ⟨[], [], rfl, Or.inl rfl, Or.inl ⟨rfl, _, rfl⟩⟩
  · rw [h]; exact ⟨_, [], (List.append_nil _).symm, Or.inr (Or.inr ⟨hf, rfl, n, hg, rfl⟩), Or.inl ⟨rfl, _, rfl⟩⟩
  · rw [h]
    rcases rest_cases e (applyAll fs (genWrites e)) (genWrites e) (tokenFor e fs) certMsg with ⟨err, h1⟩ | ⟨m, x, y, h1, _⟩ <;>
      rw [h1]
    · exact ⟨_, [], (List.append_nil _).symm, Or.inr (Or.inl ⟨hf, rfl, hg⟩), Or.inl ⟨rfl, _, rfl⟩⟩
    · exact ⟨_, _, rfl, Or.inr (Or.inl ⟨hf, rfl, hg⟩), Or.inr ⟨⟨_, rfl⟩, rfl⟩⟩

def isTok : W → Prop
  | .tmake | .tfill _ => True
  | _ => False

theorem pem_of_tok {fs : FS} {ws : List W} (h : ∀ w ∈ ws, isTok w) : (applyAll fs ws).pem = fs.pem := by
  induction ws generalizing fs with
  | nil => rfl
  | cons w ws ih =>
    simp only [applyAll, List.foldl_cons] at ih ⊢
    rw [ih (fun x hx => h x (by simp [hx]))]
    have := h w (by simp)
    cases w <;> simp only [isTok] at this
    · rfl
    · simp only [W.apply]; split <;> rfl

theorem tok_of_pem {fs : FS} {ws : List W} (h : ∀ w ∈ ws, ¬ isTok w) : (applyAll fs ws).tok = fs.tok := by
  induction ws generalizing fs with
  | nil => rfl
  | cons w ws ih =>
    simp only [applyAll, List.foldl_cons] at ih ⊢
    rw [ih (fun x hx => h x (by simp [hx]))]
    have := h w (by simp)
    cases w <;> simp only [isTok, not_true] at this
    · rfl
    · simp only [W.apply]; split <;> rfl

theorem gen_notTok (e : Env) : ∀ w ∈ genWrites e, ¬ isTok w := by simp [genWrites, isTok]

theorem tok_isTok (e : Env) (t : Bytes) : ∀ w ∈ tokenWrites e t, isTok w := by
  unfold tokenWrites
  split <;> simp [isTok]

theorem tokenFor_pem (e : Env) {fs fs' : FS} (h : fs'.tok = fs.tok) : tokenFor e fs' = tokenFor e fs := by
  simp [tokenFor, h]

/-- C125.  Whatever happens, wherever the process dies and however often it is
tried, no existing certificate, CA or key is changed. -/
theorem C125_keep (ts : List Try) (fs : FS) (p : Pem) (f : File (List Block)) (h : fs.pem p = some f) :
    (tries fs ts).pem p = some f := by
  induction ts generalizing fs with
  | nil => exact h
  | cons t ts ih =>
    apply ih
    have hn : ¬ Fresh fs := fun hf => by rw [hf p] at h; cases h
    have key : ∀ w ∈ (serve t.env fs).1, isTok w := by
      obtain ⟨g, tk, e1, h1, h2⟩ := serve_writes t.env fs
      rw [e1]
      rcases h1 with rfl | ⟨hf, _⟩ | ⟨hf, _⟩
      · rcases h2 with ⟨rfl, _⟩ | ⟨_, rfl⟩
        · simp
        · simpa using tok_isTok _ _
      · exact absurd hf hn
      · exact absurd hf hn
    unfold Try.after
    split
    · rw [pem_of_tok key]; exact h
    · rw [pem_of_tok (fun w hw => key w (List.mem_of_mem_take hw))]; exact h

/-- C125.  A server that starts has the token of the token file if that has one,
otherwise a new one, and afterwards the file has the token of the server. -/
theorem C125_token (e : Env) (fs : FS) (ws : List W) (st : Started) (hr : Random e.rand)
    (h : serve e fs = (ws, .ok st)) (hs : e.saveToken = true) :
    (∀ f, fs.tok = some f → f.data.length = 43 → st.token = f.data) ∧
    ((∀ f, fs.tok = some f → f.data.length ≠ 43) → st.token = newToken e.rand) ∧
    st.token.length = 43 ∧
    (∃ f, (applyAll fs ws).tok = some f ∧ f.data = st.token ∧ (fs.tok = none → f.priv = true)) := by
  have ht : st.token = tokenFor e fs := by
    rcases serve_cases e fs with ⟨_, h1⟩ | ⟨_, _, p, h1⟩ | ⟨_, n, _, h1⟩ | ⟨_, _, h1⟩ <;> rw [h1] at h
    · rcases rest_cases e fs [] (tokenFor e fs) [] with ⟨err, h2⟩ | ⟨m, x, y, h2, _⟩ <;> rw [h2] at h
      · cases h
      · cases h; rfl
    · cases h
    · cases h
    · rcases rest_cases e (applyAll fs (genWrites e)) (genWrites e) (tokenFor e fs) certMsg with ⟨err, h2⟩ | ⟨m, x, y, h2, _⟩ <;>
        rw [h2] at h
      · cases h
      · cases h; rfl
  have hw : ∃ g, ws = g ++ tokenWrites e (tokenFor e fs) ∧ ∀ w ∈ g, ¬ isTok w := by
    obtain ⟨g, tk, e1, h1, h2⟩ := serve_writes e fs
    rw [h] at e1 h2
    rcases h2 with ⟨_, err, h3⟩ | ⟨_, rfl⟩
    · cases h3
    · refine ⟨g, e1, ?_⟩
      rcases h1 with rfl | ⟨_, rfl, _⟩ | ⟨_, h3, _⟩
      · simp
      · exact gen_notTok e
      · simp [tokenWrites, hs] at h3
  have hlen : (newToken e.rand).length = 43 := (C125_new_token _ _ hr hr).1
  refine ⟨?_, ?_, ?_, ?_⟩
  · intro f hf hl
    rw [ht]
    simp [tokenFor, hs, hf, tokenLength, hl]
  · intro hf
    rw [ht]
    simp only [tokenFor, hs, if_true]
    split
    · rename_i f hf'
      exact if_neg (hf f hf')
    · rfl
  · rw [ht]
    simp only [tokenFor]
    split
    · split
      · assumption
      · exact hlen
    · exact hlen
  · obtain ⟨g, rfl, hg⟩ := hw
    rw [applyAll_append]
    have e2 := tok_of_pem (fs := fs) hg
    simp only [tokenWrites, hs, if_true, applyAll, List.foldl_cons, List.foldl_nil, W.apply] at e2 ⊢
    refine ⟨_, rfl, ht.symm, ?_⟩
    intro hn
    rw [e2, hn]

/-- C125.  A start that fails leaves the token file as it was. -/
theorem C125_failed_token (e : Env) (fs : FS) (ws : List W) (err : Err) (h : serve e fs = (ws, .error err)) (k : Nat) :
    (applyAll fs (ws.take k)).tok = fs.tok := by
  obtain ⟨g, tk, e1, h1, h2⟩ := serve_writes e fs
  rw [h] at e1 h2
  rcases h2 with ⟨rfl, _⟩ | ⟨⟨st, h3⟩, _⟩
  · apply tok_of_pem
    intro w hw
    have hw := List.mem_of_mem_take hw
    simp only [List.append_nil] at e1
    rw [e1] at hw
    rcases h1 with rfl | ⟨_, rfl, _⟩ | ⟨_, _, n, _, rfl⟩
    · cases hw
    · exact gen_notTok e w hw
    · exact gen_notTok e w (List.mem_of_mem_take hw)
  · cases h3

/-! ## certificates -/

/-- C125.  If the certificate or the key is missing but not all three files
are, no start ever works, and none changes anything. -/
theorem C125_stuck (ts : List Try) (fs : FS) (h : checkCerts fs = false) (hn : ¬ Fresh fs) :
    tries fs ts = fs ∧ ∀ t : Try, t.result fs = none := by
  have key : ∀ e, ∃ p, serve e fs = ([], .error (.exists p)) := by
    intro e
    rcases serve_cases e fs with ⟨h1, _⟩ | ⟨_, _, h1⟩ | ⟨h1, _⟩ | ⟨h1, _⟩
    · rw [h] at h1; cases h1
    · exact h1
    · exact absurd h1 hn
    · exact absurd h1 hn
  constructor
  · induction ts with
    | nil => rfl
    | cons t ts ih =>
      have : t.after fs = fs := by
        obtain ⟨p, hp⟩ := key t.env
        unfold Try.after
        rw [hp]
        split <;> simp [applyAll]
      simp only [tries, this, ih]
  · intro t
    obtain ⟨p, hp⟩ := key t.env
    unfold Try.result
    rw [hp]
    split <;> rfl

theorem gen_take (e : Env) (fs : FS) (hf : Fresh fs) (k : Nat) (h1 : 1 ≤ k) :
    (applyAll fs ((genWrites e).take k)).pem .ca ≠ none ∧
    ((applyAll fs ((genWrites e).take k)).pem .key ≠ none ↔ 5 ≤ k) ∧
    ((applyAll fs ((genWrites e).take k)).pem .cert ≠ none ↔ 3 ≤ k) := by
  have a := hf .ca
  have b := hf .cert
  have c := hf .key
  match k, h1 with
  | 1, _ => simp [genWrites, applyAll, W.apply, FS.put, a, b, c]
  | 2, _ => simp [genWrites, applyAll, W.apply, FS.put, a, b, c]
  | 3, _ => simp [genWrites, applyAll, W.apply, FS.put, a, b, c]
  | 4, _ => simp [genWrites, applyAll, W.apply, FS.put, a, b, c]
  | 5, _ => simp [genWrites, applyAll, W.apply, FS.put, a, b, c]
  | n + 6, _ => simp [genWrites, applyAll, W.apply, FS.put, a, b, c]

theorem serve_prefix {e : Env} {fs : FS} (hf : Fresh fs) (hg : e.genFail = none) {k : Nat} (hk : k ≤ 6) :
    (serve e fs).1.take k = (genWrites e).take k := by
  have hl : (genWrites e).length = 6 := rfl
  rcases serve_cases e fs with ⟨h1, _⟩ | ⟨_, h1, _⟩ | ⟨_, n, h1, _⟩ | ⟨_, _, h⟩
  · rw [fresh_check hf] at h1; cases h1
  · exact absurd hf h1
  · rw [hg] at h1; cases h1
  · rw [h]
    rcases rest_cases e (applyAll fs (genWrites e)) (genWrites e) (tokenFor e fs) certMsg with ⟨err, h2⟩ | ⟨m, x, y, h2, _⟩ <;>
      rw [h2]
    show ((genWrites e) ++ _).take k = _
    rw [List.take_append_of_le_length (by omega)]

/-- C125 is violated by a crash: if the process dies while it makes the
certificates in a fresh directory, after the first file was begun and before
the key was, no later start ever works. -/
theorem C125_violated_crash (e : Env) (fs : FS) (hf : Fresh fs) (hg : e.genFail = none) (k : Nat)
    (h1 : 1 ≤ k) (h2 : k ≤ 4) (ts : List Try) (t : Try) :
    t.result (tries fs (⟨e, some k⟩ :: ts)) = none := by
  have hw : (Try.mk e (some k)).after fs = applyAll fs ((genWrites e).take k) := by
    show applyAll fs ((serve e fs).1.take k) = _
    rw [serve_prefix hf hg (by omega)]
  obtain ⟨g1, g2, _⟩ := gen_take e fs hf k h1
  have hc : checkCerts (applyAll fs ((genWrites e).take k)) = false := by
    have : (applyAll fs ((genWrites e).take k)).pem .key = none := by
      cases hh : (applyAll fs ((genWrites e).take k)).pem .key with
      | none => rfl
      | some x =>
        have := g2.1 (by simp [hh])
        omega
    simp [checkCerts, this]
  have hn : ¬ Fresh (applyAll fs ((genWrites e).take k)) := fun h => g1 (h .ca)
  simp only [tries, hw]
  rw [(C125_stuck ts _ hc hn).1]
  exact (C125_stuck [] _ hc hn).2 t

theorem pem_five (e : Env) (fs : FS) (hf : Fresh fs) :
    (applyAll fs ((genWrites e).take 5)).pem .key = some ⟨[], true⟩ := by
  simp [genWrites, applyAll, W.apply, FS.put, hf .key]

/-- C125 is violated by a crash when the key file has just been begun, too: it
stays empty for ever. -/
theorem C125_violated_crash_key (e : Env) (fs : FS) (hf : Fresh fs) (hg : e.genFail = none) (ts : List Try) (t : Try) :
    t.result (tries fs (⟨e, some 5⟩ :: ts)) = none := by
  have hw : (Try.mk e (some 5)).after fs = applyAll fs ((genWrites e).take 5) := by
    show applyAll fs ((serve e fs).1.take 5) = _
    rw [serve_prefix hf hg (by omega)]
  have hk := C125_keep ts _ _ _ (pem_five e fs hf)
  have hc := C125_keep ts (applyAll fs ((genWrites e).take 5)) .cert ⟨[.cert (serverCert e)], false⟩
    (by simp [genWrites, applyAll, W.apply, FS.put, hf .cert])
  simp only [tries, hw]
  generalize tries (applyAll fs ((genWrites e).take 5)) ts = fs' at hk hc
  have hcc : checkCerts fs' = true := by simp [checkCerts, hk, hc]
  have hp : pairOk fs' = false := by simp [pairOk, blocks, hk, hc, certsOf, keysOf]
  unfold Try.result
  split
  · rcases serve_cases t.env fs' with ⟨_, h⟩ | ⟨h1, _⟩ | ⟨h1, _⟩ | ⟨h1, _⟩
    · rw [h]
      rcases rest_cases t.env fs' [] (tokenFor t.env fs') [] with ⟨err, h2⟩ | ⟨m, x, y, h2, _, _, _, _, _, h3, _⟩
      · rw [h2]
      · rw [hp] at h3; cases h3
    · rw [hcc] at h1; cases h1
    · rw [fresh_check h1] at hcc; cases hcc
    · rw [fresh_check h1] at hcc; cases hcc
  · rfl

/-- the files after the generation -/
theorem gen_pem (e : Env) (fs : FS) (hf : Fresh fs) :
    (applyAll fs (genWrites e)).pem .ca = some ⟨[.cert (rootCert e)], false⟩ ∧
    (applyAll fs (genWrites e)).pem .cert = some ⟨[.cert (serverCert e)], false⟩ ∧
    (applyAll fs (genWrites e)).pem .key = some ⟨[.key e.serverKey], true⟩ := by
  simp [genWrites, applyAll, W.apply, FS.put, hf .ca, hf .cert, hf .key]

/-- the certificates of `e` are there -/
structure Made (e : Env) (fs : FS) : Prop where
  ca : fs.pem .ca = some ⟨[.cert (rootCert e)], false⟩
  cert : fs.pem .cert = some ⟨[.cert (serverCert e)], false⟩
  key : fs.pem .key = some ⟨[.key e.serverKey], true⟩

theorem Made.tries {e : Env} {fs : FS} (h : Made e fs) (ts : List Try) : Made e (tries fs ts) :=
  ⟨C125_keep ts _ _ _ h.ca, C125_keep ts _ _ _ h.cert, C125_keep ts _ _ _ h.key⟩

/-- with its certificates made, a start works until they expire -/
theorem made_serve {e e' : Env} {fs : FS} (h : Made e fs) (hs : Smooth e') (hn : e'.now ≤ e.now + year) :
    ∃ m, e'.db = some m ∧ serve e' fs = (tokenWrites e' (tokenFor e' fs),
      .ok ⟨tokenFor e' fs, m, [serverCert e], e.now + year⟩) := by
  obtain ⟨m, hm⟩ := Option.isSome_iff_exists.1 hs.2.1
  refine ⟨m, hm, ?_⟩
  have hc : checkCerts fs = true := by simp [checkCerts, h.cert, h.key]
  have h1 : certExpiry fs .ca = some (e.now + year) := by simp [certExpiry, blocks, h.ca, certsOf, rootCert]
  have h2 : certExpiry fs .cert = some (e.now + year) := by simp [certExpiry, blocks, h.cert, certsOf, serverCert]
  have h3 : pairOk fs = true := by simp [pairOk, blocks, h.cert, h.key, certsOf, keysOf, serverCert]
  have h4 : ¬ (e.now + year < e'.now) := by omega
  simp only [serve, hc, if_true, rest, hm, h1, h2, h3, h4, if_false, hs.2.2.1, hs.2.2.2, not_true, and_false]
  simp [joinMsg, tokenWrites, blocks, h.cert, certsOf]

/-- C125.  In a fresh directory, a start in which nothing goes wrong works: it
makes a CA, a certificate signed with it for the domain, and its key, which only
the owner can read.  It says so, and a client with this CA and the token
connects for a year, and not later; without the token it is denied. -/
theorem C125_fresh (e : Env) (fs : FS) (hf : Fresh fs) (hs : Smooth e) :
    ∃ ws st, serve e fs = (ws, .ok st) ∧
      (∃ f, (applyAll fs ws).pem .key = some f ∧ f.priv = true) ∧
      (∃ m, e.db = some m ∧ st.msg = if m = [] then certMsg else certMsg ++ ". ".toList ++ m) ∧
      (∀ now, now ≤ e.now + 365 * 24 * 3600 →
        connect (applyAll fs ws) st (certDomain e.domain) st.token now = .ok ∧
        ∀ t, t ≠ st.token → connect (applyAll fs ws) st (certDomain e.domain) t now = .denied) ∧
      (∀ now t, e.now + 365 * 24 * 3600 < now → connect (applyAll fs ws) st (certDomain e.domain) t now = .expired) := by
  obtain ⟨m, hm⟩ := Option.isSome_iff_exists.1 hs.2.1
  have hMade : Made e (applyAll fs (genWrites e)) := ⟨(gen_pem e fs hf).1, (gen_pem e fs hf).2.1, (gen_pem e fs hf).2.2⟩
  have h1 : certExpiry (applyAll fs (genWrites e)) .ca = some (e.now + year) := by
    simp [certExpiry, blocks, hMade.ca, certsOf, rootCert]
  have h2 : certExpiry (applyAll fs (genWrites e)) .cert = some (e.now + year) := by
    simp [certExpiry, blocks, hMade.cert, certsOf, serverCert]
  have h3 : pairOk (applyAll fs (genWrites e)) = true := by
    simp [pairOk, blocks, hMade.cert, hMade.key, certsOf, keysOf, serverCert]
  have h4 : ¬ (e.now + year < e.now) := by omega
  have hr : serve e fs = (genWrites e ++ tokenWrites e (tokenFor e fs),
      .ok ⟨tokenFor e fs, joinMsg certMsg m, [serverCert e], e.now + year⟩) := by
    rcases serve_cases e fs with ⟨h5, _⟩ | ⟨_, h5, _⟩ | ⟨_, n, h5, _⟩ | ⟨_, _, h⟩
    · rw [fresh_check hf] at h5; cases h5
    · exact absurd hf h5
    · rw [hs.1] at h5; cases h5
    · rw [h]
      simp only [rest, hm, h1, h2, h3, h4, if_false, hs.2.2.1, hs.2.2.2, not_true, and_false]
      simp [tokenWrites, blocks, hMade.cert, certsOf]
  have hp : (applyAll fs (genWrites e ++ tokenWrites e (tokenFor e fs))).pem = (applyAll fs (genWrites e)).pem := by
    rw [applyAll_append]
    exact pem_of_tok (tok_isTok _ _)
  have hca : (applyAll fs (genWrites e ++ tokenWrites e (tokenFor e fs))).pem .ca = some ⟨[.cert (rootCert e)], false⟩ := by
    rw [hp]; exact hMade.ca
  refine ⟨_, _, hr, ⟨_, by rw [hp]; exact hMade.key, rfl⟩, ⟨m, hm, ?_⟩, ?_, ?_⟩
  · have hcm : certMsg ≠ [] := by decide
    simp only [joinMsg, hcm, if_false]
    rfl
  · intro now hnow
    have hy : ¬ (e.now + year < now) := by unfold year; omega
    have hy' : now ≤ e.now + year := by omega
    constructor
    · simp [connect, certExpiry, blocks, hca, certsOf, rootCert, serverCert, verifies, hy, hy']
    · intro t ht
      simp [connect, certExpiry, blocks, hca, certsOf, rootCert, serverCert, verifies, hy, hy', ht]
  · intro now t hnow
    have hy : e.now + year < now := by unfold year; omega
    simp [connect, certExpiry, blocks, hca, certsOf, rootCert, hy]

/-- C125 (partial: not if the process dies while it makes the certificates).
However many starts follow, fail or die at whatever moment, once the
certificates were made a start in which nothing goes wrong works until a year
has passed, with the same certificate. -/
theorem C125_restart_partial (e : Env) (fs : FS) (hf : Fresh fs) (hg : e.genFail = none) (d : Option Nat)
    (hd : ∀ k, d = some k → 6 ≤ k) (ts : List Try) (e' : Env) (hs : Smooth e') (hn : e'.now ≤ e.now + year) :
    ∃ st, (Try.mk e' none).result (tries fs (⟨e, d⟩ :: ts)) = some st ∧ st.cert = [serverCert e] := by
  have hM : Made e ((Try.mk e d).after fs) := by
    obtain ⟨g, t, h1, h2, h3⟩ := serve_writes e fs
    have hgen : ∃ t, (serve e fs).1 = genWrites e ++ t ∧ ∀ w ∈ t, isTok w := by
      rcases serve_cases e fs with ⟨h5, _⟩ | ⟨_, h5, _⟩ | ⟨_, n, h5, _⟩ | ⟨_, _, h⟩
      · rw [fresh_check hf] at h5; cases h5
      · exact absurd hf h5
      · rw [hg] at h5; cases h5
      · rw [h]
        rcases rest_cases e (applyAll fs (genWrites e)) (genWrites e) (tokenFor e fs) certMsg with ⟨err, h2⟩ | ⟨m, x, y, h2, _⟩ <;>
          rw [h2]
        · exact ⟨[], (List.append_nil _).symm, by simp⟩
        · exact ⟨_, rfl, tok_isTok _ _⟩
    obtain ⟨t, h4, h5⟩ := hgen
    have hp : ((Try.mk e d).after fs).pem = (applyAll fs (genWrites e)).pem := by
      unfold Try.after
      split
      · rw [h4, applyAll_append]
        exact pem_of_tok h5
      · rename_i k hk
        have hk := hd k hk
        rw [h4, List.take_append, List.take_of_length_le (by simpa [genWrites] using hk), applyAll_append]
        exact pem_of_tok (fun w hw => h5 w (List.mem_of_mem_take hw))
    obtain ⟨p1, p2, p3⟩ := gen_pem e fs hf
    exact ⟨by rw [hp]; exact p1, by rw [hp]; exact p2, by rw [hp]; exact p3⟩
  obtain ⟨m, _, hr⟩ := made_serve (hM.tries ts) hs hn
  refine ⟨⟨tokenFor e' (tries ((Try.mk e d).after fs) ts), m, [serverCert e], e.now + year⟩, ?_, rfl⟩
  unfold Try.result
  simp only [tries, hr]

/-- C125.  Nothing works with a certificate or CA that has expired, is no
certificate, or that doesn't belong to the key; and then nothing is written. -/
theorem C125_bad_certs (e : Env) (fs : FS) (hc : checkCerts fs = true)
    (hb : (∀ x, certExpiry fs .ca = some x → x < e.now) ∨ (∀ x, certExpiry fs .cert = some x → x < e.now) ∨
      ∀ c k, (certsOf (blocks fs .cert)).head? = some c → (keysOf (blocks fs .key)).head? = some k → c.pub ≠ k) :
    ∃ err, serve e fs = ([], .error err) := by
  rcases serve_cases e fs with ⟨_, h⟩ | ⟨h1, _⟩ | ⟨h1, _⟩ | ⟨h1, _⟩
  · rw [h]
    rcases rest_cases e fs [] (tokenFor e fs) [] with ⟨err, h2⟩ | ⟨m, x, y, h2, _, h3, h4, h5, h6, h7, _⟩
    · exact ⟨err, h2⟩
    · exfalso
      rcases hb with hb | hb | hb
      · have := hb x h3; omega
      · have := hb y h4; omega
      · unfold pairOk at h7
        split at h7
        · rename_i c k hc hk
          exact hb c k hc hk (by simpa using h7)
        · cases h7
  · rw [hc] at h1; cases h1
  · rw [fresh_check h1] at hc; cases hc
  · rw [fresh_check h1] at hc; cases hc

/-! ## what goes wrong -/

def env0 : Env := ⟨1000, List.replicate 32 7, 1, 2, [], true, none, some [], true, true⟩
def env1 : Env := ⟨2000, List.replicate 32 9, 3, 4, [], true, none, some [], true, true⟩
def fs0 : FS := ⟨none, fun _ => none⟩

instance : Inhabited Started := ⟨⟨[], [], [], 0⟩⟩

/-- C125 is violated by a crash in another way: the token of the token file is
kept, but the file is truncated and written again.  If the process dies in
between, the next start makes a new token, and the clients of before are
denied. -/
theorem C125_violated_token : ∃ st st',
    (Try.mk env0 none).result fs0 = some st ∧
    (Try.mk env1 none).result (tries fs0 [⟨env0, none⟩, ⟨env0, some 1⟩]) = some st' ∧
    st'.token ≠ st.token ∧
    connect (tries fs0 [⟨env0, none⟩, ⟨env0, some 1⟩]) st' localhost st.token 3000 = .denied := by
  refine ⟨_, _, rfl, rfl, ?_, ?_⟩ <;> decide

/-- C125 is violated when only the CA file is missing: the documentation of the
configuration says it would be generated. -/
theorem C125_violated_ca (fs : FS) (hc : checkCerts fs = true) (hca : fs.pem .ca = none) (ts : List Try) (t : Try) :
    t.result (tries fs ts) = none ∧ (tries fs ts).pem .ca = none := by
  have one : ∀ (fs : FS) (t : Try), checkCerts fs = true → fs.pem .ca = none → (serve t.env fs).1 = [] ∧ t.result fs = none := by
    intro fs t hc hca
    obtain ⟨err, h⟩ := C125_bad_certs t.env fs hc (Or.inl (by intro x hx; simp [certExpiry, blocks, hca, certsOf] at hx))
    rw [h]
    refine ⟨rfl, ?_⟩
    unfold Try.result
    rw [h]
    split <;> rfl
  have : tries fs ts = fs := by
    induction ts with
    | nil => rfl
    | cons t ts ih =>
      have e1 : t.after fs = fs := by
        unfold Try.after
        rw [(one fs t hc hca).1]
        split <;> simp [applyAll]
      simp only [tries, e1, ih]
  rw [this]
  exact ⟨(one fs t hc hca).2, hca⟩

/-- `c` is an interleaving of `a` and `b` -/
inductive Merge : List W → List W → List W → Prop
  | nil : Merge [] [] []
  | left : Merge a b c → Merge (w :: a) b (w :: c)
  | right : Merge a b c → Merge a (w :: b) (w :: c)

/-- C125 is violated by two servers that start at the same time: both make
certificates, and the certificate may be that of one and the key that of the
other.  No later start works. -/
theorem C125_violated_two : ∃ ws, Merge (genWrites env0) (genWrites env1) ws ∧
    (generate env0 fs0).1 = genWrites env0 ∧ (generate env1 fs0).1 = genWrites env1 ∧
    ∀ e, ∃ err, serve e (applyAll fs0 ws) = ([], .error err) := by
  refine ⟨(genWrites env1).take 4 ++ genWrites env0 ++ (genWrites env1).drop 4, ?_, rfl, rfl, ?_⟩
  · exact .right (.right (.right (.right (.left (.left (.left (.left (.left (.left (.right (.right .nil)))))))))))
  · intro e
    apply C125_bad_certs e _ (by decide)
    right; right
    intro c k hc hk
    have e1 : (certsOf (blocks (applyAll fs0 ((genWrites env1).take 4 ++ genWrites env0 ++ (genWrites env1).drop 4)) .cert)).head? =
        some (serverCert env0) := by decide
    have e2 : (keysOf (blocks (applyAll fs0 ((genWrites env1).take 4 ++ genWrites env0 ++ (genWrites env1).drop 4)) .key)).head? =
        some 4 := by decide
    rw [e1] at hc
    rw [e2] at hk
    cases hc
    cases hk
    decide

/-! ## the hypotheses can be met -/

example : Fresh fs0 ∧ Smooth env0 ∧ Random env0.rand := by
  refine ⟨fun _ => rfl, ⟨rfl, rfl, rfl, rfl⟩, rfl, ?_⟩
  intro b hb
  rw [List.eq_of_mem_replicate hb]
  decide

/-- a start, a crash before the token is written, and another start -/
example : ∃ st st', (Try.mk env0 none).result fs0 = some st ∧
    (Try.mk env1 none).result (tries fs0 [⟨env0, none⟩, ⟨env1, some 0⟩]) = some st' ∧ st'.token = st.token ∧
    st'.cert = st.cert := by
  refine ⟨_, _, rfl, rfl, ?_, ?_⟩ <;> decide

/-- the CA is deleted -/
example : checkCerts { tries fs0 [⟨env0, none⟩] with pem := fun p => if p = .ca then none else (tries fs0 [⟨env0, none⟩]).pem p } =
    true := by decide

/-- a half-made directory -/
example : checkCerts (tries fs0 [⟨env0, some 3⟩]) = false ∧ ((tries fs0 [⟨env0, some 3⟩]).pem .ca).isSome = true := by
  decide

end Verif.Server.Start
