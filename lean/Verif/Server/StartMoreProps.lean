/-
C125, more: what a start with the user's own certificates takes from their files,
and to which servers clients connect.
-/
import Verif.Server.StartProps

namespace Verif.Server.Start

/-- the certificates in a file, in order -/
def certificates (f : File (List Block)) : List Cert :=
  f.data.filterMap fun b => match b with | .cert c => some c | _ => none

def privateKeys (f : File (List Block)) : List Nat :=
  f.data.filterMap fun b => match b with | .key k => some k | _ => none

theorem certsOf_eq (bs : List Block) : certsOf bs = bs.filterMap fun b => match b with | .cert c => some c | _ => none := by
  induction bs with
  | nil => rfl
  | cons b bs ih => cases b <;> simp [certsOf, ih]

theorem keysOf_eq (bs : List Block) : keysOf bs = bs.filterMap fun b => match b with | .key c => some c | _ => none := by
  induction bs with
  | nil => rfl
  | cons b bs ih => cases b <;> simp [keysOf, ih]

/-- C125.  A server that starts with the user's files shows all certificates of the
certificate file, in their order.  Its key is that of the first.  The first
certificate of each file has not expired; and the server stops itself when the first
of the two does. -/
theorem C125_own_certs (e : Env) (fs : FS) (ws : List W) (st : Started) (fca fcert fkey : File (List Block))
    (h1 : fs.pem .ca = some fca) (h2 : fs.pem .cert = some fcert) (h3 : fs.pem .key = some fkey)
    (h : serve e fs = (ws, .ok st)) :
    st.cert = certificates fcert ∧
    ∃ root leaf k, (certificates fca).head? = some root ∧ (certificates fcert).head? = some leaf ∧
      (privateKeys fkey).head? = some k ∧ leaf.pub = k ∧ e.now ≤ root.notAfter ∧ e.now ≤ leaf.notAfter ∧
      st.expiry = min root.notAfter leaf.notAfter := by
  have hc : checkCerts fs = true := by simp [checkCerts, h2, h3]
  have b1 : certsOf (blocks fs .ca) = certificates fca := by simp [blocks, h1, certsOf_eq, certificates]
  have b2 : certsOf (blocks fs .cert) = certificates fcert := by simp [blocks, h2, certsOf_eq, certificates]
  have b3 : keysOf (blocks fs .key) = privateKeys fkey := by simp [blocks, h3, keysOf_eq, privateKeys]
  rcases serve_cases e fs with ⟨_, hs⟩ | ⟨h0, _⟩ | ⟨h0, _⟩ | ⟨h0, _⟩
  · rw [hs] at h
    rcases rest_cases e fs [] (tokenFor e fs) [] with ⟨err, h5⟩ | ⟨m, x, y, h5, _, hx, hy, h6, h7, h8, _⟩
    · rw [h5] at h; cases h
    · rw [h5] at h
      cases h
      unfold certExpiry at hx hy
      unfold pairOk at h8
      rw [b1] at hx
      rw [b2] at hy h8
      rw [b3] at h8
      simp only [Option.map_eq_some_iff] at hx hy
      obtain ⟨root, hr, rfl⟩ := hx
      obtain ⟨leaf, hl, rfl⟩ := hy
      refine ⟨b2, root, leaf, ?_⟩
      rw [hl] at h8
      split at h8
      · rename_i c k e1 e2
        cases e1
        exact ⟨k, hr, hl, e2, by simpa using h8, h6, h7, rfl⟩
      · cases h8
  · rw [hc] at h0; cases h0
  · rw [fresh_check h0] at hc; cases hc
  · rw [fresh_check h0] at hc; cases hc

/-- C125.  A client works only with a server whose token it has, that has not
stopped itself, and whose certificate is for the client's domain, has not expired,
and is signed by a CA of the client's CA file that has not expired. -/
theorem C125_connects_only (fs : FS) (s : Started) (domain : List Char) (token : Bytes) (now : Nat)
    (h : connect fs s domain token now = .ok) :
    token = s.token ∧ now ≤ s.expiry ∧
    ∃ leaf root f, s.cert.head? = some leaf ∧ leaf.domain = domain ∧ now ≤ leaf.notAfter ∧
      fs.pem .ca = some f ∧ root ∈ certificates f ∧ root.isCA = true ∧ root.pub = leaf.signer ∧ now ≤ root.notAfter := by
  unfold connect at h
  split at h
  · cases h
  · rename_i x hx
    split at h
    · cases h
    · split at h
      · cases h
      · rename_i h2
        split at h
        · cases h
        · rename_i h3
          split at h
          · rename_i h4
            refine ⟨h4, by omega, ?_⟩
            simp only [Bool.not_eq_true, Bool.not_eq_false] at h3
            unfold verifies at h3
            split at h3
            · cases h3
            · rename_i leaf l hl
              simp only [Bool.and_eq_true, beq_iff_eq, decide_eq_true_eq, List.any_eq_true] at h3
              obtain ⟨⟨h5, h6⟩, r, h7, ⟨h8, h9⟩, h10⟩ := h3
              unfold certExpiry at hx
              cases hf : fs.pem .ca with
              | none => simp [blocks, hf, certsOf] at hx
              | some f =>
                refine ⟨leaf, r, f, by rw [hl]; rfl, h5, h6, rfl, ?_, h8, h9, h10⟩
                rw [certsOf_eq] at h7
                simpa [blocks, hf, certificates] using h7
          · cases h

/-- a chain of two certificates, the intermediate one is older -/
def ownFs : FS := ⟨none, fun p => match p with
  | .ca => some ⟨[.cert ⟨1, 1, true, 5000, []⟩], false⟩
  | .cert => some ⟨[.cert ⟨2, 1, false, 4000, localhost⟩, .cert ⟨3, 1, true, 2000, []⟩], false⟩
  | .key => some ⟨[.other, .key 2], true⟩⟩

example : ∃ ws st, serve env0 ownFs = (ws, .ok st) ∧ st.expiry = 4000 ∧ st.cert.length = 2 ∧
    connect ownFs st localhost st.token 3000 = .ok := ⟨_, _, rfl, by decide, by decide, by decide⟩

end Verif.Server.Start
