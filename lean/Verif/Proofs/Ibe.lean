import Verif.Proofs.Bls
import Verif.Proofs.GoMap
import Verif.Proofs.Strings
import Verif.Spec.Tibe
set_option autoImplicit false
namespace Resmix.Tibe
variable {B : Bls}

theorem eval_value (p : Poly) (i : Int) : p.eval i = value p.coefs (frOfInt i) := eval_sum p i

theorem ofCoefs_value (cs : List Fr) (x : Fr) : (ofCoefs cs).eval x = value cs x := by
  rw [ofCoefs_sum, Polynomial.eval_finsetSum]; simp [value]

theorem value_zero_cons (a : Fr) (as : List Fr) : value (a :: as) 0 = a := by
  rw [← ofCoefs_value]; simp [ofCoefs]

/-! Nodes -/

theorem node_new_ok {p : Poly} {n : Node B} (h : Node.new B p = .ok n) :
    p.coefs ≠ [] ∧ n = { poly := p, pk := p.eval 0 • B.gen1, secret := p.eval 0, shares := [] } := by
  by_cases hp : p.coefs = []
  · obtain ⟨cs⟩ := p
    simp only at hp; subst hp
    simp [Node.new, Poly.secret, goIndex, bind, Except.bind] at h
  · refine ⟨hp, ?_⟩
    unfold Node.new at h
    rw [secret_ok hp] at h
    simp only [bind, Except.bind] at h
    injection h with h; exact h.symm

theorem node_new {p : Poly} (hp : p.coefs ≠ []) :
    Node.new B p = .ok { poly := p, pk := p.eval 0 • B.gen1, secret := p.eval 0, shares := [] } := by
  unfold Node.new
  rw [secret_ok hp]; rfl

theorem mapM_ok {α β : Type} (l : List α) (f : α → Go β) (g : α → β) (h : ∀ a ∈ l, f a = .ok (g a)) :
    l.mapM f = .ok (l.map g) := by
  induction l with
  | nil => rfl
  | cons a l ih =>
    rw [List.mapM_cons, h a (by simp), ih fun a' ha' => h a' (by simp [ha'])]
    rfl

theorem vssShares_eq {p : Poly} {n : Node B} (h : Node.new B p = .ok n) (k : Nat) :
    n.vssShares k = .ok ((p.createShares k).map fun sh =>
      { expoly := p.exponent B, share := sh, mpk := p.eval 0 • B.gen1 }) := by
  obtain ⟨_, rfl⟩ := node_new_ok h
  unfold Node.vssShares
  refine mapM_ok _ _ _ fun sh _ => ?_
  simp [Node.masterPublicKey, B.g1SetBytes_bytes, bind, Except.bind]

theorem mem_createShares {p : Poly} {k : Nat} {sh : PolyShare} (h : sh ∈ p.createShares k) :
    ∃ j : Nat, j < k ∧ sh = { index := (j : Int) + 1, value := p.eval ((j : Int) + 1) } := by
  simp only [Poly.createShares, List.mem_map, List.mem_range] at h
  obtain ⟨j, hj, rfl⟩ := h
  exact ⟨j, hj, rfl⟩

theorem holds_share {n : Node B} {name : Str} {p : Poly} (h : HoldsShareOf n name p) :
    p.coefs ≠ [] ∧ ∃ s, n.shares.lookup name = some s ∧ s.expoly = p.exponent B ∧ s.mpk = p.eval 0 • B.gen1 ∧
      s.share.value = p.eval s.share.index ∧ 1 ≤ s.share.index := by
  obtain ⟨owner, k, shares, s, hn, hk, hs, hl⟩ := h
  have hp := (node_new_ok hn).1
  rw [vssShares_eq hn] at hk
  injection hk with hk
  subst hk
  rw [List.mem_map] at hs
  obtain ⟨sh, hsh, rfl⟩ := hs
  obtain ⟨j, hj, rfl⟩ := mem_createShares hsh
  exact ⟨hp, _, hl, rfl, rfl, rfl, by simp⟩

theorem reconstructDecrypter_eq {n : Node B} {name : Str} {p : Poly} (h : HoldsShareOf n name p) (votes : List (Vote B)) :
    n.reconstructDecrypter name votes =
      if votes.length = 0 then .error (.err .unknown "no votes") else
        (votes.forM (Node.checkVote (p.exponent B)) >>= fun _ => reconstructKey votes (p.coefs.length + 1)) := by
  obtain ⟨_, s, hl, he, _⟩ := holds_share h
  unfold Node.reconstructDecrypter
  rw [hl]
  simp only [he, ExponentPoly.threshold, Poly.exponent, List.length_map]

/-- ReconstructDecrypter succeeds only if every vote is valid, and then returns what interpolation gives. -/
theorem reconstructDecrypter_ok_iff {n : Node B} {name : Str} {p : Poly} (h : HoldsShareOf n name p) (votes : List (Vote B))
    (k : B.G2) :
    n.reconstructDecrypter name votes = .ok k ↔
      votes ≠ [] ∧ (∀ v ∈ votes, v.sig = p.eval v.index • B.hashG2 v.id) ∧ reconstructKey votes (p.coefs.length + 1) = .ok k := by
  have hp := (holds_share h).1
  rw [reconstructDecrypter_eq h]
  by_cases hv : votes = []
  · subst hv; simp
  · rw [if_neg (by simpa using hv)]
    have hiff := forM_ok_iff votes (Node.checkVote (p.exponent B))
    simp only [checkVote_iff p hp] at hiff
    constructor
    · intro hk
      cases hf : votes.forM (Node.checkVote (p.exponent B)) with
      | error e => rw [hf] at hk; cases hk
      | ok u =>
        rw [hf] at hk
        exact ⟨hv, hiff.1 hf, hk⟩
    · rintro ⟨_, hs, hk⟩
      rw [hiff.2 hs]; exact hk

theorem forM_fail {α : Type} (l : List α) (f : α → Go Unit) (E : Fail → Prop) (h : ∀ a ∈ l, ∀ e, f a = .error e → E e) :
    ∀ e, l.forM f = .error e → E e := by
  induction l with
  | nil => intro e h; cases h
  | cons a l ih =>
    intro e he
    have he : (f a >>= fun _ => l.forM f) = .error e := he
    cases hf : f a with
    | error e' =>
      rw [hf] at he
      injection he with he
      subst he; exact h a (by simp) _ hf
    | ok u =>
      rw [hf] at he
      exact ih (fun a ha => h a (by simp [ha])) e he

/-! Encryption -/

theorem encrypt_ok (mpk : B.G1) (r : Fr) (iv id msg : Bytes) :
    ∃ ct, aesEncrypt B iv (B.hashGt (B.pair (r • mpk) (B.hashG2 id))) msg = .ok ct ∧
      encrypt B mpk r iv id msg = .ok (Cipher.mk (r • B.gen1)
        (B.mac (B.g1Bytes (r • B.gen1) ++ ct) (B.hashGt (B.pair (r • mpk) (B.hashG2 id)))) ct) := by
  refine ⟨_, aesEncrypt_ok _ _ _ (hashGt_keyOk _), ?_⟩
  unfold encrypt
  simp only
  rw [aesEncrypt_ok _ _ _ (hashGt_keyOk _)]
  rfl

theorem pair_swap (s r : Fr) (h : B.G2) : B.pair (r • B.gen1) (s • h) = B.pair (r • (s • B.gen1)) h := by
  simp only [map_smul, LinearMap.smul_apply]
  rw [smul_comm]

/-- The private key `s • H(id)` opens what was encrypted under `s • g`. -/
theorem decrypt_encrypt (s r : Fr) (iv id msg : Bytes) (hiv : iv.length = blockSize) :
    ∃ c : Cipher B, encrypt B (s • B.gen1) r iv id msg = .ok c ∧ c.mac.length = macSize ∧
      decrypt (s • B.hashG2 id) c = (.ok msg, { c with encrypted := iv ++ msg }) := by
  obtain ⟨ct, hct, hc⟩ := encrypt_ok (s • B.gen1) r iv id msg
  refine ⟨_, hc, B.mac_len _ _, ?_⟩
  unfold decrypt
  simp only [pair_swap]
  rw [if_pos trivial, aesDecrypt_encrypt iv _ msg ct hiv hct]

end Resmix.Tibe
