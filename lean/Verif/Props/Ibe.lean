import Verif.Proofs.Publisher
set_option autoImplicit false
/-
C30-C37, C69: the threshold IBE (internal/crypto/tibe/vss_ibe.go, scheme2.go).
-/
namespace Resmix.Tibe

/-! ### C30 -/

/-- C30: the owner's key for `id` opens what was encrypted to the owner under `id`, for every message, id, random scalar and IV.
-/
theorem C30_decrypt_encrypt (B : Bls) (p : Poly) (owner : Node B) (h : Node.new B p = .ok owner) (r : Fr) (iv id msg : Bytes)
    (hiv : iv.length = 16) :
    ∃ c, encrypt B owner.pk r iv id msg = .ok c ∧ (decrypt (owner.decrypter id) c).1 = .ok msg := by
  obtain ⟨_, rfl⟩ := node_new_ok h
  obtain ⟨c, hc, _, hd⟩ := decrypt_encrypt (B := B) (p.eval 0) r iv id msg hiv
  exact ⟨c, hc, by rw [Node.decrypter, hd]⟩

/-- The same for a sender that encrypts with `EncryptFor` using the share it received from the owner. -/
theorem C30_encrypt_for (B : Bls) (p : Poly) (owner n : Node B) (h : Node.new B p = .ok owner) (name : Str)
    (hs : HoldsShareOf n name p) (r : Fr) (iv id msg : Bytes) (hiv : iv.length = 16) :
    ∃ c, n.encryptFor r iv name id msg = .ok c ∧ (decrypt (owner.decrypter id) c).1 = .ok msg := by
  obtain ⟨_, s, hl, _, hm, _⟩ := holds_share hs
  obtain ⟨_, rfl⟩ := node_new_ok h
  obtain ⟨c, hc, _, hd⟩ := decrypt_encrypt (B := B) (p.eval 0) r iv id msg hiv
  exact ⟨c, by rw [Node.encryptFor, hl]; simp only [hm]; exact hc, by rw [Node.decrypter, hd]⟩

/-- C30: the key of a different id is rejected, unless H(id) = H(id') or one of the exhibited inputs is a collision of the key
derivation or of the MAC under two keys (`r` and the master secret are non-zero; both are random). -/
theorem C30_other_id_rejected (B : Bls) (p : Poly) (owner : Node B) (h : Node.new B p = .ok owner) (r : Fr) (iv id id' msg : Bytes)
    (c : Cipher B) (hc : encrypt B owner.pk r iv id msg = .ok c) (hr : r ≠ 0) (hs : owner.secret ≠ 0) :
    (decrypt (owner.decrypter id') c).1 = .error (.err .unknown "mac mismatch") ∨
    B.hashG2 id = B.hashG2 id' ∨
    Collision B.hashGt (B.pair c.gr (owner.decrypter id)) (B.pair c.gr (owner.decrypter id')) ∨
    Collision (B.mac (B.g1Bytes c.gr ++ c.encrypted)) (B.hashGt (B.pair c.gr (owner.decrypter id)))
      (B.hashGt (B.pair c.gr (owner.decrypter id'))) := by
  obtain ⟨_, rfl⟩ := node_new_ok h
  obtain ⟨ct, _, hc'⟩ := encrypt_ok (p.eval 0 • B.gen1) r iv id msg
  simp only at hc
  rw [hc'] at hc
  injection hc with hc
  subst hc
  simp only at hs
  simp only [Node.decrypter]
  unfold decrypt
  simp only [pair_swap]
  split
  · next hmac =>
    right
    by_cases hk : B.hashGt (B.pair (r • p.eval 0 • B.gen1) (B.hashG2 id)) = B.hashGt (B.pair (r • p.eval 0 • B.gen1) (B.hashG2 id'))
    · by_cases hp : B.pair (r • p.eval 0 • B.gen1) (B.hashG2 id) = B.pair (r • p.eval 0 • B.gen1) (B.hashG2 id')
      · left
        simp only [map_smul, LinearMap.smul_apply] at hp
        rw [smul_smul, smul_smul, ← map_smul, ← map_smul] at hp
        have h2 := pair_gen1_inj hp
        have hne : r * p.eval 0 ≠ 0 := mul_ne_zero hr hs
        have h3 := congrArg (fun x => (r * p.eval 0)⁻¹ • x) h2
        simp only [smul_smul, inv_mul_cancel₀ hne, one_smul] at h3
        exact h3
      · right; left; exact ⟨hp, hk⟩
    · right; right; exact ⟨hk, hmac⟩
  · exact Or.inl rfl

/-- A node with master polynomial 5 + 3x, and a 258-byte-like message. -/
example : ∃ owner : Node Bls.toy, Node.new Bls.toy ⟨[5, 3]⟩ = .ok owner ∧ owner.secret ≠ 0 :=
  ⟨_, rfl, by show (5 : Fr) ≠ 0; decide +kernel⟩

/-! ### C31 -/

/-- C31 (authentication): `Decrypt` returns a message only if the MAC of the presented group element and ciphertext verifies under
the key derived from them; otherwise the error is returned and the cipher untouched. And decrypting a `Copy()` gives the same
result as decrypting the cipher. The re-usability part of the property is false, see `C31_decrypt_twice_refuted`. -/
theorem C31_authenticated_partial (B : Bls) (sk : B.G2) (c : Cipher B) :
    (∀ m, (decrypt sk c).1 = .ok m → c.mac = B.mac (B.g1Bytes c.gr ++ c.encrypted) (B.hashGt (B.pair c.gr sk))) ∧
    (∀ e, (decrypt sk c).1 = .error e → (decrypt sk c).2 = c) ∧
    c.copy = c ∧ (decrypt sk c.copy).1 = (decrypt sk c).1 := by
  have hcopy : c.copy = c := by simp [Cipher.copy]
  refine ⟨?_, ?_, hcopy, by rw [hcopy]⟩
  · intro m hm
    unfold decrypt at hm
    simp only at hm
    split at hm
    · assumption
    · cases hm
  · intro e he
    unfold decrypt at he ⊢
    simp only at he ⊢
    split at he
    · next hmac =>
      rw [if_pos hmac]
      unfold aesDecrypt at he ⊢
      rw [if_pos (hashGt_keyOk _)] at he ⊢
      split at he
      · next hs => rw [if_pos hs]
      · cases he
    · next hmac => rw [if_neg hmac]

/-- C31 is false of the code: decrypting works in place and overwrites the ciphertext the MAC covers, so a second `Decrypt` of the
same cipher value fails for every cipher whose plaintext differs from its ciphertext, unless the two exhibited byte strings are a
MAC collision; a concrete instance is given. -/
theorem C31_decrypt_twice_refuted :
    (∀ (B : Bls) (sk : B.G2) (c : Cipher B) (m : Bytes), (decrypt sk c).1 = .ok m → m ≠ c.encrypted.drop 16 →
      (decrypt sk (decrypt sk c).2).1 = .error (.err .unknown "mac mismatch") ∨
      Collision (fun d => B.mac d (B.hashGt (B.pair c.gr sk))) (B.g1Bytes c.gr ++ c.encrypted)
        (B.g1Bytes c.gr ++ (c.encrypted.take 16 ++ m))) ∧
    (∃ (owner : Node Bls.toy) (c : Cipher Bls.toy) (id msg : Bytes), Node.new Bls.toy ⟨[5, 3]⟩ = .ok owner ∧
      encrypt Bls.toy owner.pk 7 (List.replicate 16 0) id msg = .ok c ∧
      (decrypt (owner.decrypter id) c).1 = .ok msg ∧
      (decrypt (owner.decrypter id) (decrypt (owner.decrypter id) c).2).1 = .error (.err .unknown "mac mismatch")) := by
  constructor
  · intro B sk c m hm hne
    have hmac := (C31_authenticated_partial B sk c).1 m hm
    have hsnd : (decrypt sk c).2 = { c with encrypted := c.encrypted.take 16 ++ m } := by
      unfold decrypt at hm ⊢
      simp only at hm ⊢
      rw [if_pos hmac] at hm ⊢
      unfold aesDecrypt at hm ⊢
      rw [if_pos (hashGt_keyOk _)] at hm ⊢
      split at hm
      · cases hm
      · next hs =>
        rw [if_neg hs]
        simp only [Except.ok.injEq] at hm
        simp only [← hm]
        rfl
    rw [hsnd]
    unfold decrypt
    simp only
    split
    · next h2 =>
      right
      refine ⟨?_, hmac.symm.trans h2⟩
      intro he
      have h3 := List.append_cancel_left he
      rw [← List.take_append_drop 16 c.encrypted] at h3
      simp only [List.take_append_drop] at h3
      have h4 : c.encrypted.take 16 ++ c.encrypted.drop 16 = c.encrypted.take 16 ++ m := by
        rw [List.take_append_drop]; exact h3
      exact hne (List.append_cancel_left h4).symm
    · exact Or.inl rfl
  · refine ⟨_, _, [1], [104, 105], rfl, rfl, ?_, ?_⟩ <;> decide +kernel

/-! ### C32 -/

/-- C32 (nodes): `ValidateVote` accepts a vote for the node owning `p` exactly if its signature is `H(id)` times `P(index)`;
everything else is answered with an error. -/
theorem C32_validate_vote (B : Bls) (n : Node B) (name : Str) (p : Poly) (h : HoldsShareOf n name p) (v : Vote B) :
    (n.validateVote name v = .ok () ↔ v.sig = value p.coefs (frOfInt v.index) • B.hashG2 v.id) ∧
    (n.validateVote name v = .ok () ∨ n.validateVote name v = .error (.err .unknown "invalid signature")) := by
  obtain ⟨hp, s, hl, he, _⟩ := holds_share h
  have hv : n.validateVote name v = Node.checkVote (p.exponent B) v := by unfold Node.validateVote; rw [hl]; simp only [he]
  rw [hv]
  refine ⟨by rw [checkVote_iff p hp, eval_value], ?_⟩
  rw [checkVote_res p hp]
  split
  · exact Or.inl rfl
  · exact Or.inr rfl

/-- C32 (nodes): the vote any node makes with a share of `p` is accepted by every node holding a share of `p`. -/
theorem C32_honest_vote_accepted (B : Bls) (n m : Node B) (name name' : Str) (p : Poly) (hn : HoldsShareOf n name p)
    (hm : HoldsShareOf m name' p) (id : Bytes) : ∃ v, m.vote name' id = .ok v ∧ v.id = id ∧ n.validateVote name v = .ok () := by
  obtain ⟨_, s, hl, _, _, hv, _⟩ := holds_share hm
  refine ⟨{ index := s.share.index, id := id, sig := s.share.value • B.hashG2 id }, ?_, rfl, ?_⟩
  · unfold Node.vote; rw [hl]
  · rw [(C32_validate_vote B n name p hn _).1, ← eval_value, hv]

/-- C32 (publishers): with the public keys of the shares of `P` for indices 1..n, `Verify` accepts a vote with index in 1..n
exactly if its signature is `H(id)` times `P(index)`. -/
theorem C32_publisher_verify (B : Bls) (P : Poly) (n : Nat) (pl : Player B)
    (hk : pl.publicKeys = (P.createShares n).map (PolyShare.computePublicKey B)) (v : Vote B)
    (h1 : 1 ≤ v.index) (h2 : v.index ≤ n) :
    pl.verify v = .ok (decide (v.sig = value P.coefs (frOfInt v.index) • B.hashG2 v.id)) := by
  have hi : (v.index - 1).toNat < n := by omega
  have hcast : (((v.index - 1).toNat : Nat) : Int) + 1 = v.index := by omega
  rw [← eval_value]
  refine verify_eq pl v P { index := v.index, key := P.eval v.index • B.gen1 } ?_ h1 rfl
  rw [hk]
  simp only [Poly.createShares, List.map_map, List.getElem?_map, List.getElem?_range hi, Option.map_some, Function.comp,
    PolyShare.computePublicKey, hcast]

/-! ### C33-C35 -/

/-- C33: if all votes are valid, and the first `Threshold()` of them are for one id and have distinct indices, the reconstructed
key is the owner's `Decrypter(id)`. -/
theorem C33_reconstruct (B : Bls) (p : Poly) (owner n : Node B) (ho : Node.new B p = .ok owner) (name : Str)
    (h : HoldsShareOf n name p) (votes : List (Vote B)) (id : Bytes) (hI : ∀ v ∈ votes, IsInt v.index)
    (hvalid : ∀ v ∈ votes, n.validateVote name v = .ok ()) (hlen : p.threshold ≤ votes.length)
    (hid : ∀ v ∈ votes.take p.threshold, v.id = id) (hd : ((votes.take p.threshold).map (·.index)).Nodup) :
    n.reconstructDecrypter name votes = .ok (owner.decrypter id) := by
  have hsig : ∀ v ∈ votes, v.sig = p.eval v.index • B.hashG2 v.id := by
    intro v hv
    rw [eval_value]
    exact (C32_validate_vote B n name p h v).1.1 (hvalid v hv)
  rw [reconstructDecrypter_ok_iff h]
  obtain ⟨_, rfl⟩ := node_new_ok ho
  refine ⟨?_, hsig, ?_⟩
  · rintro rfl; simp [Poly.threshold] at hlen
  · refine reconstructKey_correct hlen hd (fun v hv => hI v (List.mem_of_mem_take hv)) p (Nat.le_succ _) (B.hashG2 id) ?_
    intro v hv
    have := hsig v (List.mem_of_mem_take hv)
    rwa [hid v hv] at this

/-- C33 (errors): fewer than `Threshold()` votes, an invalid vote anywhere, or a repeated index among the first `Threshold()`
votes give an error (and no key, no panic). -/
theorem C33_errors (B : Bls) (p : Poly) (n : Node B) (name : Str)
    (h : HoldsShareOf n name p) (votes : List (Vote B))
    (hbad : votes.length < p.threshold ∨ (∃ v ∈ votes, n.validateVote name v ≠ .ok ()) ∨
      ¬ ((votes.take p.threshold).map (·.index)).Nodup) :
    ∃ m, n.reconstructDecrypter name votes = .error (.err .unknown m) := by
  have hp := (holds_share h).1
  cases hr : n.reconstructDecrypter name votes with
  | ok k =>
    exfalso
    obtain ⟨_, hsig, hk⟩ := (reconstructDecrypter_ok_iff h votes k).1 hr
    rcases hbad with hb | ⟨v, hv, hb⟩ | hb
    · rw [reconstructKey_few (t := p.coefs.length + 1) hb] at hk; cases hk
    · exact hb ((C32_validate_vote B n name p h v).1.2 (by rw [← eval_value]; exact hsig v hv))
    · by_cases hl : p.coefs.length + 1 ≤ votes.length
      · rw [reconstructKey_dup hl hb] at hk; cases hk
      · rw [reconstructKey_few (by omega)] at hk; cases hk
  | error e =>
    rw [reconstructDecrypter_eq h] at hr
    split at hr
    · injection hr with hr; exact ⟨_, by rw [← hr]⟩
    · cases hf : votes.forM (Node.checkVote (p.exponent B)) with
      | error e' =>
        rw [hf] at hr
        injection hr with hr
        subst hr
        obtain ⟨m, hm⟩ : ∃ m, e' = .err .unknown m := by
          refine forM_fail votes _ (fun e => ∃ m, e = .err .unknown m) ?_ e' hf
          intro v _ e he
          rw [checkVote_res p hp] at he
          split at he
          · cases he
          · injection he with he; exact ⟨_, he.symm⟩
        exact ⟨m, by rw [hm]⟩
      | ok u =>
        rw [hf] at hr
        have hr : reconstructKey votes (p.coefs.length + 1) = .error e := hr
        by_cases hl : p.coefs.length + 1 ≤ votes.length
        · by_cases hn : ((votes.take (p.coefs.length + 1)).map (·.index)).Nodup
          · rw [reconstructKey_nodup hl hn] at hr; cases hr
          · rw [reconstructKey_dup hl hn] at hr; injection hr with hr; exact ⟨_, by rw [← hr]⟩
        · rw [reconstructKey_few (by omega)] at hr; injection hr with hr; exact ⟨_, by rw [← hr]⟩

/-- C33: shares received before or after, under other names or earlier under the same, do not matter: a node that has called ReceiveShare any number of times, last for `name` with a
share of `p`'s owner, holds that share, and its votes for `name` are those of this share: number `index`, with signature `H(id)` times `P(index)`. -/
theorem C33_received (B : Bls) (p : Poly) (owner : Node B) (ho : Node.new B p = .ok owner) (k : Nat) (shares : List (VssShare B)) (hk : owner.vssShares k = .ok shares)
    (s : VssShare B) (hs : s ∈ shares) (n : Node B) (name : Str) (before after : List (Str × VssShare B)) (hafter : ∀ e ∈ after, e.1 ≠ name) (n' : Node B)
    (hn : n' = (before ++ (name, s) :: after).foldl (fun n e => n.receiveShare e.1 e.2) n) :
    HoldsShareOf n' name p ∧ n'.poly = n.poly ∧ n'.secret = n.secret ∧ n'.pk = n.pk ∧
      ∀ id, n'.vote name id = .ok { index := s.share.index, id := id, sig := value p.coefs (frOfInt s.share.index) • B.hashG2 id } := by
  have hkeep : ∀ (l : List (Str × VssShare B)) (n : Node B), (∀ e ∈ l, e.1 ≠ name) →
      (l.foldl (fun n e => n.receiveShare e.1 e.2) n).shares.lookup name = n.shares.lookup name := by
    intro l
    induction l with
    | nil => intro n _; rfl
    | cons e l ih =>
      intro n hl
      rw [List.foldl_cons, ih _ (fun e he => hl e (List.mem_cons_of_mem _ he))]
      exact GoMap.lookup_insert_ne _ _ (Ne.symm (hl e List.mem_cons_self))
  have hrest : ∀ (l : List (Str × VssShare B)) (n : Node B), (l.foldl (fun n e => n.receiveShare e.1 e.2) n).poly = n.poly ∧
      (l.foldl (fun n e => n.receiveShare e.1 e.2) n).secret = n.secret ∧ (l.foldl (fun n e => n.receiveShare e.1 e.2) n).pk = n.pk := by
    intro l
    induction l with
    | nil => intro n; exact ⟨rfl, rfl, rfl⟩
    | cons e l ih => intro n; rw [List.foldl_cons]; exact ih _
  have hlook : n'.shares.lookup name = some s := by
    rw [hn, List.foldl_append, List.foldl_cons, hkeep _ _ hafter]
    exact GoMap.lookup_insert_self _ _ _
  have hh : HoldsShareOf n' name p := ⟨owner, k, shares, s, ho, hk, hs, hlook⟩
  obtain ⟨-, s', hl, -, -, hv, -⟩ := holds_share hh
  rw [hlook] at hl
  injection hl with hl
  subst hl
  obtain ⟨r1, r2, r3⟩ := hrest (before ++ (name, s) :: after) n
  rw [← hn] at r1 r2 r3
  refine ⟨hh, r1, r2, r3, fun id => ?_⟩
  unfold Node.vote
  simp only [hlook, ← eval_value, hv]

/-- A node of a concrete system: polynomial 5 + 3x (degree 1, threshold 3), three holders of its shares, their votes. -/
def exPoly : Poly := ⟨[5, 3]⟩

def exNode (i : Nat) : Node Bls.toy :=
  ({ poly := exPoly, pk := (5 : Fr), secret := 5, shares := [] } : Node Bls.toy).receiveShare [104]
    { expoly := exPoly.exponent Bls.toy, share := { index := (i : Int) + 1, value := exPoly.eval ((i : Int) + 1) }, mpk := (exPoly.eval 0 • (1 : Fr)) }

theorem exNode_holds (i : Nat) : HoldsShareOf (exNode i) [104] exPoly := by
  have ho : Node.new Bls.toy exPoly = .ok _ := node_new (by decide)
  refine ⟨_, i + 1, _, _, ho, vssShares_eq ho (i + 1), List.mem_map.2 ⟨_, List.mem_map.2 ⟨i, by simp, rfl⟩, rfl⟩, rfl⟩

/-- The hypotheses of C33 are met: three honest votes. -/
example : ∃ votes : List (Vote Bls.toy), (∀ v ∈ votes, IsInt v.index) ∧
    (∀ v ∈ votes, (exNode 0).validateVote [104] v = .ok ()) ∧ exPoly.threshold ≤ votes.length ∧
    (∀ v ∈ votes.take exPoly.threshold, v.id = [9]) ∧ ((votes.take exPoly.threshold).map (·.index)).Nodup := by
  refine ⟨[honestVote _ exPoly [9] 1, honestVote _ exPoly [9] 2, honestVote _ exPoly [9] 3], ?_, ?_, ?_, ?_, ?_⟩
  · simp [honestVote, IsInt]
  · intro v hv
    rw [(C32_validate_vote _ _ _ _ (exNode_holds 0) v).1]
    simp only [List.mem_cons, List.not_mem_nil, or_false] at hv
    rcases hv with rfl | rfl | rfl <;> rfl
  · decide
  · intro v hv
    have := List.mem_of_mem_take hv
    simp only [List.mem_cons, List.not_mem_nil, or_false] at this
    rcases this with rfl | rfl | rfl <;> rfl
  · simp [exPoly, Poly.threshold, honestVote]

/-- C34 is false of the code: `Threshold()` counts the coefficients (degree+1) and adds one more, so degree+1 votes never suffice:
for every polynomial of degree `d` and every list of `d+1` votes, honest or not, reconstruction fails. -/
theorem C34_degree_plus_one_refuted (B : Bls) (p : Poly) (d : Nat) (hd : p.coefs.length = d + 1) (n : Node B) (name : Str)
    (h : HoldsShareOf n name p) (votes : List (Vote B)) (hl : votes.length = d + 1) :
    ∃ m, n.reconstructDecrypter name votes = .error (.err .unknown m) :=
  C33_errors B p n name h votes (Or.inl (by simp only [Poly.threshold]; omega))

/-- C34, the part that holds: degree+2 distinct honest votes suffice, and more do as well. -/
theorem C34_degree_plus_two_partial (B : Bls) (p : Poly) (d : Nat) (hd : p.coefs.length = d + 1) (owner n : Node B)
    (ho : Node.new B p = .ok owner) (name : Str) (h : HoldsShareOf n name p) (id : Bytes) (indices : List Int)
    (hI : ∀ i ∈ indices, IsInt i) (hn : indices.Nodup) (hl : d + 2 ≤ indices.length) :
    n.reconstructDecrypter name (indices.map (honestVote B p id)) = .ok (owner.decrypter id) := by
  refine C33_reconstruct B p owner n ho name h _ id ?_ ?_ (by simp [Poly.threshold]; omega) ?_ ?_
  · intro v hv; rw [List.mem_map] at hv; obtain ⟨i, hi, rfl⟩ := hv; exact hI i hi
  · intro v hv; rw [List.mem_map] at hv; obtain ⟨i, hi, rfl⟩ := hv
    exact (C32_validate_vote B n name p h _).1.2 rfl
  · intro v hv
    have := List.mem_of_mem_take hv
    rw [List.mem_map] at this; obtain ⟨i, hi, rfl⟩ := this; rfl
  · rw [List.map_take, List.map_map]
    refine (List.take_sublist _ _).nodup ?_
    simpa [Function.comp_def, honestVote] using hn

example : ∃ votes : List (Vote Bls.toy), votes.length = 2 ∧ exPoly.coefs.length = 1 + 1 ∧
    ∀ v ∈ votes, (exNode 0).validateVote [104] v = .ok () := by
  refine ⟨[honestVote _ exPoly [9] 1, honestVote _ exPoly [9] 2], rfl, rfl, ?_⟩
  intro v hv
  rw [(C32_validate_vote _ _ _ _ (exNode_holds 0) v).1]
  simp only [List.mem_cons, List.not_mem_nil, or_false] at hv
  rcases hv with rfl | rfl <;> rfl

/-- C35 is false of the code: every vote is checked against its own id, but nothing checks that the ids agree. For every library,
constant polynomial `a ≠ 0` and two ids with different hashes there are two valid votes (one for each id) from which a key is
reconstructed without error that is the owner's key for neither id. -/
theorem C35_mixed_ids_refuted (B : Bls) (a : Fr) (ha : a ≠ 0) (owner n : Node B) (ho : Node.new B ⟨[a]⟩ = .ok owner) (name : Str)
    (h : HoldsShareOf n name ⟨[a]⟩) (id id' : Bytes) (hne : B.hashG2 id ≠ B.hashG2 id') :
    ∃ (votes : List (Vote B)) (k : B.G2), (∀ v ∈ votes, n.validateVote name v = .ok () ∧ (v.id = id ∨ v.id = id')) ∧
      n.reconstructDecrypter name votes = .ok k ∧ k ≠ owner.decrypter id ∧ k ≠ owner.decrypter id' := by
  obtain ⟨_, rfl⟩ := node_new_ok ho
  have hev : ∀ i, (Poly.mk [a]).eval i = a := by intro i; rw [eval_poly]; simp [ofCoefs]
  have hval : ∀ v : Vote B, v.sig = a • B.hashG2 v.id → n.validateVote name v = .ok () := by
    intro v hv
    rw [(C32_validate_vote B n name _ h v).1, ← eval_value, hev]; exact hv
  have hl1 : lagrangeMult [1, 2] 1 = 2 := by decide +kernel
  have hl2 : lagrangeMult [1, 2] 2 = -1 := by decide +kernel
  refine ⟨[{ index := 1, id := id, sig := a • B.hashG2 id }, { index := 2, id := id', sig := a • B.hashG2 id' }],
    (2 : Fr) • a • B.hashG2 id + (-1 : Fr) • a • B.hashG2 id', ?_, ?_, ?_, ?_⟩
  · intro v hv
    simp only [List.mem_cons, List.not_mem_nil, or_false] at hv
    rcases hv with rfl | rfl
    · exact ⟨hval _ rfl, Or.inl rfl⟩
    · exact ⟨hval _ rfl, Or.inr rfl⟩
  · rw [reconstructDecrypter_ok_iff h]
    refine ⟨by simp, ?_, ?_⟩
    · intro v hv
      simp only [List.mem_cons, List.not_mem_nil, or_false] at hv
      rcases hv with rfl | rfl <;> simp [hev]
    · rw [reconstructKey_nodup (by simp) (by simp)]
      simp [hl1, hl2]
  · simp only [Node.decrypter, hev]
    intro he
    have h1 : a • (B.hashG2 id - B.hashG2 id') = 0 := by
      have h2 : (2 : Fr) • a • B.hashG2 id + (-1 : Fr) • a • B.hashG2 id' - a • B.hashG2 id = 0 := by rw [he, sub_self]
      rw [two_smul, neg_one_smul] at h2
      rw [smul_sub]
      rw [← h2]; abel
    rcases smul_eq_zero.1 h1 with h0 | h0
    · exact ha h0
    · exact hne (sub_eq_zero.1 h0)
  · simp only [Node.decrypter, hev]
    intro he
    have h1 : ((2 : Fr) * a) • (B.hashG2 id - B.hashG2 id') = 0 := by
      have h2 : (2 : Fr) • a • B.hashG2 id + (-1 : Fr) • a • B.hashG2 id' - a • B.hashG2 id' = 0 := by rw [he, sub_self]
      rw [neg_one_smul] at h2
      rw [mul_smul, smul_sub, smul_sub, ← h2, two_smul, two_smul]
      abel
    rcases smul_eq_zero.1 h1 with h0 | h0
    · rcases mul_eq_zero.1 h0 with h3 | h3
      · exact absurd h3 (by decide +kernel)
      · exact ha h3
    · exact hne (sub_eq_zero.1 h0)

/-- C35, the part that holds: if the votes are all for one id, a key that is returned is the owner's key for that id, no matter
who produced the votes. -/
theorem C35_never_wrong_partial (B : Bls) (p : Poly) (owner n : Node B) (ho : Node.new B p = .ok owner) (name : Str)
    (h : HoldsShareOf n name p) (votes : List (Vote B)) (hI : ∀ v ∈ votes, IsInt v.index) (id : Bytes)
    (hid : ∀ v ∈ votes, v.id = id) (k : B.G2) (hk : n.reconstructDecrypter name votes = .ok k) :
    k = owner.decrypter id := by
  have hok : ¬ ∃ m, n.reconstructDecrypter name votes = .error (.err .unknown m) := by
    rintro ⟨m, hm⟩; rw [hk] at hm; cases hm
  have hnb : ¬ (_ ∨ _ ∨ _) := fun hb => hok (C33_errors B p n name h votes hb)
  push Not at hnb
  have := C33_reconstruct B p owner n ho name h votes id hI hnb.2.1 hnb.1
    (fun v hv => hid v (List.mem_of_mem_take hv)) hnb.2.2
  rw [hk] at this
  injection this

/-! ### C36, C37, C69 -/

/-- The public keys of the shares 1..n of `P` (what `DKGSetup` hands to every server). -/
def dkgKeys (B : Bls) (P : Poly) (n : Nat) : List (PublicKey B) := (P.createShares n).map (PolyShare.computePublicKey B)

/-- C36, the part that holds: with at least `t` public keys of distinct shares of one polynomial of degree at most t-1, for every
map iteration order, NewPublisher returns a publisher whose shared public key is `g^{P(0)}`. -/
theorem C36_joint_key_partial (B : Bls) (P : Poly) (t : Nat) (hP : P.coefs.length ≤ t) (priv : PolyShare)
    (keys : List (PublicKey B)) (ht : t ≤ keys.length) (hI : ∀ k ∈ keys, IsInt k.index)
    (hn : ((keys.take t).map (·.index)).Nodup) (hk : ∀ k ∈ keys, k.key = value P.coefs (frOfInt k.index) • B.gen1)
    (hidx : 1 ≤ priv.index ∧ priv.index ≤ keys.length) (res : Go (Player B)) (hres : NewPublisher t priv keys res) :
    ∃ pl, res = .ok pl ∧ pl.sharedPublicKey = value P.coefs 0 • B.gen1 ∧ pl.publicKeys = keys ∧ pl.index = priv.index := by
  obtain ⟨pl, h1, _, h3, _, h5, h6⟩ := newPublisher_correct t priv keys ht hn (fun k hk' => hI k (List.mem_of_mem_take hk')) P hP
    (fun k hk' => by rw [eval_value]; exact hk k (List.mem_of_mem_take hk')) hidx res hres
  exact ⟨pl, h1, by rw [h6, eval_value, frOfInt_zero], h5, h3⟩

/-- C36 is false of the code for t-1 keys: the unused slot of the index array stays 0, counts as an index, and makes every
multiplier vanish. For every threshold t ≥ 2 and every t-1 keys of distinct non-zero indices, whatever they are, NewPublisher
returns no error but a publisher whose shared public key is the identity element; everything it hides is then encrypted under a key
that does not depend on any secret. -/
theorem C36_too_few_keys_refuted (B : Bls) (t : Nat) (ht : 2 ≤ t) (priv : PolyShare) (keys : List (PublicKey B))
    (hlen : keys.length = t - 1) (hn : (keys.map (·.index)).Nodup) (hnz : ∀ k ∈ keys, k.index ≠ 0)
    (hidx : 1 ≤ priv.index ∧ priv.index ≤ keys.length) (res : Go (Player B)) (hres : NewPublisher t priv keys res) :
    ∃ pl, res = .ok pl ∧ pl.sharedPublicKey = 0 ∧
      ∀ r iv id msg, ∃ s, pl.hide r iv id msg = .ok s ∧ (iv.length = 16 → (aesDecrypt B (B.hashGt 0) s.encrypted).1 = .ok msg) := by
  obtain ⟨order, ho, rfl⟩ := hres
  have htake : keys.take t = keys := List.take_of_length_le (by omega)
  have hperm := ho.trans (collectKeys_map t keys (by rw [htake]; exact hn))
  rw [htake] at hperm
  have hidxs : (collectKeys t keys).2 = keys.map (·.index) ++ [0] := by
    unfold collectKeys
    simp only [htake, hlen]
    rw [show t - (t - 1) = 1 by omega]; rfl
  have hnd : (keys.map (fun k => k.index) ++ [(0 : Int)]).Nodup := by
    rw [List.nodup_append]
    refine ⟨hn, by simp, ?_⟩
    intro a ha b hb
    rw [List.mem_singleton.1 hb]
    rw [List.mem_map] at ha; obtain ⟨k, hk, rfl⟩ := ha; exact hnz k hk
  have hsum : computeSharedPubkey t order (collectKeys t keys).2 = .ok 0 := by
    rw [hidxs, computeShared_sum t order _ (by simp; omega) hnd]
    congr 1
    refine List.sum_eq_zero ?_
    intro x hx
    rw [List.mem_map] at hx
    obtain ⟨e, he, rfl⟩ := hx
    have := hperm.mem_iff.1 he
    rw [List.mem_map] at this
    obtain ⟨k, hk, rfl⟩ := this
    rw [lagrangeMult_zero (by simp) (hnz k hk), zero_smul]
  have hget : ∃ own, goIndexInt keys (priv.index - 1) = .ok own := by
    unfold goIndexInt goIndex
    rw [if_neg (by omega)]
    have : (priv.index - 1).toNat < keys.length := by omega
    rw [List.getElem?_eq_getElem this]
    exact ⟨_, rfl⟩
  obtain ⟨own, hown⟩ := hget
  unfold newPublisher
  rw [hsum, hown]
  refine ⟨_, rfl, rfl, ?_⟩
  intro r iv id msg
  have hct : aesEncrypt B iv (B.hashGt (B.pair (r • (0 : B.G1)) (B.hashG2 id))) msg = .ok _ := aesEncrypt_ok _ _ _ (hashGt_keyOk _)
  refine ⟨{ id := id, hidingValue := r • B.gen1, encrypted := iv ++ cfbEncrypt B.aes (B.hashGt (B.pair (r • (0 : B.G1)) (B.hashG2 id))) msg.length iv msg }, ?_, ?_⟩
  · unfold Player.hide
    simp only
    rw [hct]; rfl
  · intro hiv
    rw [smul_zero, map_zero, LinearMap.zero_apply] at hct
    simp only [smul_zero, map_zero, LinearMap.zero_apply]
    rw [aesDecrypt_encrypt iv _ msg _ hiv hct]

/-- With two or more keys missing the documented error is returned. -/
theorem C36_far_too_few_partial (B : Bls) (t : Nat) (priv : PolyShare) (keys : List (PublicKey B)) (hne : keys ≠ [])
    (hlen : keys.length + 2 ≤ t) (hn : (keys.map (·.index)).Nodup) (res : Go (Player B)) (hres : NewPublisher t priv keys res) :
    res = .error (.err .unknown "missing points") := by
  obtain ⟨order, ho, rfl⟩ := hres
  have htake : keys.take t = keys := List.take_of_length_le (by omega)
  have hperm := ho.trans (collectKeys_map t keys (by rw [htake]; exact hn))
  rw [htake] at hperm
  have hd : (collectKeys t keys).2.dedup.length < t := by
    unfold collectKeys
    simp only [htake]
    have hsub : (keys.map (·.index) ++ List.replicate (t - keys.length) (0 : Int)).dedup ⊆ 0 :: keys.map (·.index) := by
      intro x hx
      rw [List.mem_dedup, List.mem_append] at hx
      rcases hx with hx | hx
      · exact List.mem_cons_of_mem _ hx
      · rw [List.eq_of_mem_replicate hx]; exact List.mem_cons_self ..
    have := (List.subperm_of_subset (List.nodup_dedup _) hsub).length_le
    simp only [List.length_cons, List.length_map] at this
    omega
  have hone : order ≠ [] := by
    intro h0
    rw [h0] at hperm
    have := hperm.length_eq
    simp at this
    exact hne (List.length_eq_zero_iff.1 this.symm)
  unfold newPublisher
  rw [computeShared_err t order _ hd hone]; rfl

example : NewPublisher 2 ⟨1, exPoly.eval 1⟩ (dkgKeys Bls.toy exPoly 3)
    (newPublisher 2 ⟨1, exPoly.eval 1⟩ (dkgKeys Bls.toy exPoly 3) (collectKeys 2 (dkgKeys Bls.toy exPoly 3)).1) :=
  ⟨_, List.Perm.refl _, rfl⟩

/-- A publisher of the group that shares the polynomial `P` among `n` members with threshold `t` = number of coefficients. -/
def IsPublisher {B : Bls} (P : Poly) (n : Nat) (i : Nat) (pl : Player B) : Prop :=
  i < n ∧ NewPublisher P.coefs.length { index := (i : Int) + 1, value := P.eval ((i : Int) + 1) } (dkgKeys B P n) (.ok pl)

theorem isPublisher_spec {B : Bls} {P : Poly} {n i : Nat} {pl : Player B} (hn : n < 2 ^ 63) (ht : P.coefs.length ≤ n)
    (h : IsPublisher P n i pl) : pl.t = P.coefs.length ∧ pl.index = (i : Int) + 1 ∧ pl.secretKey = P.eval ((i : Int) + 1) ∧
      pl.sharedPublicKey = P.eval 0 • B.gen1 ∧ pl.publicKeys = dkgKeys B P n := by
  obtain ⟨hi, h⟩ := h
  have hmem : ∀ k ∈ dkgKeys B P n, ∃ j : Nat, j < n ∧ k = { index := (j : Int) + 1, key := P.eval ((j : Int) + 1) • B.gen1 } := by
    intro k hk
    simp only [dkgKeys, List.mem_map] at hk
    obtain ⟨sh, hsh, rfl⟩ := hk
    obtain ⟨j, hj, rfl⟩ := mem_createShares hsh
    exact ⟨j, hj, rfl⟩
  have hlen : (dkgKeys B P n).length = n := by simp [dkgKeys, Poly.createShares]
  have hmap : (dkgKeys B P n).map (·.index) = (List.range n).map fun j : Nat => (j : Int) + 1 := by
    simp [dkgKeys, Poly.createShares, PolyShare.computePublicKey, Function.comp_def]
  have hnodup : ((dkgKeys B P n).map (·.index)).Nodup := by
    rw [hmap]
    refine List.Nodup.map ?_ List.nodup_range
    intro a b hab; simp only at hab; omega
  obtain ⟨pl', h1, h2, h3, h4, h5, h6⟩ := newPublisher_correct P.coefs.length _ (dkgKeys B P n) (by rw [hlen]; exact ht)
    (by rw [List.map_take]; exact hnodup.sublist (List.take_sublist _ _))
    (fun k hk => by
      obtain ⟨j, hj, rfl⟩ := hmem k (List.mem_of_mem_take hk)
      simp only [IsInt]; omega)
    P le_rfl (fun k hk => by obtain ⟨j, hj, rfl⟩ := hmem k (List.mem_of_mem_take hk); rfl)
    ⟨by simp, by rw [hlen]; simp only; omega⟩ _ h
  injection h1 with h1
  subst h1
  exact ⟨h2, h3, h4, h6, h5⟩

/-- C37, the part that holds: what any publisher hides under `id` is revealed by any publisher from a vote list whose first `t`
votes are votes for `id` of distinct publishers; with fewer than `t` votes, or a repeated voter among the first `t`, Reveal returns
an error. -/
theorem C37_hide_reveal_partial (B : Bls) (P : Poly) (n : Nat) (hn : n < 2 ^ 63) (ht : P.coefs.length ≤ n)
    (i j : Nat) (hider revealer : Player B) (hh : IsPublisher P n i hider) (hr : IsPublisher P n j revealer)
    (r : Fr) (iv id msg : Bytes) (hiv : iv.length = 16) (votes : List (Vote B)) :
    ∃ s, hider.hide r iv id msg = .ok s ∧
      (P.coefs.length ≤ votes.length → (∀ v ∈ votes.take P.coefs.length, ∃ k pl, IsPublisher P n k pl ∧ v = pl.vote id) →
        ((votes.take P.coefs.length).map (·.index)).Nodup → (revealer.reveal votes s).1 = .ok msg) ∧
      (votes.length < P.coefs.length ∨ ¬ ((votes.take P.coefs.length).map (·.index)).Nodup →
        ∃ m, (revealer.reveal votes s).1 = .error (.err .unknown m)) := by
  obtain ⟨_, _, _, hshared, _⟩ := isPublisher_spec hn ht hh
  obtain ⟨hrt, _, _, _, _⟩ := isPublisher_spec hn ht hr
  have hct : aesEncrypt B iv (B.hashGt (B.pair (r • hider.sharedPublicKey) (B.hashG2 id))) msg = .ok _ :=
    aesEncrypt_ok _ _ _ (hashGt_keyOk _)
  have hhide : ∃ s, hider.hide r iv id msg = .ok s := by
    unfold Player.hide
    simp only
    rw [hct]; exact ⟨_, rfl⟩
  obtain ⟨s, hs⟩ := hhide
  refine ⟨s, hs, ?_, ?_⟩
  · intro hlen hv hd
    have hsig : ∀ v ∈ votes.take P.coefs.length, IsInt v.index ∧ v.sig = P.eval v.index • B.hashG2 id := by
      intro v hv'
      obtain ⟨k, pl, hpl, rfl⟩ := hv v hv'
      obtain ⟨_, h2, h3, _, _⟩ := isPublisher_spec hn ht hpl
      have hk := hpl.1
      simp only [Player.vote, h2, h3, IsInt]
      exact ⟨by omega, trivial⟩
    obtain ⟨s', hs', hrev⟩ := reveal_hide P.coefs.length P le_rfl hider revealer hshared hrt r iv id msg hiv votes hlen hd
      (fun v hv' => (hsig v hv').1) (fun v hv' => (hsig v hv').2)
    rw [hs] at hs'
    injection hs' with hs'
    rw [hs', hrev]
  · rintro hb
    unfold Player.reveal
    rw [hrt]
    rcases hb with hb | hb
    · rw [reconstructKey_few hb]; exact ⟨_, rfl⟩
    · by_cases hl : P.coefs.length ≤ votes.length
      · rw [reconstructKey_dup hl hb]; exact ⟨_, rfl⟩
      · rw [reconstructKey_few (by omega)]; exact ⟨_, rfl⟩

/-- A publisher of the concrete group, built by NewPublisher from the keys of 3 shares of 5 + 3x. -/
theorem exPublisher (i : Nat) (hi : i < 3) : ∃ pl : Player Bls.toy, IsPublisher exPoly 3 i pl := by
  have hres : NewPublisher 2 (PolyShare.mk ((i : Int) + 1) (exPoly.eval ((i : Int) + 1))) (dkgKeys Bls.toy exPoly 3) _ := ⟨_, List.Perm.refl _, rfl⟩
  obtain ⟨pl, h, _⟩ := C36_joint_key_partial Bls.toy exPoly 2 (by decide) ⟨(i : Int) + 1, exPoly.eval ((i : Int) + 1)⟩ (dkgKeys Bls.toy exPoly 3)
    (by decide) (by
      intro k hk
      simp only [dkgKeys, List.mem_map] at hk
      obtain ⟨sh, hsh, rfl⟩ := hk
      obtain ⟨j, hj, rfl⟩ := mem_createShares hsh
      simp only [PolyShare.computePublicKey, IsInt]; omega) (by decide)
    (by
      intro k hk
      simp only [dkgKeys, List.mem_map] at hk
      obtain ⟨sh, hsh, rfl⟩ := hk
      obtain ⟨j, hj, rfl⟩ := mem_createShares hsh
      simp only [PolyShare.computePublicKey, eval_value])
    ⟨by simp, by simp only [dkgKeys, Poly.createShares, List.length_map, List.length_range]; omega⟩ _ hres
  refine ⟨pl, hi, ?_⟩
  rw [← h]
  exact hres

/-- C37 is false of the code for wrong votes: Reveal verifies no vote and the ciphertext carries no authentication, so a vote list
containing a wrong vote yields a wrong message without any error. Concrete case: group of three, threshold two, publisher 1 hides
[104,105] and publisher 2 reveals with one vote whose signature is wrong. -/
theorem C37_wrong_vote_refuted : ∃ (hider revealer : Player Bls.toy) (votes : List (Vote Bls.toy)) (s : Secret Bls.toy)
    (wrong : Bytes), IsPublisher exPoly 3 0 hider ∧ IsPublisher exPoly 3 1 revealer ∧
    hider.hide 7 (List.replicate 16 0) [1] [104, 105] = .ok s ∧ votes.length = 2 ∧ (votes.map (·.index)).Nodup ∧
    (∃ v ∈ votes, revealer.verify v = .ok false) ∧
    (revealer.reveal votes s).1 = .ok wrong ∧ wrong ≠ [104, 105] := by
  obtain ⟨a, ha⟩ := exPublisher 0 (by decide)
  obtain ⟨b, hb⟩ := exPublisher 1 (by decide)
  obtain ⟨_, _, _, a4, a5⟩ := isPublisher_spec (by decide) (by decide) ha
  obtain ⟨b1, _, _, _, b5⟩ := isPublisher_spec (by decide) (by decide) hb
  have hrev : ∀ (x y : Fr) (s : Secret Bls.toy), b.reveal [⟨1, [1], x⟩, ⟨2, [1], y⟩] s =
      ((aesDecrypt Bls.toy (Bls.toy.hashGt (Bls.toy.pair s.hidingValue (2 * x - y : Fr))) s.encrypted).1, Secret.mk s.id s.hidingValue
        (aesDecrypt Bls.toy (Bls.toy.hashGt (Bls.toy.pair s.hidingValue (2 * x - y : Fr))) s.encrypted).2) := by
    intro x y s
    have hl1 : lagrangeMult [1, 2] 1 = 2 := by decide +kernel
    have hl2 : lagrangeMult [1, 2] 2 = -1 := by decide +kernel
    have hk : reconstructKey (B := Bls.toy) [⟨1, [1], x⟩, ⟨2, [1], y⟩] 2 = .ok (2 * x - y : Fr) := by
      rw [reconstructKey_nodup (by simp) (by simp)]
      simp only [List.take_succ_cons, List.take_zero, List.map_cons, List.map_nil, List.sum_cons, List.sum_nil, hl1, hl2]
      show Except.ok ((2 : Fr) * x + ((-1) * y + 0)) = Except.ok (2 * x - y)
      congr 1; ring
    unfold Player.reveal
    rw [b1, show exPoly.coefs.length = 2 from rfl, hk]
  have hhide : a.hide 7 (List.replicate 16 0) [1] [104, 105] =
      Player.hide (B := Bls.toy) { t := 2, index := 2, secretKey := 0, publicKey := (0 : Fr), publicKeys := [], sharedPublicKey := (5 : Fr) } 7 (List.replicate 16 0) [1] [104, 105] := by
    unfold Player.hide
    rw [a4]
    rfl
  refine ⟨a, b, [⟨1, [1], (16 : Fr)⟩, ⟨2, [1], (0 : Fr)⟩], _, [206, 105], ha, hb, hhide, rfl, by decide, ?_, ?_, ?_⟩
  · refine ⟨_, List.mem_cons_of_mem _ (List.mem_cons_self ..), ?_⟩
    rw [C32_publisher_verify Bls.toy exPoly 3 b (by rw [b5]; rfl) _ (by decide) (by decide)]
    decide +kernel
  · rw [hrev]; decide +kernel
  · decide

/-- C69 is false of the code: Reveal decrypts `secret.Encrypted` in place, so revealing the same Secret value a second time with
the same valid votes returns a different message, without error. -/
theorem C69_reveal_twice_refuted : ∃ (hider revealer : Player Bls.toy) (votes : List (Vote Bls.toy)) (s : Secret Bls.toy)
    (wrong : Bytes), IsPublisher exPoly 3 0 hider ∧ IsPublisher exPoly 3 1 revealer ∧
    votes = [hider.vote [1], revealer.vote [1]] ∧
    hider.hide 7 (List.replicate 16 0) [1] [104, 105] = .ok s ∧
    (revealer.reveal votes s).1 = .ok [104, 105] ∧
    (revealer.reveal votes (revealer.reveal votes s).2).1 = .ok wrong ∧ wrong ≠ [104, 105] := by
  obtain ⟨a, ha⟩ := exPublisher 0 (by decide)
  obtain ⟨b, hb⟩ := exPublisher 1 (by decide)
  obtain ⟨_, a2, a3, a4, a5⟩ := isPublisher_spec (by decide) (by decide) ha
  obtain ⟨b1, b2, b3, _, b5⟩ := isPublisher_spec (by decide) (by decide) hb
  have hrev : ∀ (x y : Fr) (s : Secret Bls.toy), b.reveal [⟨1, [1], x⟩, ⟨2, [1], y⟩] s =
      ((aesDecrypt Bls.toy (Bls.toy.hashGt (Bls.toy.pair s.hidingValue (2 * x - y : Fr))) s.encrypted).1, Secret.mk s.id s.hidingValue
        (aesDecrypt Bls.toy (Bls.toy.hashGt (Bls.toy.pair s.hidingValue (2 * x - y : Fr))) s.encrypted).2) := by
    intro x y s
    have hl1 : lagrangeMult [1, 2] 1 = 2 := by decide +kernel
    have hl2 : lagrangeMult [1, 2] 2 = -1 := by decide +kernel
    have hk : reconstructKey (B := Bls.toy) [⟨1, [1], x⟩, ⟨2, [1], y⟩] 2 = .ok (2 * x - y : Fr) := by
      rw [reconstructKey_nodup (by simp) (by simp)]
      simp only [List.take_succ_cons, List.take_zero, List.map_cons, List.map_nil, List.sum_cons, List.sum_nil, hl1, hl2]
      show Except.ok ((2 : Fr) * x + ((-1) * y + 0)) = Except.ok (2 * x - y)
      congr 1; ring
    unfold Player.reveal
    rw [b1, show exPoly.coefs.length = 2 from rfl, hk]
  have hhide : a.hide 7 (List.replicate 16 0) [1] [104, 105] =
      Player.hide (B := Bls.toy) { t := 2, index := 2, secretKey := 0, publicKey := (0 : Fr), publicKeys := [], sharedPublicKey := (5 : Fr) } 7 (List.replicate 16 0) [1] [104, 105] := by
    unfold Player.hide
    rw [a4]
    rfl
  have hvotes : [a.vote [1], b.vote [1]] = [⟨1, [1], (16 : Fr)⟩, ⟨2, [1], (22 : Fr)⟩] := by
    simp only [Player.vote, a2, a3, b2, b3]
    rfl
  refine ⟨a, b, _, _, [47, 105], ha, hb, rfl, hhide, ?_, ?_, ?_⟩
  · rw [hvotes, hrev]; decide +kernel
  · rw [hvotes, hrev, hrev]; decide +kernel
  · decide

end Resmix.Tibe
