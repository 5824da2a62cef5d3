import Verif.Proofs.PubCache
import Verif.Proofs.Secrecy
import Verif.Proofs.Marshal
set_option autoImplicit false
/-
C26-C29, C38: polynomials, shares, public shares, secrecy, serialisation (internal/crypto/tibe/poly.go, exponent_poly.go).
-/
namespace Resmix.Tibe

/-- C26: `Eval(i)` is `a_0 + a_1*i + ... + a_d*i^d`, `Secret()` is `Eval(0)`, `CreateShares(n)` has exactly the shares
(1, Eval(1)), ..., (n, Eval(n)), in this order, and none of index 0. -/
theorem C26_eval_and_shares (p : Poly) (hp : p.coefs ≠ []) (n : Nat) :
    (∀ i : Nat, i < 2 ^ 63 → p.eval i = value p.coefs (i : Fr)) ∧
    p.secret = .ok (value p.coefs 0) ∧
    (p.createShares n).length = n ∧
    (∀ j : Nat, j < n → (p.createShares n)[j]? = some { index := (j : Int) + 1, value := p.eval ((j : Int) + 1) }) ∧
    (∀ s ∈ p.createShares n, s.index ≠ 0) := by
  refine ⟨?_, ?_, ?_, ?_, ?_⟩
  · intro i hi
    rw [eval_value, frOfInt_nat i (by omega)]
  · rw [secret_ok hp, eval_value, frOfInt_zero]
  · simp [Poly.createShares]
  · intro j hj
    simp [Poly.createShares, hj]
  · intro s hs
    obtain ⟨j, _, rfl⟩ := mem_createShares hs
    simp only; omega

/-- A concrete polynomial: 5 + 3x + 2x². -/
example : (Poly.mk [5, 3, 2]).eval 4 = 49 ∧ (Poly.mk [5, 3, 2]).secret = .ok 5 ∧ (Poly.mk [5, 3, 2]).coefs ≠ [] := by
  refine ⟨by decide +kernel, rfl, by decide⟩

/-- C27 (values): in every state reachable by any interleaving of any number of `GetPublicShare` calls on the exponent form of
`p`, every call that has returned, returned `g^{P(i)}`; no call panics. -/
theorem C27_public_share (B : Bls) (p : Poly) (hp : p.coefs ≠ []) (s : PubState B) (h : PubReach (p.exponent B) s)
    (i : Nat) (r : Go B.G1) (hc : (i, PubPc.done r) ∈ s.procs) : r = .ok (value p.coefs (i : Fr) • B.gen1) := by
  have := (pub_inv (by simpa [Poly.exponent] using hp) h).fin _ hc r rfl
  rw [this, publicShare_eq p hp, ofCoefs_value]

/-- C27 (termination): as long as a call has not returned, some call can take a step, and every step that is not a new call
reduces the remaining work: all calls return. -/
theorem C27_calls_return (B : Bls) (p : Poly) (hp : p.coefs ≠ []) (s : PubState B) (h : PubReach (p.exponent B) s) :
    (∀ c ∈ s.procs, (∀ r, c.2 ≠ .done r) → ∃ s', PubStep (p.exponent B) s s' ∧ s'.procs.length = s.procs.length) ∧
    (∃ work : PubState B → Nat, ∀ s₁ s₂, PubStep (p.exponent B) s₁ s₂ → s₂.procs.length = s₁.procs.length → work s₂ < work s₁) :=
  ⟨fun _ hc hnd => pub_progress (by simpa [Poly.exponent] using hp) h hc hnd, ⟨PubState.work, fun _ _ hs hl => pub_work hs hl⟩⟩

/-- C27 (verification): `VerifyShare(i, s)` accepts exactly `s = P(i)`. -/
theorem C27_verify_share (B : Bls) (p : Poly) (hp : p.coefs ≠ []) (i : Nat) (share : Fr) :
    (p.exponent B).verifyShare i share = .ok (decide (share = value p.coefs (i : Fr))) := by
  unfold ExponentPoly.verifyShare
  rw [publicShare_eq p hp, ofCoefs_value]
  simp only [bind, Except.bind]
  congr 1
  rw [decide_eq_decide]
  exact ⟨gen1_smul_inj, fun h => by rw [h]⟩

/-- Two goroutines ask for the same index; one runs the computation, the other waits for the Once and reads the cache. -/
example : ∃ s : PubState Bls.toy, PubReach ((Poly.mk [5, 3, 2]).exponent Bls.toy) s ∧
    (4, PubPc.done (.ok (49 : Fr))) ∈ s.procs ∧ s.procs.length = 2 := by
  have r0 := PubReach.init (e := (Poly.mk [5, 3, 2]).exponent Bls.toy)
  have r1 := r0.step (.call _ 4)
  have r2 := r1.step (.call _ 4)
  have r3 := r2.step (.miss _ 0 4 rfl (by decide) rfl)
  have r4 := r3.step (.miss _ 1 4 rfl (by decide) rfl)
  have r5 := r4.step (.once _ 1 4 rfl)
  have r6 := r5.step (.once _ 0 4 rfl)
  have r7 := r6.step (.doFirst _ 1 4 rfl rfl)
  have r8 := r7.step (.run _ 1 4 (49 : Fr) rfl (by
    rw [compute_eq _ (by decide), ofCoefs_value]; show Except.ok (_ • (1 : Fr)) = Except.ok (49 : Fr)
    congr 1))
  have r9 := r8.step (.finish _ 1 4 rfl)
  have r10 := r9.step (.doDone _ 0 4 rfl rfl)
  have r11 := r10.step (.load _ 0 4 rfl)
  exact ⟨_, r11, List.mem_cons_self .., rfl⟩

/-- C28: interpolating from the shares of any set of more than `d` distinct indices (a Go map from index to value) gives the
secret, whatever the iteration orders of the loops. -/
theorem C28_reconstruct_secret (p : Poly) (hp : p.coefs ≠ []) (xy : GoMap Int Fr) (hn : GoMap.NodupKeys xy)
    (hI : ∀ e ∈ xy, IsInt e.1) (hv : ∀ e ∈ xy, e.2 = value p.coefs (frOfInt e.1)) (hmany : p.coefs.length ≤ xy.length)
    (outer : GoMap Int Fr) (inner : Int → List Int) (hout : outer.Perm xy)
    (hin : ∀ x, (inner x).Perm (xy.map Prod.fst)) :
    p.secret = .ok (reconstructSecret outer inner) := by
  rw [secret_ok hp, reconstructSecret_eq p outer inner (GoMap.nodup_perm hout.symm hn)]
  · intro e he; exact hI e (hout.mem_iff.1 he)
  · intro e he; rw [eval_value]; exact hv e (hout.mem_iff.1 he)
  · intro e _; exact (hin e.1).trans (hout.map _).symm
  · rw [hout.length_eq]; exact hmany

/-- Three shares of 5 + 3x + 2x², taken at indices 7, 2 and -1 (the last one wraps to 2^64-1). -/
example : ∃ xy : GoMap Int Fr, GoMap.NodupKeys xy ∧ (∀ e ∈ xy, IsInt e.1) ∧
    (∀ e ∈ xy, e.2 = value [5, 3, 2] (frOfInt e.1)) ∧ xy.length = 3 :=
  ⟨[(7, value [5, 3, 2] (frOfInt 7)), (2, value [5, 3, 2] (frOfInt 2)), (-1, value [5, 3, 2] (frOfInt (-1)))],
    by unfold GoMap.NodupKeys; simp, by simp [IsInt], by simp, rfl⟩

/-- The polynomials of degree at most `d` (as coefficient lists) that have the given secret and pass through the given shares. -/
def Consistent (d : Nat) (secret : Fr) (shares : List PolyShare) (coefs : List Fr) : Prop :=
  coefs.length = d + 1 ∧ value coefs 0 = secret ∧ ∀ s ∈ shares, value coefs (frOfInt s.index) = s.value

/-- C29: for exactly `d` shares there is exactly one consistent polynomial for every candidate secret. -/
theorem C29_exactly_one (d : Nat) (shares : List PolyShare) (hl : shares.length = d) (hn : (shares.map (·.index)).Nodup)
    (hnz : ∀ s ∈ shares, s.index ≠ 0) (hI : ∀ s ∈ shares, IsInt s.index) (secret : Fr) :
    ∃! coefs, Consistent d secret shares coefs := by
  obtain ⟨cs, h1, h2, h3⟩ := exists_consistent d shares hl.le hn hnz hI secret
  refine ⟨cs, ⟨h1, by rw [← ofCoefs_value]; exact h2, fun s hs => by rw [← ofCoefs_value]; exact h3 s hs⟩, ?_⟩
  rintro b ⟨b1, b2, b3⟩
  refine consistent_unique d shares hl hn hnz hI b cs b1 h1 ?_ ?_
  · rw [h2, ofCoefs_value]; exact b2
  · intro s hs; rw [h3 s hs, ofCoefs_value]; exact b3 s hs

/-- C29: for `d` or fewer shares every candidate secret is consistent with at least one polynomial, and any two candidate secrets
are consistent with equally many polynomials (the consistent sets are in bijection), so the shares give no information. -/
theorem C29_no_information (d : Nat) (shares : List PolyShare) (hl : shares.length ≤ d) (hn : (shares.map (·.index)).Nodup)
    (hnz : ∀ s ∈ shares, s.index ≠ 0) (hI : ∀ s ∈ shares, IsInt s.index) (secret secret' : Fr) :
    (∃ coefs, Consistent d secret shares coefs) ∧
    Nonempty ({coefs // Consistent d secret shares coefs} ≃ {coefs // Consistent d secret' shares coefs}) := by
  obtain ⟨cs, h1, h2, h3⟩ := exists_consistent d shares hl hn hnz hI secret
  refine ⟨⟨cs, h1, by rw [← ofCoefs_value]; exact h2, fun s hs => by rw [← ofCoefs_value]; exact h3 s hs⟩, ?_⟩
  obtain ⟨q, q1, q2, q3⟩ := exists_consistent d (shares.map fun s => { s with value := 0 }) (by simpa using hl)
    (by rw [List.map_map]; exact hn) (by simpa using hnz) (by simpa using hI) (secret' - secret)
  have q3' : ∀ s ∈ shares, (ofCoefs q).eval (frOfInt s.index) = 0 := by
    intro s hs
    exact q3 { s with value := 0 } (List.mem_map.2 ⟨s, hs, rfl⟩)
  refine ⟨⟨fun c => ⟨List.zipWith (· + ·) c.1 q, ?_⟩, fun c => ⟨List.zipWith (· + ·) c.1 (q.map Neg.neg), ?_⟩, ?_, ?_⟩⟩
  · obtain ⟨c1, c2, c3⟩ := c.2
    refine ⟨by simp [c1, q1], ?_, ?_⟩
    · rw [← ofCoefs_value] at c2 ⊢
      rw [ofCoefs_zipWith _ _ (c1.trans q1.symm), Polynomial.eval_add, c2, q2]; ring
    · intro s hs
      have := c3 s hs
      rw [← ofCoefs_value] at this ⊢
      rw [ofCoefs_zipWith _ _ (c1.trans q1.symm), Polynomial.eval_add, this, q3' s hs]; ring
  · obtain ⟨c1, c2, c3⟩ := c.2
    refine ⟨by simp [c1, q1], ?_, ?_⟩
    · rw [← ofCoefs_value] at c2 ⊢
      rw [ofCoefs_zipWith _ _ (by simp [c1, q1]), ofCoefs_neg, Polynomial.eval_add, Polynomial.eval_neg, c2, q2]; ring
    · intro s hs
      have := c3 s hs
      rw [← ofCoefs_value] at this ⊢
      rw [ofCoefs_zipWith _ _ (by simp [c1, q1]), ofCoefs_neg, Polynomial.eval_add, Polynomial.eval_neg, this, q3' s hs]; ring
  · intro c
    obtain ⟨c1, _, _⟩ := c.2
    refine Subtype.ext (ofCoefs_inj (by simp [c1, q1]) ?_)
    simp only
    rw [ofCoefs_zipWith _ _ (by simp [c1, q1]), ofCoefs_zipWith _ _ (by simp [c1, q1]), ofCoefs_neg]; ring
  · intro c
    obtain ⟨c1, _, _⟩ := c.2
    refine Subtype.ext (ofCoefs_inj (by simp [c1, q1]) ?_)
    simp only
    rw [ofCoefs_zipWith _ _ (by simp [c1, q1]), ofCoefs_zipWith _ _ (by simp [c1, q1]), ofCoefs_neg]; ring

/-- Two shares of a degree-2 polynomial. -/
example : ([⟨1, 10⟩, ⟨3, 12⟩] : List PolyShare).length = 2 ∧ (([⟨1, 10⟩, ⟨3, 12⟩] : List PolyShare).map (·.index)).Nodup ∧
    (∀ s ∈ ([⟨1, 10⟩, ⟨3, 12⟩] : List PolyShare), s.index ≠ 0 ∧ IsInt s.index) := by
  refine ⟨rfl, by decide, by simp [IsInt]⟩

/-- C38, polynomials: Marshal/SetBytes round-trips; SetBytes accepts only inputs of the announced length. -/
theorem C38_poly (p : Poly) (h : p.coefs.length < 2 ^ 32) (b : Bytes) :
    Poly.setBytes p.marshal = .ok p ∧ p.marshal.length = 4 + 32 * p.coefs.length ∧
    (b.length < 4 ∨ b.length ≠ 4 + 32 * beNat (b.take 4) → ∃ m, Poly.setBytes b = .error (.err .unknown m)) := by
  refine ⟨poly_roundtrip p h, ?_, ?_⟩
  · simp [Poly.marshal, flatMap_length _ _ _ scalarBytes_length]; omega
  · intro hb
    unfold Poly.setBytes
    by_cases h4 : b.length < 4
    · rw [if_pos h4]; exact ⟨_, rfl⟩
    · rw [if_neg h4]
      simp only
      rw [if_pos (by rcases hb with hb | hb <;> simp only [scalarSize] <;> omega)]
      exact ⟨_, rfl⟩

/-- C38, exponent polynomials. -/
theorem C38_exponent_poly (B : Bls) (e : ExponentPoly B) (h : e.coefs.length < 2 ^ 32) (b : Bytes) :
    ExponentPoly.setBytes B e.marshal = .ok e ∧ e.marshal.length = 4 + 96 * e.coefs.length ∧
    (b.length < 4 ∨ b.length ≠ 4 + 96 * beNat (b.take 4) → ∃ m, ExponentPoly.setBytes B b = .error (.err .unknown m)) := by
  refine ⟨exponent_roundtrip e h, ?_, ?_⟩
  · simp [ExponentPoly.marshal, flatMap_length _ _ _ B.g1Bytes_len, g1Size]; omega
  · intro hb
    unfold ExponentPoly.setBytes
    by_cases h4 : b.length < 4
    · rw [if_pos h4]; exact ⟨_, rfl⟩
    · rw [if_neg h4]
      simp only
      rw [if_pos (by rcases hb with hb | hb <;> simp only [g1Size] <;> omega)]
      exact ⟨_, rfl⟩

/-- C38, shares: round-trip for indices below 2^32; inputs shorter than 36 bytes are rejected. -/
theorem C38_share (s : PolyShare) (h0 : 0 ≤ s.index) (h : s.index < 2 ^ 32) (b : Bytes) :
    PolyShare.setBytes s.marshal = .ok s ∧ s.marshal.length = 36 ∧
    (b.length < 36 → ∃ m, PolyShare.setBytes b = .error (.err .unknown m)) := by
  refine ⟨share_roundtrip s h0 h, by simp [PolyShare.marshal], ?_⟩
  intro hb
  unfold PolyShare.setBytes
  rw [if_pos (by simpa [scalarSize] using hb)]
  exact ⟨_, rfl⟩

/-- C38, public keys: round-trip for indices below 2^32; inputs shorter than the 4-byte header and one (compressed) group element
are rejected. -/
theorem C38_public_key (B : Bls) (k : PublicKey B) (h0 : 0 ≤ k.index) (h : k.index < 2 ^ 32) (b : Bytes) :
    PublicKey.setBytes B k.marshal = .ok k ∧ k.marshal.length = 100 ∧
    (b.length < 4 + 48 → ∃ m, PublicKey.setBytes B b = .error (.err .unknown m)) := by
  refine ⟨publicKey_roundtrip k h0 h, by simp [PublicKey.marshal, B.g1Bytes_len, g1Size], ?_⟩
  intro hb
  unfold PublicKey.setBytes
  by_cases h4 : b.length < 4
  · rw [if_pos h4]; exact ⟨_, rfl⟩
  · rw [if_neg h4]
    obtain ⟨m, hm⟩ := B.g1SetBytes_short (b.drop 4) (by rw [List.length_drop]; unfold g1SizeCompressed; omega)
    rw [hm]; exact ⟨m, rfl⟩

/-- C38, master public keys (`MasterPublicKey.Bytes/SetBytes` and the copy made by `GetMasterPublicKey`). -/
theorem C38_master_public_key (B : Bls) (n : Node B) :
    B.g1SetBytes (B.g1Bytes n.pk) = .ok n.pk ∧ n.masterPublicKey = .ok n.pk :=
  ⟨B.g1SetBytes_bytes _, B.g1SetBytes_bytes _⟩

example : (Poly.mk [5, 3, 2]).marshal.length = 100 ∧ (PolyShare.mk 7 3).marshal.take 4 = [0, 0, 0, 7] := ⟨rfl, rfl⟩

end Resmix.Tibe
