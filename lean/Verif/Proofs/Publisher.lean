import Verif.Proofs.Ibe
import Verif.Proofs.Topology
set_option autoImplicit false
namespace Resmix.Tibe
variable {B : Bls}

theorem collectKeys_map (t : Nat) (ks : List (PublicKey B)) (hn : ((ks.take t).map (·.index)).Nodup) :
    (collectKeys t ks).1.Perm ((ks.take t).map fun k => (k.index, k.key)) := by
  unfold collectKeys
  simp only
  rw [Topology.foldl_insert_fresh (ks.take t) (fun k => k.index) (fun k => k.key) [] hn (by simp)]
  simp only [List.append_nil]
  exact List.reverse_perm _

theorem computeShared_sum (t : Nat) (order : GoMap Int B.G1) (idx : List Int) (hl : idx.length = t) (hn : idx.Nodup) :
    computeSharedPubkey t order idx = .ok (order.map fun e => lagrangeMult idx e.1 • e.2).sum := by
  unfold computeSharedPubkey
  rw [foldlM_ok _ _ (fun s e => s + lagrangeMult idx e.1 • e.2)]
  · rw [foldl_add_map]; simp
  · rintro ⟨i, pk⟩ _ b
    have := newLagrange_ok hn i
    rw [hl] at this
    simp only [this]; rfl

theorem computeShared_err (t : Nat) (order : GoMap Int B.G1) (idx : List Int) (h : idx.dedup.length < t) (ho : order ≠ []) :
    computeSharedPubkey t order idx = .error (.err .unknown "missing points") := by
  unfold computeSharedPubkey
  cases order with
  | nil => exact absurd rfl ho
  | cons e l =>
    obtain ⟨i, pk⟩ := e
    rw [List.foldlM_cons]
    simp only [newLagrange_err h]; rfl

theorem lagrangeMult_zero {l : List Int} (h : 0 ∈ l) {i : Int} (hi : i ≠ 0) : lagrangeMult l i = 0 := by
  rw [lagrangeMult_eq]
  have : ((l.filter (· ≠ i)).map frOfInt).prod = 0 := by
    rw [List.prod_eq_zero_iff, List.mem_map]
    exact ⟨0, by simp [h, hi.symm], frOfInt_zero⟩
  rw [this, zero_mul]

/-- With at least `t` keys of distinct indices, all `P(i) • g`, the shared key is `P(0) • g`. -/
theorem newPublisher_correct (t : Nat) (priv : PolyShare) (ks : List (PublicKey B)) (ht : t ≤ ks.length)
    (hn : ((ks.take t).map (·.index)).Nodup) (hI : ∀ k ∈ ks.take t, IsInt k.index)
    (P : Poly) (hP : P.coefs.length ≤ t) (hk : ∀ k ∈ ks.take t, k.key = P.eval k.index • B.gen1)
    (hidx : 1 ≤ priv.index ∧ priv.index ≤ ks.length) (res : Go (Player B)) (hres : NewPublisher t priv ks res) :
    ∃ pl, res = .ok pl ∧ pl.t = t ∧ pl.index = priv.index ∧ pl.secretKey = priv.value ∧ pl.publicKeys = ks ∧
      pl.sharedPublicKey = P.eval 0 • B.gen1 := by
  obtain ⟨order, ho, rfl⟩ := hres
  have hperm := ho.trans (collectKeys_map t ks hn)
  have hlen : ((ks.take t).map (·.index)).length = t := by simp [ht]
  have hidxs : (collectKeys t ks).2 = (ks.take t).map (·.index) := by
    unfold collectKeys; simp [ht]
  have hsum : computeSharedPubkey t order (collectKeys t ks).2 = .ok (P.eval 0 • B.gen1) := by
    rw [hidxs, computeShared_sum t order _ hlen hn]
    congr 1
    rw [(hperm.map _).sum_eq, List.map_map]
    have h1 : (ks.take t).map ((fun e : Int × B.G1 => lagrangeMult ((ks.take t).map (·.index)) e.1 • e.2) ∘ fun k => (k.index, k.key)) =
        (ks.take t).map (fun k => (lagrangeMult ((ks.take t).map (·.index)) k.index * P.eval k.index) • B.gen1) := by
      refine List.map_congr_left fun k hk' => ?_
      simp only [Function.comp]
      rw [hk k hk', smul_smul]
    rw [h1, list_sum_smul]
    congr 1
    have := lagrange_sum ((ks.take t).map (·.index)) hn
      (by intro i hi; rw [List.mem_map] at hi; obtain ⟨v, hv, rfl⟩ := hi; exact hI v hv) (ofCoefs P.coefs)
      ((degree_ofCoefs _).trans_le (by rw [hlen]; exact_mod_cast hP))
    rw [eval_poly, frOfInt_zero, ← this, List.map_map]
    congr 1
    refine List.map_congr_left fun v _ => ?_
    simp [eval_poly]
  have hget : ∃ own, goIndexInt ks (priv.index - 1) = .ok own := by
    unfold goIndexInt goIndex
    rw [if_neg (by omega)]
    have : (priv.index - 1).toNat < ks.length := by omega
    rw [List.getElem?_eq_getElem this]
    exact ⟨_, rfl⟩
  obtain ⟨own, hown⟩ := hget
  unfold newPublisher
  rw [hsum, hown]
  exact ⟨_, rfl, rfl, rfl, rfl, rfl, rfl⟩

theorem verify_eq (pl : Player B) (v : Vote B) (P : Poly) (k : PublicKey B)
    (hk : pl.publicKeys[(v.index - 1).toNat]? = some k) (h1 : 1 ≤ v.index) (hkey : k.key = P.eval v.index • B.gen1) :
    pl.verify v = .ok (decide (v.sig = P.eval v.index • B.hashG2 v.id)) := by
  unfold Player.verify goIndexInt goIndex
  rw [if_neg (by omega), hk]
  simp only [bind, Except.bind]
  congr 1
  rw [hkey, Bool.eq_iff_iff, valid_iff, decide_eq_true_iff]

theorem reveal_hide (t : Nat) (P : Poly) (hP : P.coefs.length ≤ t) (a b : Player B)
    (ha : a.sharedPublicKey = P.eval 0 • B.gen1) (hb : b.t = t) (r : Fr) (iv id msg : Bytes) (hiv : iv.length = blockSize)
    (votes : List (Vote B)) (hlen : t ≤ votes.length) (hn : ((votes.take t).map (·.index)).Nodup)
    (hI : ∀ v ∈ votes.take t, IsInt v.index) (hs : ∀ v ∈ votes.take t, v.sig = P.eval v.index • B.hashG2 id) :
    ∃ s, a.hide r iv id msg = .ok s ∧ b.reveal votes s = (.ok msg, { s with encrypted := iv ++ msg }) := by
  have hct : ∃ ct, aesEncrypt B iv (B.hashGt (B.pair (r • a.sharedPublicKey) (B.hashG2 id))) msg = .ok ct :=
    ⟨_, aesEncrypt_ok _ _ _ (hashGt_keyOk _)⟩
  obtain ⟨ct, hct⟩ := hct
  refine ⟨{ id := id, hidingValue := r • B.gen1, encrypted := ct }, ?_, ?_⟩
  · unfold Player.hide
    simp only
    rw [hct]; rfl
  · unfold Player.reveal
    rw [hb, reconstructKey_correct hlen hn hI P hP (B.hashG2 id) hs]
    simp only
    rw [pair_swap]
    rw [ha] at hct
    rw [aesDecrypt_encrypt iv _ msg ct hiv hct]

end Resmix.Tibe
