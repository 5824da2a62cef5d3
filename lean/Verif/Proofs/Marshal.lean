import Verif.Proofs.Ibe
set_option autoImplicit false
namespace Resmix.Tibe
variable {B : Bls}

theorem flatMap_length {α : Type} (l : List α) (f : α → Bytes) (n : Nat) (h : ∀ a, (f a).length = n) :
    (l.flatMap f).length = l.length * n := by
  induction l with
  | nil => simp
  | cons a l ih => simp [ih, h, Nat.succ_mul]; omega

theorem readScalars_flatMap (l : List Fr) (rest : Bytes) : Poly.readScalars l.length (l.flatMap scalarBytes ++ rest) = l := by
  induction l with
  | nil => rfl
  | cons a l ih =>
    have h32 : (scalarBytes a).length = scalarSize := scalarBytes_length a
    rw [List.length_cons, Poly.readScalars, List.flatMap_cons, List.append_assoc, ← h32, List.take_left, List.drop_left, ih,
      scalarSetBytes_bytes]

theorem readG1s_flatMap (l : List B.G1) (rest : Bytes) :
    ExponentPoly.readG1s B l.length (l.flatMap B.g1Bytes ++ rest) = .ok l := by
  induction l with
  | nil => rfl
  | cons a l ih =>
    rw [List.length_cons, ExponentPoly.readG1s, List.flatMap_cons, List.append_assoc, ← B.g1Bytes_len a, List.take_left,
      List.drop_left, ih, B.g1SetBytes_bytes]
    rfl

theorem take4_be32 (n : Nat) (h : n < 2 ^ 32) (rest : Bytes) : beNat ((be32 n ++ rest).take 4) = n := by
  rw [show (be32 n ++ rest).take 4 = be32 n from rfl, beNat_be32, Nat.mod_eq_of_lt h]

theorem drop4_be32 (n : Nat) (rest : Bytes) : (be32 n ++ rest).drop 4 = rest := rfl

theorem poly_roundtrip (p : Poly) (h : p.coefs.length < 2 ^ 32) : Poly.setBytes p.marshal = .ok p := by
  unfold Poly.setBytes Poly.marshal
  rw [if_neg (by simp), take4_be32 _ h, drop4_be32]
  have hr := readScalars_flatMap p.coefs []
  rw [List.append_nil] at hr
  simp only [hr]
  rw [if_neg (by simp [flatMap_length _ _ _ scalarBytes_length, scalarSize])]

theorem exponent_roundtrip (e : ExponentPoly B) (h : e.coefs.length < 2 ^ 32) : ExponentPoly.setBytes B e.marshal = .ok e := by
  unfold ExponentPoly.setBytes ExponentPoly.marshal
  rw [if_neg (by simp), take4_be32 _ h, drop4_be32]
  have hr := readG1s_flatMap e.coefs []
  rw [List.append_nil] at hr
  simp only [hr]
  rw [if_neg (by simp [flatMap_length _ _ _ B.g1Bytes_len])]
  rfl

theorem u64_ofNat {i : Int} (h0 : 0 ≤ i) (h : i < 2 ^ 32) : u64 i = i.toNat := by unfold u64; omega

theorem share_roundtrip (s : PolyShare) (h0 : 0 ≤ s.index) (h : s.index < 2 ^ 32) : PolyShare.setBytes s.marshal = .ok s := by
  unfold PolyShare.setBytes PolyShare.marshal
  rw [if_neg (by simp [scalarSize]), take4_be32 _ (by rw [u64_ofNat h0 h]; omega), drop4_be32, scalarUnmarshal_bytes, u64_ofNat h0 h]
  obtain ⟨i, v⟩ := s
  simp only [bind, Except.bind]
  simp only at h0
  rw [Int.toNat_of_nonneg h0]

theorem publicKey_roundtrip (k : PublicKey B) (h0 : 0 ≤ k.index) (h : k.index < 2 ^ 32) :
    PublicKey.setBytes B k.marshal = .ok k := by
  unfold PublicKey.setBytes PublicKey.marshal
  rw [if_neg (by simp), take4_be32 _ (by rw [u64_ofNat h0 h]; omega), drop4_be32, B.g1SetBytes_bytes, u64_ofNat h0 h]
  obtain ⟨i, v⟩ := k
  simp only [bind, Except.bind]
  simp only at h0
  rw [Int.toNat_of_nonneg h0]

theorem readScalars_length (n : Nat) (b : Bytes) : (Poly.readScalars n b).length = n := by
  induction n generalizing b with
  | zero => rfl
  | succ n ih => simp [Poly.readScalars, ih]

end Resmix.Tibe
