import Mathlib.Algebra.Module.LinearMap.End
import Mathlib.Algebra.Algebra.Bilinear
import Verif.Proofs.Poly
set_option autoImplicit false
namespace Resmix

theorem beNat_append (a b : Bytes) : beNat (a ++ b) = beNat a * 256 ^ b.length + beNat b := by
  induction b using List.reverseRecOn with
  | nil => simp [beNat]
  | append_singleton b x ih =>
    rw [← List.append_assoc]
    have h1 : ∀ l : Bytes, beNat (l ++ [x]) = beNat l * 256 + x.toNat := by intro l; simp [beNat, List.foldl_append]
    rw [h1, h1, ih]
    simp [pow_succ]; ring

theorem beBytes_length (k n : Nat) : (beBytes k n).length = k := by
  induction k generalizing n with
  | zero => rfl
  | succ k ih => simp [beBytes, ih]

theorem beNat_beBytes (k n : Nat) : beNat (beBytes k n) = n % 256 ^ k := by
  induction k generalizing n with
  | zero => simp [beBytes, beNat, Nat.mod_one]
  | succ k ih =>
    rw [beBytes, beNat_append, ih]
    simp only [List.length_cons, List.length_nil, zero_add, pow_one]
    have : beNat [UInt8.ofNat n] = n % 256 := by simp [beNat]
    rw [this, pow_succ, Nat.mul_comm (256 ^ k) 256, Nat.mod_mul]
    omega

theorem be32_eq (n : Nat) : be32 n = beBytes 4 n := by
  simp [be32, beBytes, Nat.div_div_eq_div_mul]

@[simp] theorem be32_length (n : Nat) : (be32 n).length = 4 := rfl

theorem beNat_be32 (n : Nat) : beNat (be32 n) = n % 2 ^ 32 := by
  rw [be32_eq, beNat_beBytes]; norm_num

@[simp] theorem scalarBytes_length (s : Fr) : (scalarBytes s).length = 32 := beBytes_length _ _

theorem fr_val_lt (s : Fr) : s.val < blsOrder := ZMod.val_lt s

theorem blsOrder_lt : blsOrder < 256 ^ 32 := by decide +kernel

theorem beNat_scalarBytes (s : Fr) : beNat (scalarBytes s) = s.val := by
  unfold scalarBytes scalarSize
  rw [beNat_beBytes, Nat.mod_eq_of_lt ((fr_val_lt s).trans blsOrder_lt)]

theorem scalarSetBytes_bytes (s : Fr) : scalarSetBytes (scalarBytes s) = s := by
  unfold scalarSetBytes
  rw [beNat_scalarBytes, ZMod.natCast_zmod_val]

theorem scalarUnmarshal_bytes (s : Fr) : scalarUnmarshal (scalarBytes s) = .ok s := by
  unfold scalarUnmarshal
  rw [if_neg (by simp [scalarSize]), beNat_scalarBytes, if_neg (by have := fr_val_lt s; omega), scalarSetBytes_bytes]

theorem scalarUnmarshal_short {b : Bytes} (h : b.length < 32) : scalarUnmarshal b = .error (.err .unknown "incorrect input length") := by
  unfold scalarUnmarshal; simp [scalarSize, h]

/-- A concrete instance of the library contracts: all groups are the scalar field. It shows that the contracts are consistent
and serves for examples. -/
def Bls.toy : Bls where
  G1 := Fr
  G2 := Fr
  GT := Fr
  gen1 := 1
  pair := LinearMap.mul Fr Fr
  gen1_inj := by intro a h; simpa using h
  nondeg := by intro s h; simpa using h
  hashG2 := fun b => ((beNat b + 1 : Nat) : Fr)
  hashGt := fun x => scalarBytes x
  hashGt_len := fun x => scalarBytes_length x
  mac := fun d k => beBytes 32 (beNat d + beNat k)
  mac_len := fun d k => beBytes_length _ _
  aes := fun k b => (beBytes 16 (beNat k + beNat b + 1)).reverse
  aes_len := fun k b => by rw [List.length_reverse]; exact beBytes_length _ _
  g1Bytes := fun x => beBytes 96 x.val
  g1Bytes_len := fun x => beBytes_length _ _
  g1SetBytes := fun b => if b.length < 48 then .error (.err .unknown "short") else .ok ((beNat b : Nat) : Fr)
  g1SetBytes_bytes := by
    intro x
    simp only [beBytes_length, beNat_beBytes]
    rw [Nat.mod_eq_of_lt ((fr_val_lt x).trans (by decide +kernel)), ZMod.natCast_zmod_val]; rfl
  g1SetBytes_short := by
    intro b h
    exact ⟨"short", if_pos h⟩
  g1SetBytes_fail := by
    intro b e h
    split at h
    · injection h with h; exact ⟨_, h.symm⟩
    · cases h

namespace Tibe

/-! CFB and AES -/

theorem xor_self_cancel (a b : Bytes) (h : a.length ≤ b.length) : xorBytes (xorBytes a b) b = a := by
  induction a generalizing b with
  | nil => simp [xorBytes]
  | cons x a ih =>
    cases b with
    | nil => simp at h
    | cons y b =>
      simp only [xorBytes, List.zipWith_cons_cons, List.cons.injEq]
      refine ⟨?_, ih b (by simpa using h)⟩
      rw [UInt8.xor_assoc, UInt8.xor_self, UInt8.xor_zero]

theorem xor_length (a b : Bytes) : (xorBytes a b).length = min a.length b.length := by simp [xorBytes]

theorem cfb_length (aes : Bytes → Bytes → Bytes) (hl : ∀ k b, (aes k b).length = blockSize) (k : Bytes) (f : Nat) (prev p : Bytes)
    (hf : p.length ≤ f) : (cfbEncrypt aes k f prev p).length = p.length := by
  induction f generalizing prev p with
  | zero => simp [cfbEncrypt, List.length_eq_zero_iff.1 (Nat.le_zero.1 hf)]
  | succ f ih =>
    unfold cfbEncrypt
    split
    · next h => simp [h]
    · next h =>
      have hp : 0 < p.length := List.length_pos_iff.2 h
      simp only [List.length_append, xor_length, hl, List.length_take]
      rw [ih _ _ (by simp [blockSize]; omega)]
      simp only [blockSize, List.length_drop]
      omega

theorem cfb_roundtrip (aes : Bytes → Bytes → Bytes) (hl : ∀ k b, (aes k b).length = blockSize) (k : Bytes) (f : Nat) (prev p : Bytes)
    (hf : p.length ≤ f) : cfbDecrypt aes k f prev (cfbEncrypt aes k f prev p) = p := by
  induction f generalizing prev p with
  | zero => simp [cfbDecrypt, List.length_eq_zero_iff.1 (Nat.le_zero.1 hf)]
  | succ f ih =>
    unfold cfbEncrypt
    split
    · next h => simp [h, cfbDecrypt]
    · next h =>
      have hp : 0 < p.length := List.length_pos_iff.2 h
      simp only
      generalize hc : xorBytes (p.take blockSize) (aes k prev) = c
      generalize hr : cfbEncrypt aes k f c (p.drop blockSize) = rest
      have hlc : c.length = min blockSize p.length := by rw [← hc, xor_length, hl]; simp [List.length_take]
      have hrl : rest.length = p.length - blockSize := by
        rw [← hr, cfb_length aes hl _ _ _ _ (by simp [blockSize]; omega)]; simp
      have hbp : 0 < blockSize := by decide
      have htake : (c ++ rest).take blockSize = c := by
        by_cases hle : p.length ≤ blockSize
        · have : rest = [] := List.length_eq_zero_iff.1 (by omega)
          rw [this, List.append_nil, List.take_of_length_le (by omega)]
        · rw [List.take_append_of_le_length (by omega), List.take_of_length_le (by omega)]
      have hdrop : (c ++ rest).drop blockSize = rest := by
        by_cases hle : p.length ≤ blockSize
        · have : rest = [] := List.length_eq_zero_iff.1 (by omega)
          rw [this, List.append_nil, List.drop_eq_nil_of_le (by omega)]
        · have : c.length = blockSize := by omega
          rw [← this, List.drop_left]
      unfold cfbDecrypt
      rw [if_neg (by intro h0; have := congrArg List.length h0; simp at this; rw [this.1] at hlc; simp at hlc; omega)]
      simp only
      rw [htake, hdrop, ← hr, ih _ _ (by simp [blockSize]; omega), ← hc, xor_self_cancel _ _ (by rw [hl, List.length_take]; omega)]
      exact List.take_append_drop _ _

variable {B : Bls}

theorem hashGt_keyOk (x : B.GT) : aesKeyOk (B.hashGt x) = true := by simp [aesKeyOk, B.hashGt_len]

theorem aesEncrypt_ok (iv k msg : Bytes) (hk : aesKeyOk k = true) :
    aesEncrypt B iv k msg = .ok (iv ++ cfbEncrypt B.aes k msg.length iv msg) := by
  unfold aesEncrypt; simp [hk]

theorem aesDecrypt_encrypt (iv k msg ct : Bytes) (hiv : iv.length = blockSize) (h : aesEncrypt B iv k msg = .ok ct) :
    aesDecrypt B k ct = (.ok msg, iv ++ msg) := by
  unfold aesEncrypt at h
  split at h
  · next hk =>
    injection h with h
    subst h
    unfold aesDecrypt
    rw [if_pos hk, if_neg (by simp [hiv])]
    have ht : (iv ++ cfbEncrypt B.aes k msg.length iv msg).take blockSize = iv := by rw [← hiv, List.take_left]
    have hd : (iv ++ cfbEncrypt B.aes k msg.length iv msg).drop blockSize = cfbEncrypt B.aes k msg.length iv msg := by
      rw [← hiv, List.drop_left]
    have hl := cfb_length B.aes B.aes_len k msg.length iv msg le_rfl
    simp only [ht, hd, hl, cfb_roundtrip B.aes B.aes_len k msg.length iv msg le_rfl]
  · cases h

end Tibe
end Resmix
