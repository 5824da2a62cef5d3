import Mathlib.Algebra.Module.LinearMap.Basic
import Mathlib.Algebra.Module.LinearMap.Defs
import Verif.Model.Fr
set_option autoImplicit false
/-
The library primitives used by internal/crypto/tibe: the pairing groups of circl/ecc/bls12381, hash to G2, SHA-512/256 of a GT
element, HMAC-SHA256, the AES block function. They are parameters of the model, constrained only by the listed laws, which are
the documented contracts of the libraries. `Bls.toy` (Proofs/Bls) shows that the laws are consistent.
-/
namespace Resmix

/-- `Scalar.SetUint64(uint64(i))` for a Go int `i` (tibe/poly.go:102, 261, 268, 291, 299): conversion to uint64 wraps negative
numbers around. -/
def u64 (i : Int) : Nat := (i % 2^64).toNat

/-- The scalar a Go int is turned into. -/
def frOfInt (i : Int) : Fr := ((u64 i : Nat) : Fr)

/-- The range of the Go type `int` (64-bit platforms). -/
def IsInt (i : Int) : Prop := -2^63 ≤ i ∧ i < 2^63

/-- circl bls12381.ScalarSize. -/
def scalarSize : Nat := 32
/-- circl bls12381.G1Size (uncompressed encoding). -/
def g1Size : Nat := 96
/-- circl bls12381.G1SizeCompressed: `G1.SetBytes` also accepts this form. -/
def g1SizeCompressed : Nat := 48
/-- tibe/util.go:11. -/
def macSize : Nat := 32
/-- crypto/aes BlockSize. -/
def blockSize : Nat := 16

/-- Primitives used by internal/crypto/tibe, and their contracts. Groups are written additively; `ScalarMult(s, P)` is `s • P`.
-/
structure Bls where
  G1 : Type
  G2 : Type
  GT : Type
  [grp1 : AddCommGroup G1]
  [mod1 : Module Fr G1]
  [dec1 : DecidableEq G1]
  [grp2 : AddCommGroup G2]
  [mod2 : Module Fr G2]
  [dec2 : DecidableEq G2]
  [grpT : AddCommGroup GT]
  [modT : Module Fr GT]
  [decT : DecidableEq GT]
  /-- bls12381.G1Generator() -/
  gen1 : G1
  /-- bls12381.Pair -/
  pair : G1 →ₗ[Fr] G2 →ₗ[Fr] GT
  /-- the generator has prime order -/
  gen1_inj : ∀ a : Fr, a • gen1 = 0 → a = 0
  /-- the pairing is non-degenerate -/
  nondeg : ∀ s : G2, pair gen1 s = 0 → s = 0
  /-- tibe/util.go:39-44 g2Hash (`G2.Hash(id, "g2hash")`) -/
  hashG2 : Bytes → G2
  /-- tibe/util.go:28-37 hashGt (SHA-512/256 of the encoding of a GT element) -/
  hashGt : GT → Bytes
  hashGt_len : ∀ x, (hashGt x).length = 32
  /-- tibe/util.go:13-17 mac (HMAC-SHA256): data, secret -/
  mac : Bytes → Bytes → Bytes
  mac_len : ∀ d k, (mac d k).length = macSize
  /-- the AES block function: key, block (crypto/aes) -/
  aes : Bytes → Bytes → Bytes
  aes_len : ∀ k b, (aes k b).length = blockSize
  /-- G1.Bytes (uncompressed encoding) -/
  g1Bytes : G1 → Bytes
  g1Bytes_len : ∀ x, (g1Bytes x).length = g1Size
  /-- G1.SetBytes -/
  g1SetBytes : Bytes → Go G1
  g1SetBytes_bytes : ∀ x, g1SetBytes (g1Bytes x) = .ok x
  g1SetBytes_short : ∀ b, b.length < g1SizeCompressed → ∃ m, g1SetBytes b = .error (.err .unknown m)
  g1SetBytes_fail : ∀ b e, g1SetBytes b = .error e → ∃ m, e = .err .unknown m

attribute [instance] Bls.grp1 Bls.mod1 Bls.dec1 Bls.grp2 Bls.mod2 Bls.dec2 Bls.grpT Bls.modT Bls.decT

/-- Big-endian encoding of `n` in `k` bytes. -/
def beBytes : Nat → Nat → Bytes
  | 0, _ => []
  | k + 1, n => beBytes k (n / 256) ++ [UInt8.ofNat n]

/-- circl `Scalar.MarshalBinary` (never fails): 32 bytes, big-endian. -/
def scalarBytes (s : Fr) : Bytes := beBytes scalarSize s.val

/-- circl `Scalar.SetBytes`: big-endian number reduced modulo the order. -/
def scalarSetBytes (b : Bytes) : Fr := ((beNat b : Nat) : Fr)

/-- circl `Scalar.UnmarshalBinary`: error for fewer than 32 bytes or a number not below the order (the whole input is compared
with the order, so longer inputs are accepted only if the leading bytes are zero); otherwise as SetBytes. Simplification: the
error text is fixed. -/
def scalarUnmarshal (b : Bytes) : Go Fr :=
  if b.length < scalarSize then .error (.err .unknown "incorrect input length")
  else if blsOrder ≤ beNat b then .error (.err .unknown "value out of range")
  else .ok (scalarSetBytes b)

end Resmix
