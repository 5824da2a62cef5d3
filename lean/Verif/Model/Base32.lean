import Verif.Model.Merkle
import Verif.Model.Strings
set_option autoImplicit false
/-
internal/crypto/util.go:57-84: digests as strings. encoding/base32 (Go library) is modelled after its documented algorithm
(RFC 4648 without padding): shifts and masks are written as arithmetic on natural numbers. Not modelled: the byte 0xFF, which the
library confuses with padding.
-/
namespace Resmix.Merkle

/-- The standard alphabet A-Z, 2-7. -/
def b32Char (v : Nat) : UInt8 := if v < 26 then UInt8.ofNat (65 + v) else UInt8.ofNat (24 + v)

/-- The inverse of the alphabet (the library's decodeMap). -/
def b32Val (c : UInt8) : Option Nat :=
  if 65 ≤ c.toNat ∧ c.toNat ≤ 90 then some (c.toNat - 65)
  else if 50 ≤ c.toNat ∧ c.toNat ≤ 55 then some (c.toNat - 24)
  else none

/-- encoding/base32 `Encode` without padding: the 5-bit groups. -/
def b32Groups : List Nat → List Nat
  | a :: b :: c :: d :: e :: rest =>
    [a / 8, a % 8 * 4 + b / 64, b / 2 % 32, b % 2 * 16 + c / 16, c % 16 * 2 + d / 128, d / 4 % 32, d % 4 * 8 + e / 32, e % 32] ++ b32Groups rest
  | [a, b, c, d] => [a / 8, a % 8 * 4 + b / 64, b / 2 % 32, b % 2 * 16 + c / 16, c % 16 * 2 + d / 128, d / 4 % 32, d % 4 * 8]
  | [a, b, c] => [a / 8, a % 8 * 4 + b / 64, b / 2 % 32, b % 2 * 16 + c / 16, c % 16 * 2]
  | [a, b] => [a / 8, a % 8 * 4 + b / 64, b / 2 % 32, b % 2 * 16]
  | [a] => [a / 8, a % 8 * 4]
  | [] => []

/-- encoding/base32 `decode` without padding: the bytes of the 5-bit groups (surplus groups and bits at the end are dropped; bytes are
truncated to 8 bits as by the shifts of the library). -/
def b32Bytes : List Nat → List Nat
  | a :: b :: c :: d :: e :: f :: g :: h :: rest =>
    [a * 8 % 256 + b / 4, b * 64 % 256 + c * 2 + d / 16, d * 16 % 256 + e / 2, e * 128 % 256 + f * 4 + g / 8, g * 32 % 256 + h] ++ b32Bytes rest
  | [a, b, c, d, e, f, g] => [a * 8 % 256 + b / 4, b * 64 % 256 + c * 2 + d / 16, d * 16 % 256 + e / 2, e * 128 % 256 + f * 4 + g / 8]
  | [a, b, c, d, e] => [a * 8 % 256 + b / 4, b * 64 % 256 + c * 2 + d / 16, d * 16 % 256 + e / 2]
  | [a, b, c, d] => [a * 8 % 256 + b / 4, b * 64 % 256 + c * 2 + d / 16]
  | [a, b] => [a * 8 % 256 + b / 4]
  | [_, _, _, _, _, _] => []
  | [_, _, _] => []
  | [_] => []
  | [] => []

/-- internal/crypto/util.go:58-60 `Digest.String`. -/
def digestString (d : Digest) : Str := (b32Groups (d.1.map UInt8.toNat)).map b32Char

/-- encoding/base32 `DecodeString`: newlines are dropped, other characters outside the alphabet are an error. -/
def b32Decode (s : Str) : Go Bytes :=
  match (s.filter fun c => c ≠ 10 ∧ c ≠ 13).mapM b32Val with
  | none => .error (.err .unknown "illegal base32 data")
  | some vs => .ok ((b32Bytes vs).map UInt8.ofNat)

/-- internal/crypto/util.go:73-84 `DigestFromString`. -/
def digestFromString (s : Str) : Go Digest := do
  let b ← b32Decode s
  if h : b.length = 32 then .ok ⟨b, h⟩ else .error (.err .unknown "Attempted to decode a string which was not a Digest")

end Resmix.Merkle
