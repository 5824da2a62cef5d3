import Mathlib.Data.ZMod.Basic
import Verif.Model.Base
set_option autoImplicit false
/-
The scalar field of BLS12-381 (github.com/cloudflare/circl/ecc/bls12381 `Scalar`), used by internal/crypto/tibe.
-/
namespace Resmix

/-- The order of the groups of BLS12-381 (circl ecc/bls12381/ff `scOrder`). -/
def blsOrder : Nat := 0x73eda753299d7d483339d80809a1d80553bda402fffe5bfeffffffff00000001

/-- circl `bls12381.Scalar`: integers modulo the group order. `Add`, `Sub`, `Mul`, `Inv` (with Inv(0)=0) are the operations of
`ZMod`. -/
abbrev Fr := ZMod blsOrder

end Resmix
