import Verif.Model.Config
set_option autoImplicit false
/-
Where the secrets of a created system come from: config/config.go:12-24, 126-147 and internal/crypto/tibe/poly.go:57-74. The reader `randomReader` is SHAKE-128 fed with the
constant `seed` of the source (config/config.go:12); it is a fixed stream. The RRPC key pairs are not part of this (they come from crypto/rand, config/config.go:72).
-/
namespace Resmix.Config.Seed
open Tibe

/-- `Scalar.Random(randomReader)` (circl) when `pos` bytes were read from the reader before: the scalar and the new position (bytes that give no scalar are skipped). A function
of the position alone: the stream is fixed. -/
abbrev Draw := Nat → Fr × Nat

/-- tibe/poly.go:64-71: `k` coefficients. -/
def draws (D : Draw) : Nat → Nat → List Fr × Nat
  | 0, pos => ([], pos)
  | k + 1, pos =>
    let r := D pos
    let rs := draws D k r.2
    (r.1 :: rs.1, rs.2)

/-- tibe/poly.go:57-74 `NewRandomPoly(degree, randomReader)`. -/
def newRandomPoly (D : Draw) (degree pos : Nat) : Poly × Nat :=
  let r := draws D (degree + 1) pos
  ({ coefs := r.1 }, r.2)

/-- config/config.go:126-141 `vsspolynomialsSetup(numPolynomials, polyDegree)`. -/
def vssPolynomials (D : Draw) (degree : Nat) : Nat → Nat → List Poly × Nat
  | 0, pos => ([], pos)
  | k + 1, pos =>
    let r := newRandomPoly D degree pos
    let rs := vssPolynomials D degree k r.2
    (r.1 :: rs.1, rs.2)

/-- config/config.go:62-97 `createConfigs`, its use of the reader: first the DKG polynomial (line 63, 144), then one polynomial per server (line 97). -/
def systemPolys (D : Draw) (servers degree pos : Nat) : (Poly × List Poly) × Nat :=
  let dkg := newRandomPoly D degree pos
  let ps := vssPolynomials D degree servers dkg.2
  ((dkg.1, ps.1), ps.2)

/-- The position of the reader after a process has created systems of these sizes (number of servers, degree), one after the other (config/config.go:14-24: at the start of a
process nothing was read). -/
def position (D : Draw) (created : List (Nat × Nat)) : Nat := created.foldl (fun pos s => (systemPolys D s.1 s.2 pos).2) 0

end Resmix.Config.Seed
