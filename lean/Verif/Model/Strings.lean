import Verif.Model.Base
/-
Go strings (byte strings), decimal formatting, names.
-/
namespace Resmix

/-- Go `string`. -/
abbrev Str := Bytes

/-- Decimal digits with a bound on the number of digits (recursion bound only; `dec` always passes enough). -/
def decAux : Nat → Nat → Str
  | 0, _ => []
  | f + 1, n => if n < 10 then [UInt8.ofNat (48 + n)] else decAux f (n / 10) ++ [UInt8.ofNat (48 + n % 10)]

/-- `strconv.Itoa(n)` / the `%d` verb for a non-negative int (config/topology.go:33, server.go:104). -/
def dec (n : Nat) : Str := decAux (n + 1) n

/-- config/topology.go:46 `GenesisName = "GENESIS"`. -/
def genesisName : Str := [71, 69, 78, 69, 83, 73, 83]

/-- config/topology.go:33 `fmt.Sprintf("m(%d,%d)", layerNum, mixPos)`. -/
def mixNameOf (layer pos : Nat) : Str := [109, 40] ++ dec layer ++ [44] ++ dec pos ++ [41]

end Resmix
