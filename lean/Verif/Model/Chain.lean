import Mathlib.Analysis.Real.Sqrt
import Verif.Model.Onion
set_option autoImplicit false
/-
Model of messages.go:228-275: choosing chains. Go's float64 arithmetic is modelled by its IEEE-754 contract: the result of
math.Sqrt is a float nearest to the real square root.
-/
namespace Resmix.Onion
open Tibe

/-- The numbers with a 53-bit significand (float64 without the exponent limits, which do not matter in the range used). -/
def IsFloat (x : ℝ) : Prop := ∃ (m : ℤ) (e : ℤ), |m| ≤ 2 ^ 53 ∧ x = m * (2 : ℝ) ^ e

/-- `x` is a float nearest to the real number `y` (any rounding of ties). -/
def RoundsTo (x y : ℝ) : Prop := IsFloat x ∧ ∀ z, IsFloat z → |x - y| ≤ |z - y|

/-- messages.go:260 `int(math.Ceil(math.Sqrt(2 * float64(numberOfChains))))`: `k` is a possible value. `float64(n)`, the doubling and
Ceil are exact for n < 2^53; the square root is rounded. -/
def IsRepetitions (n : Nat) (k : Nat) : Prop := ∃ x, RoundsTo x (Real.sqrt (2 * n)) ∧ k = ⌈x⌉.toNat

/-- messages.go:264-272: the draws; `binary.BigEndian.Uint64` reads the first 8 bytes. -/
def draws (S : Sha3) (n : Nat) : Nat → Bytes → List Nat
  | 0, _ => []
  | k + 1, current => (beNat (current.take 8) % n) :: draws S n k (S.sum current)

/-- messages.go:259-275 `calculateChain(numberOfChains, randomMsg)`; one draw is always made (line 264-266). Modulo zero panics. -/
def calculateChain (S : Sha3) (n reps : Nat) (msg : Bytes) : Go (List Nat) :=
  if n = 0 then .error .panic else .ok (draws S n (1 + (reps - 1)) (S.sum msg))

/-- `res` is a possible result of calculateChain. -/
def CalculateChain (S : Sha3) (n : Nat) (msg : Bytes) (res : Go (List Nat)) : Prop :=
  ∃ reps, IsRepetitions n reps ∧ res = calculateChain S n reps msg

/-- messages.go:228-257 `generateOnion(msg, round)`. -/
def GenerateOnion {B : Bls} (S : Sha3) (G : Generator B) (msg : Bytes) (round : Nat) (rnd : Nat → Nat → Fr × Bytes)
    (res : Go (List Bytes)) : Prop :=
  match G.topo.layers with
  | [] => res = .error .panic
  | first :: _ => ∃ chains, CalculateChain S first.length msg chains ∧
      res = (chains >>= fun cs => wrapChains S G msg round cs rnd)

end Resmix.Onion
