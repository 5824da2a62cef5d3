import Verif.Model.Poly
set_option autoImplicit false
/-
Polynomial objects that are decoded into more than once (internal/crypto/tibe/poly.go:175-197, exponent_poly.go:26-122): here an object has a state that
survives a decoding, and its coefficients may be nil pointers. (Model/Poly's `setBytes` is the decoding into a new object.)
-/
namespace Resmix.Tibe.Reuse

/-- tibe/poly.go:14-16 `Poly`: a slice of pointers; `none` is a nil pointer. -/
structure PolyObj where
  coefs : List (Option Fr)
deriving DecidableEq

/-- An object holding polynomial `p`. -/
def PolyObj.of (p : Poly) : PolyObj := ⟨p.coefs.map some⟩

/-- tibe/poly.go:175-197 `SetBytes`: `p.Coefs = make(…)` (line 185) comes before the length check of line 187. -/
def PolyObj.setBytes (o : PolyObj) (b : Bytes) : PolyObj × Go Unit :=
  if b.length < 4 then (o, .error (.err .unknown "invalid marshalled polynomial"))
  else
    let n := beNat (b.take 4)
    if b.length ≠ 4 + n * scalarSize then (⟨List.replicate n none⟩, .error (.err .unknown "invalid marshalled polynomial"))
    else (⟨(Poly.readScalars n (b.drop 4)).map some⟩, .ok ())

/-- tibe/poly.go:107-110: the coefficients are read from the last to the first; a nil pointer panics. -/
def readAll {α : Type} : List (Option α) → Go (List α)
  | [] => .ok []
  | none :: _ => .error .panic
  | some x :: xs => do .ok (x :: (← readAll xs))

/-- tibe/poly.go:100-113 `Eval`. -/
def PolyObj.eval (o : PolyObj) (i : Int) : Go Fr := do .ok (Poly.eval ⟨← readAll o.coefs⟩ i)

/-- tibe/poly.go:199-215 `Equal` on non-nil objects: `IsEqual` dereferences both coefficients; the first difference ends the loop. -/
def PolyObj.equal (o o' : PolyObj) : Go Bool :=
  if o.coefs.length ≠ o'.coefs.length then .ok false
  else go o.coefs o'.coefs
where
  go : List (Option Fr) → List (Option Fr) → Go Bool
    | some x :: xs, some y :: ys => if x = y then go xs ys else .ok false
    | [], _ => .ok true
    | _, _ => .error .panic

/-- tibe/poly.go:145-153 `Copy` (and 87-89 `Coeffs`): new scalars with the values of the old ones. -/
def PolyObj.copy (o : PolyObj) : Go PolyObj := do .ok ⟨(← readAll o.coefs).map some⟩

variable (B : Bls)

/-- tibe/exponent_poly.go:13-17 `ExponentPoly`: the coefficients, the cached results, and the indices whose Once has run. Calls are sequential here
(C27 is about concurrent ones). -/
structure ExpObj where
  coefs : List (Option B.G1)
  cache : GoMap Nat B.G1
  onces : List Nat

variable {B}

/-- An object just made from `e` (GetExponentPoly, or SetBytes into a zero object). -/
def ExpObj.of (e : ExponentPoly B) : ExpObj B := ⟨e.coefs.map some, [], []⟩

/-- tibe/exponent_poly.go:113-119: the loop of SetBytes; stops at the first error, with the coefficients decoded so far. (The coefficient being decoded
when the error occurs is a non-nil pointer to an unspecified group element; it is taken to be nil here.) -/
def readInto (B : Bls) : Nat → Bytes → List (Option B.G1) × Go Unit
  | 0, _ => ([], .ok ())
  | n + 1, b => match B.g1SetBytes (b.take g1Size) with
    | .error e => (List.replicate (n + 1) none, .error e)
    | .ok x => let r := readInto B n (b.drop g1Size); (some x :: r.1, r.2)

/-- tibe/exponent_poly.go:98-122 `SetBytes`: the cache is not touched. -/
def ExpObj.setBytes (o : ExpObj B) (b : Bytes) : ExpObj B × Go Unit :=
  if b.length < 4 then (o, .error (.err .unknown "invalid length"))
  else
    let n := beNat (b.take 4)
    if b.length ≠ 4 + n * g1Size then (o, .error (.err .unknown "invalid length"))
    else let r := readInto B n (b.drop 4); ({ o with coefs := r.1 }, r.2)

/-- tibe/exponent_poly.go:26-74 `GetPublicShare(i)`, one call running alone: the cached value; or, for the first call of the Once of `i`, the computed
one, which is cached; otherwise a panic (line 70). For `i = 0` a nil coefficient is handed out as nil (`.error .panic` here: its first use panics). -/
def ExpObj.getPublicShare (o : ExpObj B) (i : Nat) : ExpObj B × Go B.G1 :=
  if i = 0 then (o, match o.coefs with | some x :: _ => .ok x | _ => .error .panic)
  else match o.cache.lookup i with
    | some v => (o, .ok v)
    | none =>
      if i ∈ o.onces then (o, .error .panic)
      else match (do ExponentPoly.compute (B := B) ⟨← readAll o.coefs⟩ i : Go B.G1) with
        | .ok v => ({ o with cache := o.cache.insert i v, onces := i :: o.onces }, .ok v)
        | .error e => ({ o with onces := i :: o.onces }, .error e)

/-- What is done to an exponent polynomial object. -/
inductive Op
  | setBytes (b : Bytes)
  | get (i : Nat)

/-- The object after some operations. -/
def ExpObj.run (o : ExpObj B) : List Op → ExpObj B
  | [] => o
  | .setBytes b :: ops => ExpObj.run (o.setBytes b).1 ops
  | .get i :: ops => ExpObj.run (o.getPublicShare i).1 ops

end Resmix.Tibe.Reuse
