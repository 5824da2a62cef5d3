import Verif.Model.Bls
import Verif.Model.GoMap
import Verif.Model.Strings
set_option autoImplicit false
/-
Model of internal/crypto/tibe/poly.go and exponent_poly.go.
-/
namespace Resmix.Tibe

/-- tibe/poly.go:14-16 `Poly`. -/
structure Poly where
  coefs : List Fr
deriving DecidableEq

/-- tibe/poly.go:19-22 `PolyShare`. -/
structure PolyShare where
  index : Int
  value : Fr
deriving DecidableEq

/-- tibe/scheme2.go:44-47 `PublicKey`. -/
structure PublicKey (B : Bls) where
  index : Int
  key : B.G1

namespace Poly

/-- tibe/poly.go:77-79 `Degree()`: the number of coefficients. -/
def degree (p : Poly) : Nat := p.coefs.length

/-- tibe/poly.go:82-84 `Threshold()`. -/
def threshold (p : Poly) : Nat := p.coefs.length + 1

/-- tibe/poly.go:92-97 `Secret()`: panics for a polynomial without coefficients. -/
def secret (p : Poly) : Go Fr := goIndex p.coefs 0

/-- tibe/poly.go:107-110 the loop of Eval, from the last coefficient to the first: `v = v*xi + coef[j]`. -/
def horner (xi : Fr) (coefs : List Fr) : Fr := coefs.reverse.foldl (fun v c => v * xi + c) 0

/-- tibe/poly.go:100-113 `Eval(i)`. -/
def eval (p : Poly) (i : Int) : Fr := horner (frOfInt i) p.coefs

/-- tibe/poly.go:117-127 `CreateShares(n)`, n ≥ 0. -/
def createShares (p : Poly) (n : Nat) : List PolyShare :=
  (List.range n).map fun (k : Nat) => { index := (k : Int) + 1, value := p.eval ((k : Int) + 1) }

/-- tibe/poly.go:155-173 `Marshal` of a non-nil polynomial. -/
def marshal (p : Poly) : Bytes := be32 p.coefs.length ++ p.coefs.flatMap scalarBytes

/-- tibe/poly.go:191-194: the 32-byte pieces of the rest. -/
def readScalars : Nat → Bytes → List Fr
  | 0, _ => []
  | n + 1, b => scalarSetBytes (b.take scalarSize) :: readScalars n (b.drop scalarSize)

/-- tibe/poly.go:175-197 `SetBytes` on a non-nil receiver. -/
def setBytes (b : Bytes) : Go Poly :=
  if b.length < 4 then .error (.err .unknown "invalid marshalled polynomial")
  else
    let n := beNat (b.take 4)
    if b.length ≠ 4 + n * scalarSize then .error (.err .unknown "invalid marshalled polynomial")
    else .ok { coefs := readScalars n (b.drop 4) }

end Poly

namespace PolyShare

/-- tibe/poly.go:24-34 `Marshal`: `uint32(p.Index)` keeps the low 32 bits. -/
def marshal (p : PolyShare) : Bytes := be32 (u64 p.index) ++ scalarBytes p.value

/-- tibe/poly.go:36-45 `SetBytes`. -/
def setBytes (b : Bytes) : Go PolyShare :=
  if b.length < 4 + scalarSize then .error (.err .unknown "invalid share")
  else do
    let v ← scalarUnmarshal (b.drop 4)
    .ok { index := beNat (b.take 4), value := v }

/-- tibe/poly.go:47-54 `ComputePublicKey`. -/
def computePublicKey (B : Bls) (p : PolyShare) : PublicKey B := { index := p.index, key := p.value • B.gen1 }

end PolyShare

namespace PublicKey

/-- tibe/scheme2.go:49-57 `Marshal`. -/
def marshal {B : Bls} (p : PublicKey B) : Bytes := be32 (u64 p.index) ++ B.g1Bytes p.key

/-- tibe/scheme2.go:59-76 `SetBytes` on a non-nil receiver. -/
def setBytes (B : Bls) (b : Bytes) : Go (PublicKey B) :=
  if b.length < 4 then .error (.err .unknown "invalid public key")
  else do
    let k ← B.g1SetBytes (b.drop 4)
    .ok { index := beNat (b.take 4), key := k }

end PublicKey

/-! ### Lagrange multipliers (poly.go:217-311) -/

/-- tibe/poly.go:283-311 `computeLagrangeIndexMultiplier(indices, index)`. -/
def lagrangeMult (indices : List Int) (index : Int) : Fr :=
  let nd := indices.foldl (fun (nd : Fr × Fr) xj =>
    if xj = index then nd else (nd.1 * frOfInt xj, nd.2 * (frOfInt xj - frOfInt index))) (1, 1)
  nd.1 * nd.2⁻¹

/-- tibe/poly.go:223-246 `newLagrangeIndexMultiplier(degree, index, indices)`; the argument `need` is `degree+1`. The set of
indices is collected in a map and sorted, so its iteration order does not matter: `dedup` then sort. -/
def newLagrange (need : Nat) (index : Int) (indices : List Int) : Go Fr :=
  let xs := indices.dedup
  if xs.length < need then .error (.err .unknown "missing points")
  else .ok (lagrangeMult ((xs.mergeSort (fun a b => decide (a ≤ b))).take need) index)

/-- tibe/poly.go:248-281 `reconstructSecret(xy)`: `outer` is the iteration order of the map in the outer loop, `inner xi` the one
of the inner loop for `xi`. -/
def reconstructSecret (outer : GoMap Int Fr) (inner : Int → List Int) : Fr :=
  outer.foldl (fun acc (xi, yi) =>
    let nd := (inner xi).foldl (fun (nd : Fr × Fr) xj =>
      if xj = xi then nd else (nd.1 * frOfInt xj, nd.2 * (frOfInt xj - frOfInt xi))) (yi, 1)
    acc + nd.1 * nd.2⁻¹) 0

/-! ### Exponent polynomials (exponent_poly.go) -/

/-- tibe/exponent_poly.go:13-17 `ExponentPoly`; the cache is a separate component of the running system (`PubCache`). -/
structure ExponentPoly (B : Bls) where
  coefs : List B.G1

namespace ExponentPoly
variable {B : Bls}

/-- tibe/exponent_poly.go:20-22 `Threshold()`. -/
def threshold (e : ExponentPoly B) : Nat := e.coefs.length + 1

/-- tibe/exponent_poly.go:36-53, the computation of `f` for `i > 0`: powers v = i, i², … multiply the coefficients from the
second on; the first is added last (`e.Coefs[0]` panics when there is none). -/
def compute (e : ExponentPoly B) (i : Nat) : Go B.G1 := do
  let c0 ← goIndex e.coefs 0
  let x : Fr := ((i : Nat) : Fr)
  let st := (e.coefs.drop 1).foldl (fun (st : Fr × B.G1) c => (st.1 * x, st.2 + st.1 • c)) (x, 0)
  .ok (c0 + st.2)

/-- tibe/exponent_poly.go:85-94 `Marshal`. -/
def marshal (e : ExponentPoly B) : Bytes := be32 e.coefs.length ++ e.coefs.flatMap B.g1Bytes

/-- tibe/exponent_poly.go:113-119: the 96-byte pieces of the rest; stops at the first error. -/
def readG1s (B : Bls) : Nat → Bytes → Go (List B.G1)
  | 0, _ => .ok []
  | n + 1, b => do
    let x ← B.g1SetBytes (b.take g1Size)
    let xs ← readG1s B n (b.drop g1Size)
    .ok (x :: xs)

/-- tibe/exponent_poly.go:98-122 `SetBytes` on a non-nil receiver. -/
def setBytes (B : Bls) (b : Bytes) : Go (ExponentPoly B) :=
  if b.length < 4 then .error (.err .unknown "invalid length")
  else
    let n := beNat (b.take 4)
    if b.length ≠ 4 + n * g1Size then .error (.err .unknown "invalid length")
    else do
      let cs ← readG1s B n (b.drop 4)
      .ok { coefs := cs }

end ExponentPoly

/-- tibe/poly.go:130-142 `GetExponentPoly`. -/
def Poly.exponent (B : Bls) (p : Poly) : ExponentPoly B := { coefs := p.coefs.map fun a => a • B.gen1 }

/-! #### GetPublicShare with its cache, as a transition system

`e.cache` is a sync.Map holding results under uint64 keys and sync.Once values under string keys. Any number of goroutines run
`GetPublicShare` concurrently; one transition is one sync.Map / Once operation. -/

/-- Where a goroutine is inside `GetPublicShare(i)` (tibe/exponent_poly.go:26-74). -/
inductive PubPc (B : Bls) where
  /-- line 27-31: before the first Load -/
  | start
  /-- line 57-61: before LoadOrStore of the Once -/
  | getOnce
  /-- line 66: about to call `once.Do(f)` -/
  | enterDo
  /-- line 66 inside f, before `cache.Store` (line 54); this goroutine runs f -/
  | running
  /-- line 66: inside f, after the Store, Do not yet finished -/
  | stored
  /-- line 68: before the second Load -/
  | reload
  | done (r : Go B.G1)

/-- State of one sync.Once: never called, some goroutine inside f, finished. -/
inductive OnceSt | fresh | busy | done
deriving DecidableEq

/-- The cache (results and Once objects) and the goroutines. -/
structure PubState (B : Bls) where
  results : GoMap Nat B.G1
  onces : GoMap Str OnceSt
  procs : List (Nat × PubPc B)

variable {B : Bls}

/-- One step of goroutine `k`. `Once.Do` blocks callers until the first call of f has returned (sync.Once contract): there is no
transition for `enterDo` while the Once is busy. -/
inductive PubStep (e : ExponentPoly B) : PubState B → PubState B → Prop where
  /-- a new call GetPublicShare(i) -/
  | call (s : PubState B) (i : Nat) : PubStep e s { s with procs := s.procs ++ [(i, .start)] }
  /-- line 27-29 -/
  | zero (s : PubState B) (k : Nat) (h : s.procs[k]? = some (0, .start)) :
      PubStep e s { s with procs := s.procs.set k (0, .done (goIndex e.coefs 0)) }
  /-- line 31-33 hit -/
  | hit (s : PubState B) (k i : Nat) (v : B.G1) (h : s.procs[k]? = some (i, .start)) (h0 : i ≠ 0)
      (hv : s.results.lookup i = some v) : PubStep e s { s with procs := s.procs.set k (i, .done (.ok v)) }
  /-- line 31 miss -/
  | miss (s : PubState B) (k i : Nat) (h : s.procs[k]? = some (i, .start)) (h0 : i ≠ 0)
      (hv : s.results.lookup i = none) : PubStep e s { s with procs := s.procs.set k (i, .getOnce) }
  /-- line 59 LoadOrStore -/
  | once (s : PubState B) (k i : Nat) (h : s.procs[k]? = some (i, .getOnce)) :
      PubStep e s ({ s with
        onces := if s.onces.lookup (dec i) = none then s.onces.insert (dec i) .fresh else s.onces
        procs := s.procs.set k (i, .enterDo) })
  /-- line 66, first caller -/
  | doFirst (s : PubState B) (k i : Nat) (h : s.procs[k]? = some (i, .enterDo)) (ho : s.onces.lookup (dec i) = some .fresh) :
      PubStep e s ({ s with onces := s.onces.insert (dec i) .busy
                            procs := s.procs.set k (i, .running) })
  /-- line 66, f already done -/
  | doDone (s : PubState B) (k i : Nat) (h : s.procs[k]? = some (i, .enterDo)) (ho : s.onces.lookup (dec i) = some .done) :
      PubStep e s { s with procs := s.procs.set k (i, .reload) }
  /-- lines 36-54: compute and store -/
  | run (s : PubState B) (k i : Nat) (v : B.G1) (h : s.procs[k]? = some (i, .running)) (hv : e.compute i = .ok v) :
      PubStep e s ({ s with results := s.results.insert i v
                            procs := s.procs.set k (i, .stored) })
  /-- line 53 panics on an empty coefficient list; Once counts as done -/
  | runPanic (s : PubState B) (k i : Nat) (h : s.procs[k]? = some (i, .running)) (hv : e.compute i = .error .panic) :
      PubStep e s ({ s with onces := s.onces.insert (dec i) .done
                            procs := s.procs.set k (i, .done (.error .panic)) })
  /-- f returns -/
  | finish (s : PubState B) (k i : Nat) (h : s.procs[k]? = some (i, .stored)) :
      PubStep e s ({ s with onces := s.onces.insert (dec i) .done
                            procs := s.procs.set k (i, .reload) })
  /-- lines 68-73 -/
  | load (s : PubState B) (k i : Nat) (h : s.procs[k]? = some (i, .reload)) :
      PubStep e s { s with procs := s.procs.set k (i, .done (match s.results.lookup i with | some v => .ok v | none => .error .panic)) }

/-- The states reachable from the empty cache of `GetExponentPoly` / `SetBytes`. -/
inductive PubReach (e : ExponentPoly B) : PubState B → Prop where
  | init : PubReach e { results := [], onces := [], procs := [] }
  | step {s s' : PubState B} : PubReach e s → PubStep e s s' → PubReach e s'

/-- The value `GetPublicShare(i)` computes when run alone (tibe/exponent_poly.go:26-74); C27 proves that every concurrent call
returns this value, so the rest of the model uses it. -/
def ExponentPoly.getPublicShare (e : ExponentPoly B) (i : Nat) : Go B.G1 :=
  if i = 0 then goIndex e.coefs 0 else e.compute i

/-- tibe/exponent_poly.go:78-83 `VerifyShare(index, share)`. -/
def ExponentPoly.verifyShare (e : ExponentPoly B) (index : Nat) (share : Fr) : Go Bool := do
  let pub ← e.getPublicShare index
  .ok (share • B.gen1 = pub)

end Resmix.Tibe
