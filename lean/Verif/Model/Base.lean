/-
Go constructs shared by all model files.
-/
namespace Resmix

/-- Go `[]byte` (also Go `string`, which is a byte sequence) as an immutable list. Aliasing is modelled explicitly where it
matters (Model/Ibe `CipherBuf`, Model/Sign heap, Model/Pool). -/
abbrev Bytes := List UInt8

/-- gRPC status codes used by the code (google.golang.org/grpc/codes): server.go:58,110,122,166,177; mixer.go:279;
rrpc/requests.go:38; rrpc/rrpc_server_stream.go. `other n` is any other numeric code. -/
inductive Code
  | ok | canceled | unknown | invalidArgument | notFound | failedPrecondition | internal | unauthenticated
  | other (n : Nat)
deriving DecidableEq, Repr

/-- How a Go call can end other than by returning a value: an `error` value, or a run-time panic (index out of range, nil
dereference, explicit `panic`, send on closed channel), or never (`hang`: an endless loop). -/
inductive Fail
  | err (c : Code) (msg : String)
  | panic
  | hang
deriving DecidableEq, Repr

/-- Result of a Go function that returns `(α, error)` and may panic. -/
abbrev Go (α : Type) := Except Fail α

/-- A Go slice index expression `a[i]`: panics when out of range. -/
def goIndex {α : Type} (a : List α) (i : Nat) : Go α :=
  match a[i]? with
  | some x => .ok x
  | none => .error .panic

/-- A Go slice assignment `a[i] = x`: panics when out of range. -/
def goSet {α : Type} (a : List α) (i : Nat) (x : α) : Go (List α) :=
  if i < a.length then .ok (a.set i x) else .error .panic

/-- The Go slice expression `a[lo:hi]` with cap(a) = len(a): panics unless lo ≤ hi ≤ len(a). -/
def goSlice {α : Type} (a : List α) (lo hi : Nat) : Go (List α) :=
  if lo ≤ hi ∧ hi ≤ a.length then .ok ((a.take hi).drop lo) else .error .panic

/-- `binary.BigEndian.PutUint32` / `Uint32` (messages.go:44-47,63-64; shuffle.go:64; tibe/poly.go marshalling). -/
def be32 (n : Nat) : Bytes :=
  [UInt8.ofNat (n / 2^24), UInt8.ofNat (n / 2^16), UInt8.ofNat (n / 2^8), UInt8.ofNat n]

/-- Big-endian value of a byte string. -/
def beNat (b : Bytes) : Nat := b.foldl (fun acc x => acc * 256 + x.toNat) 0

end Resmix
