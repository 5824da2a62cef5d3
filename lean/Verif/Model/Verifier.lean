import Verif.Model.Merkle
import Verif.Model.Cert
set_option autoImplicit false
/-
Model of rrpc/merkle_verifier.go, internal/crypto/ed25519.go and of what rrpc/verifiables.go hashes.
-/
namespace Resmix.Rrpc
open Resmix.Merkle

/-- internal/crypto/ed25519.go:13-54: signatures on digests (the digest is first marshalled, an injective step that is part of `sign`
and `valid`). Ed25519 is represented by its correctness only; nothing is assumed about forgeries. -/
structure SigScheme where
  Sk : Type
  pub : Sk → Bytes
  pub_len : ∀ sk, (pub sk).length = 32
  sign : Sk → Digest → Bytes
  valid : Bytes → Digest → Bytes → Bool
  correct : ∀ sk d, valid (pub sk) d (sign sk d) = true

/-- The bytes internal/codec writes for notes and parcels (rrpc/verifiables.go:81-90): different values have different encodings. -/
structure Codec where
  note : ExchangeNote → Bytes
  parcel : Parcel → Bytes
  note_inj : ∀ a b, note a = note b → a = b
  parcel_inj : ∀ a b, parcel a = parcel b → a = b
  disjoint : ∀ a b, parcel a ≠ note b

/-- internal/crypto/ed25519.go:43-54 `OWVerify`: crypto/ed25519 panics for a key that is not 32 bytes long. -/
def owVerify (S : SigScheme) (pk : Bytes) (root : Digest) (sig : Bytes) : Go Bool :=
  if pk.length ≠ 32 then .error .panic else .ok (S.valid pk root sig)

/-- `copy(d[:], b)` into a zero digest (rrpc/merkle_verifier.go:94,208,213). -/
def fitDigest (b : Bytes) : Digest := ⟨(b ++ List.replicate 32 0).take 32, by simp⟩

/-- rrpc/merkle_verifier.go:161-169 `authenticateMerklePath` with 205-217 `unpackMerkleCert`: `enc` are the bytes of the object. -/
def authPath (H : HashFn) (cert : MerkleCertificate) (enc : Bytes) : Go Unit :=
  Merkle.verify H (fitDigest cert.root) [(cert.index, enc)] (cert.path.map fitDigest)

/-- internal/crypto/ed25519.go:16 and rrpc/merkle_verifier.go:84. -/
def badSignature : Fail := .err .unknown "bad signature"
def emptyCertificate : Fail := .err .unknown "empty certificate"

/-- rrpc/merkle_verifier.go:171-185 `verifyMerkleSig`: the result stored in the task. -/
def sigResult (S : SigScheme) (pk : Bytes) (cert : MerkleCertificate) : Go Unit :=
  match owVerify S pk (fitDigest cert.root) cert.signature with
  | .error e => .error e
  | .ok true => .ok ()
  | .ok false => .error badSignature

/-! ### Calls one after the other -/

/-- The roots in `taskMap` when no call is in progress: an entry stays only if its signature was accepted (a failing call deletes it,
line 130). The map is keyed by `root.String()`, which is injective (C65). -/
abbrev Cache := List Digest

/-- rrpc/merkle_verifier.go:86-140 `Verify` while no other call is in progress: result and new cache. `cert` is the certificate popped
from the object and `enc` the bytes hashed without it. -/
def verifyCall (S : SigScheme) (H : HashFn) (cache : Cache) (pk : Bytes) (cert : Option MerkleCertificate) (enc : Bytes) : Go Unit × Cache :=
  match cert with
  | none => (.error emptyCertificate, cache)
  | some c => match authPath H c enc with
    | .error e => (.error e, cache)
    | .ok () =>
      if fitDigest c.root ∈ cache then (.ok (), cache)
      else match sigResult S pk c with
        | .ok () => (.ok (), fitDigest c.root :: cache)
        | .error e => (.error e, cache)

/-- `Verify(pk, (*senderNote)(note))` (rrpc/verifiables.go:174-189). -/
def verifySenderNote (S : SigScheme) (H : HashFn) (cod : Codec) (cache : Cache) (pk : Bytes) (n : ExchangeNote) : Go Unit × Cache :=
  verifyCall S H cache pk n.senderMerkleProof (cod.note { n with senderMerkleProof := none })

/-- `Verify(pk, (*receiverNote)(note))` (rrpc/verifiables.go:200-215); also `Verify(pk, *CallStreamResponse)` with a non-nil note
(lines 152-164). -/
def verifyReceiverNote (S : SigScheme) (H : HashFn) (cod : Codec) (cache : Cache) (pk : Bytes) (n : ExchangeNote) : Go Unit × Cache :=
  verifyCall S H cache pk n.receiverMerkleProof (cod.note { n with receiverMerkleProof := none })

/-- `Verify(pk, parcel)` (rrpc/verifiables.go:105-118). -/
def verifyParcel (S : SigScheme) (H : HashFn) (cod : Codec) (cache : Cache) (pk : Bytes) (p : Parcel) : Go Unit × Cache :=
  verifyCall S H cache pk p.signature (cod.parcel { p with signature := none })

/-- rrpc/rrpc_server_stream.go:93-106 `validateParcel` of a parcel with a note; `tick` says that the verifier's cleanup (rrpc/gc.go:15-32,
which drops every entry since verification tasks are not GCable) runs between the two checks. -/
def validateParcel (S : SigScheme) (H : HashFn) (cod : Codec) (cache : Cache) (tick : Bool) (index : Nat) (p : Parcel) : Go Unit × Cache :=
  if p.relayIndex ≠ (index : Int) then (.error (.err .invalidArgument "server: invalid relay index"), cache)
  else
    let popped := { p with note := { p.note with senderMerkleProof := none } }
    match verifyParcel S H cod cache p.note.senderID popped with
    | (.error e, c) => (.error e, c)
    | (.ok (), c) => verifySenderNote S H cod (if tick then [] else c) p.note.receiverID p.note

/-! ### Concurrent calls -/

/-- One call of `Verify`: key, popped certificate, bytes of the object. -/
structure VCall where
  pk : Bytes
  cert : Option MerkleCertificate
  enc : Bytes

/-- rrpc/merkle_verifier.go:67-76 `merkleVerifyTask`; `taken` is the signature state, `result` is filled in when `ready` is closed. -/
structure VTask where
  pk : Bytes
  cert : MerkleCertificate
  taken : Bool
  result : Option (Go Unit)

/-- Where a call is in lines 86-140. -/
inductive VPc
  | start
  | authed
  | loaded (task : Nat)
  | waiting (task : Nat) (mine : Bool)
  | done (res : Go Unit)

/-- The verifier with its calls. Task objects are never freed here. -/
structure VState where
  map : GoMap Digest Nat
  tasks : List VTask
  calls : List (VCall × VPc)
  crashed : Bool

/-- `NewVerifier` (rrpc/merkle_verifier.go:52-65). -/
def VState.init : VState := { map := [], tasks := [], calls := [], crashed := false }

/-- One step of a goroutine that has called `Verify`, or of a worker. -/
inductive VWork (S : SigScheme) (H : HashFn) : VState → VState → Prop
  /-- Lines 87-92. -/
  | noCert (s : VState) (i : Nat) (c : VCall) : s.crashed = false → s.calls[i]? = some (c, .start) → c.cert = none →
      VWork S H s { s with calls := s.calls.set i (c, .done (.error emptyCertificate)) }
  /-- Lines 96-105, a worker having run `authenticateMerklePath`. -/
  | auth (s : VState) (i : Nat) (c : VCall) (cert : MerkleCertificate) : s.crashed = false → s.calls[i]? = some (c, .start) → c.cert = some cert →
      authPath H cert c.enc = .ok () → VWork S H s { s with calls := s.calls.set i (c, .authed) }
  | authFail (s : VState) (i : Nat) (c : VCall) (cert : MerkleCertificate) (e : Fail) : s.crashed = false → s.calls[i]? = some (c, .start) →
      c.cert = some cert → authPath H cert c.enc = .error e → VWork S H s { s with calls := s.calls.set i (c, .done (.error e)) }
  /-- Lines 107-117 LoadOrStore: an entry exists. -/
  | load (s : VState) (i : Nat) (c : VCall) (cert : MerkleCertificate) (t : Nat) : s.crashed = false → s.calls[i]? = some (c, .authed) →
      c.cert = some cert → s.map.lookup (fitDigest cert.root) = some t → VWork S H s { s with calls := s.calls.set i (c, .loaded t) }
  /-- Lines 107-117 LoadOrStore: a new entry. -/
  | store (s : VState) (i : Nat) (c : VCall) (cert : MerkleCertificate) : s.crashed = false → s.calls[i]? = some (c, .authed) →
      c.cert = some cert → s.map.lookup (fitDigest cert.root) = none →
      VWork S H s { s with map := s.map.insert (fitDigest cert.root) s.tasks.length
                           tasks := s.tasks ++ [{ pk := c.pk, cert := cert, taken := false, result := none }]
                           calls := s.calls.set i (c, .loaded s.tasks.length) }
  /-- Lines 118-122, the first to swap hands the task to a worker. -/
  | take (s : VState) (i : Nat) (c : VCall) (t : Nat) (task : VTask) : s.crashed = false → s.calls[i]? = some (c, .loaded t) →
      s.tasks[t]? = some task → task.taken = false →
      VWork S H s { s with tasks := s.tasks.set t { task with taken := true }, calls := s.calls.set i (c, .waiting t true) }
  /-- Line 118, the state was already taken. -/
  | join (s : VState) (i : Nat) (c : VCall) (t : Nat) (task : VTask) : s.crashed = false → s.calls[i]? = some (c, .loaded t) →
      s.tasks[t]? = some task → task.taken = true → VWork S H s { s with calls := s.calls.set i (c, .waiting t false) }
  /-- Lines 142-159, 171-185: a worker verifies a signature. -/
  | work (s : VState) (t : Nat) (task : VTask) : s.crashed = false → s.tasks[t]? = some task → task.taken = true → task.result = none →
      sigResult S task.pk task.cert ≠ .error .panic →
      VWork S H s { s with tasks := s.tasks.set t { task with result := some (sigResult S task.pk task.cert) } }
  /-- A malformed key makes the worker panic. -/
  | workCrash (s : VState) (t : Nat) (task : VTask) : s.crashed = false → s.tasks[t]? = some task → task.taken = true → task.result = none →
      sigResult S task.pk task.cert = .error .panic → VWork S H s { s with crashed := true }
  /-- Lines 125, 139: accepted. -/
  | accept (s : VState) (i : Nat) (c : VCall) (t : Nat) (mine : Bool) (task : VTask) : s.crashed = false →
      s.calls[i]? = some (c, .waiting t mine) → s.tasks[t]? = some task → task.result = some (.ok ()) →
      VWork S H s { s with calls := s.calls.set i (c, .done (.ok ())) }
  /-- Lines 126-136: the signature was bad, the call starts again. -/
  | retry (s : VState) (i : Nat) (c : VCall) (cert : MerkleCertificate) (t : Nat) (task : VTask) (e : Fail) : s.crashed = false →
      s.calls[i]? = some (c, .waiting t false) → c.cert = some cert → s.tasks[t]? = some task → task.result = some (.error e) →
      task.cert.signature = cert.signature →
      VWork S H s { s with map := s.map.erase (fitDigest cert.root), calls := s.calls.set i (c, .start) }
  /-- Lines 126-130, 137: the signature was bad, the call fails. -/
  | reject (s : VState) (i : Nat) (c : VCall) (cert : MerkleCertificate) (t : Nat) (mine : Bool) (task : VTask) (e : Fail) : s.crashed = false →
      s.calls[i]? = some (c, .waiting t mine) → c.cert = some cert → s.tasks[t]? = some task → task.result = some (.error e) →
      (mine = true ∨ task.cert.signature ≠ cert.signature) →
      VWork S H s { s with map := s.map.erase (fitDigest cert.root), calls := s.calls.set i (c, .done (.error e)) }

/-- One step of some goroutine. -/
inductive VStep (S : SigScheme) (H : HashFn) : VState → VState → Prop
  /-- A goroutine calls `Verify`. -/
  | call (s : VState) (c : VCall) : s.crashed = false → VStep S H s { s with calls := s.calls ++ [(c, .start)] }
  /-- A step of a call in progress. -/
  | work (s s' : VState) : VWork S H s s' → VStep S H s s'
  /-- rrpc/gc.go:15-32: the cleanup drops an entry, whatever its age. -/
  | clean (s : VState) (d : Digest) : s.crashed = false → VStep S H s { s with map := s.map.erase d }

/-- Reachable states. -/
inductive VReach (S : SigScheme) (H : HashFn) : VState → Prop
  | init : VReach S H .init
  | step (s s' : VState) : VReach S H s → VStep S H s s' → VReach S H s'

end Resmix.Rrpc
