import Verif.Model.Poly
set_option autoImplicit false
/-
Model of internal/crypto/tibe/{aes,util,vss_ibe,scheme2}.go. Random values (scalars, IVs) are arguments; errors of the random
source are not modelled. Nil pointers inside votes and keys are not modelled.
-/
namespace Resmix.Tibe

/-- Byte-wise XOR of the common prefix (crypto/subtle.XORBytes). -/
def xorBytes (a b : Bytes) : Bytes := List.zipWith (· ^^^ ·) a b

/-- crypto/cipher CFB encryption of a plaintext given as blocks: each block is XORed with the encrypted previous ciphertext
block (the IV first). `fuel` bounds the number of blocks (the callers pass the plaintext length). -/
def cfbEncrypt (aes : Bytes → Bytes → Bytes) (k : Bytes) : Nat → Bytes → Bytes → Bytes
  | 0, _, _ => []
  | f + 1, prev, p =>
    if p = [] then []
    else
      let c := xorBytes (p.take blockSize) (aes k prev)
      c ++ cfbEncrypt aes k f c (p.drop blockSize)

/-- crypto/cipher CFB decryption. -/
def cfbDecrypt (aes : Bytes → Bytes → Bytes) (k : Bytes) : Nat → Bytes → Bytes → Bytes
  | 0, _, _ => []
  | f + 1, prev, c =>
    if c = [] then []
    else
      let blk := c.take blockSize
      xorBytes blk (aes k prev) ++ cfbDecrypt aes k f blk (c.drop blockSize)

/-- crypto/aes.NewCipher: only 16, 24 and 32 byte keys. -/
def aesKeyOk (k : Bytes) : Bool := k.length = 16 ∨ k.length = 24 ∨ k.length = 32

/-- tibe/aes.go:11-30 `aesEncrypt(key, plainText)` with the random `iv`. -/
def aesEncrypt (B : Bls) (iv : Bytes) (key msg : Bytes) : Go Bytes :=
  if aesKeyOk key then .ok (iv ++ cfbEncrypt B.aes key msg.length iv msg)
  else .error (.err .unknown "invalid key size")

/-- tibe/aes.go:32-52 `aesDecrypt(key, cipherText)`: the result, and the contents of the argument slice afterwards (line 49
decrypts in place, so the caller's bytes after the IV become the plaintext). -/
def aesDecrypt (B : Bls) (key ct : Bytes) : Go Bytes × Bytes :=
  if aesKeyOk key then
    if ct.length < blockSize then (.error (.err .unknown "ciphertext block size is too short"), ct)
    else
      let iv := ct.take blockSize
      let p := cfbDecrypt B.aes key (ct.drop blockSize).length iv (ct.drop blockSize)
      (.ok p, iv ++ p)
  else (.error (.err .unknown "invalid key size"), ct)

/-- tibe/vss_ibe.go:50-54 `Cipher`. -/
structure Cipher (B : Bls) where
  gr : B.G1
  mac : Bytes
  encrypted : Bytes

namespace Cipher
variable {B : Bls}

/-- tibe/vss_ibe.go:56-66 `Copy()` (fresh slices with the same contents; adding the identity does not change the element). -/
def copy (c : Cipher B) : Cipher B := { gr := c.gr + 0, mac := [] ++ c.mac, encrypted := [] ++ c.encrypted }

/-- tibe/vss_ibe.go:68-72 `ToBuffer`: the bytes appended to the buffer. -/
def toBuffer (c : Cipher B) : Bytes := B.g1Bytes c.gr ++ c.mac ++ c.encrypted

/-- tibe/vss_ibe.go:74-76 `Size()`. -/
def size (c : Cipher B) : Nat := g1Size + c.mac.length + c.encrypted.length

/-- tibe/vss_ibe.go:78-91 `SetBytes`: slices without length checks. -/
def setBytes (B : Bls) (b : Bytes) : Go (Cipher B) := do
  let h ← goSlice b 0 g1Size
  let gr ← B.g1SetBytes h
  let m ← goSlice b g1Size (g1Size + macSize)
  let e ← goSlice b (g1Size + macSize) b.length
  .ok { gr := gr, mac := m, encrypted := e }

end Cipher

variable {B : Bls}

/-- tibe/vss_ibe.go:108-136 `MasterPublicKey.Encrypt(ID, msg)` with random scalar `r` and random `iv`; `mpk` is `p.G1`. -/
def encrypt (B : Bls) (mpk : B.G1) (r : Fr) (iv : Bytes) (id msg : Bytes) : Go (Cipher B) := do
  let h := B.hashG2 id
  let tmp := r • mpk
  let k := B.hashGt (B.pair tmp h)
  let c ← aesEncrypt B iv k msg
  let tmp := r • B.gen1
  .ok { gr := tmp, mac := B.mac (B.g1Bytes tmp ++ c) k, encrypted := c }

/-- tibe/vss_ibe.go:152-163 `idBasedPrivateKey.Decrypt(c)`: the result and the cipher as the caller sees it afterwards
(`aesDecrypt` works in place on `c.Encrypted`, whose bytes the caller shares). -/
def decrypt (sk : B.G2) (c : Cipher B) : Go Bytes × Cipher B :=
  let k := B.hashGt (B.pair c.gr sk)
  if c.mac = B.mac (B.g1Bytes c.gr ++ c.encrypted) k then
    let (res, enc) := aesDecrypt B k c.encrypted
    (res, { c with encrypted := enc })
  else (.error (.err .unknown "mac mismatch"), c)

/-- tibe/scheme2.go:21-25 `Vote`. -/
structure Vote (B : Bls) where
  index : Int
  id : Bytes
  sig : B.G2

/-- tibe/util.go:46-51 `isValidSignature`. -/
def isValidSignature (msg : Bytes) (sig : B.G2) (pubkey : B.G1) : Bool :=
  B.pair pubkey (B.hashG2 msg) = B.pair B.gen1 sig

/-- tibe/vss_ibe.go:186-190 `VssShare`. -/
structure VssShare (B : Bls) where
  expoly : ExponentPoly B
  share : PolyShare
  mpk : B.G1

/-- tibe/vss_ibe.go:170-174, 311-315 `Node` with its embedded `shareableIbeScheme`. -/
structure Node (B : Bls) where
  poly : Poly
  pk : B.G1
  secret : Fr
  shares : GoMap Str (VssShare B)

/-- tibe/scheme2.go:229-257 `reconstructSecretIbeKey(votes, threshold)`: note that the multiplier is computed once per vote, with
`threshold-1` as the degree. -/
def reconstructKey (votes : List (Vote B)) (threshold : Nat) : Go B.G2 :=
  if votes.length < threshold then .error (.err .unknown "not enough votes to reconstruct secret key")
  else
    let votes := votes.take threshold
    let indices := votes.map (·.index)
    votes.foldlM (init := (0 : B.G2)) fun sum v => do
      let li ← newLagrange threshold v.index indices
      .ok (sum + li • v.sig)

namespace Node

/-- tibe/vss_ibe.go:199-224, 338-349 `NewNode(poly)` (panics for a polynomial without coefficients). -/
def new (B : Bls) (poly : Poly) : Go (Node B) := do
  let s ← poly.secret
  .ok { poly := poly, pk := s • B.gen1, secret := s, shares := [] }

/-- tibe/vss_ibe.go:351-356 `Decrypter(id)`: the private key for `id`. -/
def decrypter (n : Node B) (id : Bytes) : B.G2 := n.secret • B.hashG2 id

/-- tibe/vss_ibe.go:358-365 `GetMasterPublicKey`. -/
def masterPublicKey (n : Node B) : Go B.G1 := B.g1SetBytes (B.g1Bytes n.pk)

/-- tibe/vss_ibe.go:317-336 `VssShares(n)`. -/
def vssShares (n : Node B) (k : Nat) : Go (List (VssShare B)) :=
  (n.poly.createShares k).mapM fun sh => do
    let mpk ← n.masterPublicKey
    .ok { expoly := n.poly.exponent B, share := sh, mpk := mpk }

/-- tibe/vss_ibe.go:246-248 `ReceiveShare`. -/
def receiveShare (n : Node B) (name : Str) (s : VssShare B) : Node B := { n with shares := n.shares.insert name s }

/-- tibe/vss_ibe.go:176-183 `EncryptFor`. -/
def encryptFor (n : Node B) (r : Fr) (iv : Bytes) (name : Str) (id msg : Bytes) : Go (Cipher B) :=
  match n.shares.lookup name with
  | none => .error (.err .unknown "no share for node")
  | some s => encrypt B s.mpk r iv id msg

/-- tibe/vss_ibe.go:227-243 `Vote(otherNodeName, id)`. -/
def vote (n : Node B) (name : Str) (id : Bytes) : Go (Vote B) :=
  match n.shares.lookup name with
  | none => .error (.err .unknown "no share for node")
  | some s => .ok { index := s.share.index, id := id, sig := s.share.value • B.hashG2 id }

/-- tibe/vss_ibe.go:210-219: a worker's answer to one task. The work queue and its goroutines are in
Model/VotePool; C135 proves that every concurrent call returns what the sequential functions here return. -/
def checkVote (e : ExponentPoly B) (v : Vote B) : Go Unit := do
  let pub ← e.getPublicShare (u64 v.index)
  if isValidSignature v.id v.sig pub then .ok () else .error (.err .unknown "invalid signature")

/-- tibe/vss_ibe.go:250-266 `ValidateVote`. -/
def validateVote (n : Node B) (name : Str) (v : Vote B) : Go Unit :=
  match n.shares.lookup name with
  | none => .error (.err .unknown "no share for node")
  | some s => checkVote s.expoly v

/-- tibe/vss_ibe.go:269-307 `ReconstructDecrypter(nodeName, votes)`. -/
def reconstructDecrypter (n : Node B) (name : Str) (votes : List (Vote B)) : Go B.G2 :=
  if votes.length = 0 then .error (.err .unknown "no votes")
  else match n.shares.lookup name with
    | none => .error (.err .unknown "no share for node/index")
    | some s => do
      votes.forM (checkVote s.expoly)
      reconstructKey votes s.expoly.threshold

end Node

/-! ### Publishers (scheme2.go) -/

/-- tibe/scheme2.go:29-38 `Player`. -/
structure Player (B : Bls) where
  t : Nat
  index : Int
  secretKey : Fr
  publicKey : B.G1
  publicKeys : List (PublicKey B)
  sharedPublicKey : B.G1

/-- tibe/scheme2.go:158-174 `computeSharedPubkey(threshold, xys, indices)`; `xys` is the map in its iteration order. -/
def computeSharedPubkey (threshold : Nat) (xys : GoMap Int B.G1) (indices : List Int) : Go B.G1 :=
  xys.foldlM (init := (0 : B.G1)) fun acc (i, pk) => do
    let m ← newLagrange threshold i indices
    .ok (acc + m • pk)

/-- Indexing a slice with a Go int. -/
def goIndexInt {α : Type} (a : List α) (i : Int) : Go α := if i < 0 then .error .panic else goIndex a i.toNat

/-- tibe/scheme2.go:82-92: the map of the first `threshold` keys, and the array of `threshold` indices, which stays zero beyond
the number of keys. -/
def collectKeys (threshold : Nat) (pubkeys : List (PublicKey B)) : GoMap Int B.G1 × List Int :=
  let ks := pubkeys.take threshold
  (ks.foldl (fun m k => m.insert k.index k.key) [], ks.map (·.index) ++ List.replicate (threshold - ks.length) 0)

/-- tibe/scheme2.go:81-107 `NewPublisher(threshold, privateKey, pubkeys)`; `order` is the iteration order of the map. -/
def newPublisher (threshold : Nat) (priv : PolyShare) (pubkeys : List (PublicKey B)) (order : GoMap Int B.G1) : Go (Player B) := do
  let shared ← computeSharedPubkey threshold order (collectKeys threshold pubkeys).2
  let own ← goIndexInt pubkeys (priv.index - 1)
  .ok { t := threshold, index := priv.index, secretKey := priv.value, publicKey := own.key, publicKeys := pubkeys,
        sharedPublicKey := shared }

/-- `p` is a possible result of NewPublisher: for some iteration order of the map. -/
def NewPublisher (threshold : Nat) (priv : PolyShare) (pubkeys : List (PublicKey B)) (p : Go (Player B)) : Prop :=
  ∃ order, order.Perm (collectKeys threshold pubkeys).1 ∧ p = newPublisher threshold priv pubkeys order

/-- tibe/scheme2.go:125-128, 204-208 `Secret`. -/
structure Secret (B : Bls) where
  id : Bytes
  hidingValue : B.G1
  encrypted : Bytes

namespace Player

/-- tibe/scheme2.go:111-117, 259-264 `Vote(id)`. -/
def vote (p : Player B) (id : Bytes) : Vote B := { index := p.index, id := id, sig := p.secretKey • B.hashG2 id }

/-- tibe/scheme2.go:120-122 `Verify(v)`: panics for an index outside 1..len(PublicKeys). -/
def verify (p : Player B) (v : Vote B) : Go Bool := do
  let k ← goIndexInt p.publicKeys (v.index - 1)
  .ok (isValidSignature v.id v.sig k.key)

/-- tibe/scheme2.go:131-146, 176-200, 215-218 `Hide(ID, msg)` with random scalar and IV. -/
def hide (p : Player B) (r : Fr) (iv : Bytes) (id msg : Bytes) : Go (Secret B) := do
  let key := B.hashGt (B.pair (r • p.sharedPublicKey) (B.hashG2 id))
  let c ← aesEncrypt B iv key msg
  .ok { id := id, hidingValue := r • B.gen1, encrypted := c }

/-- tibe/scheme2.go:149-156, 220-227 `Reveal(votes, secret)`: the result and the caller's secret afterwards (`aesDecrypt` works in
place on `secret.Encrypted`). -/
def reveal (p : Player B) (votes : List (Vote B)) (s : Secret B) : Go Bytes × Secret B :=
  match reconstructKey votes p.t with
  | .error e => (.error e, s)
  | .ok sk =>
    let (res, enc) := aesDecrypt B (B.hashGt (B.pair s.hidingValue sk)) s.encrypted
    (res, { s with encrypted := enc })

end Player
end Resmix.Tibe
