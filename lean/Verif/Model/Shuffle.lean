import Verif.Model.Base
/-
Model of shuffle.go.
-/
namespace Resmix.Shuffle

/-- `io.Reader` (shuffle.go:13): a state machine. One `Read(buf)` with `len(buf) = n` returns the bytes it wrote at the front
of the buffer (only the first n count), whether it returned an error, and the next state. -/
structure Reader where
  σ : Type
  read : σ → Nat → Bytes × Bool × σ

/-- shuffle.go:61-66 `randInt`, first half: `tmp := make([]byte,4); _, _ = rand.Read(tmp)`; the error is ignored, so
bytes that were not written stay zero. -/
def readWord (rd : Reader) (s : rd.σ) : Bytes × rd.σ :=
  let r := rd.read s 4
  ((r.1 ++ [0, 0, 0, 0]).take 4, r.2.2)

/-- shuffle.go:61-66 `randInt(mod)`; `val % mod` panics for mod = 0 (never reached, see proofs). -/
def randInt (rd : Reader) (s : rd.σ) (mod : Nat) : Go (Nat × rd.σ) :=
  let w := readWord rd s
  if mod = 0 then .error .panic else .ok (beNat w.1 % mod, w.2)

/-- shuffle.go:54 `arr[i], arr[j] = arr[j], arr[i]`. -/
def swapAt (arr : List Nat) (i j : Nat) : Go (List Nat) := do
  let aj ← goIndex arr j
  let ai ← goIndex arr i
  let arr1 ← goSet arr i aj
  goSet arr1 j ai

/-- shuffle.go:52-55 the loop `for i := n-1; i >= 0; i--`; the argument `k` is `i+1`, i.e. the number of iterations left. -/
def permLoop (rd : Reader) : Nat → rd.σ → List Nat → Go (List Nat × rd.σ)
  | 0, s, arr => .ok (arr, s)
  | k + 1, s, arr => do
    let (j, s') ← randInt rd s (k + 1)
    let arr' ← swapAt arr k j
    permLoop rd k s' arr'

/-- shuffle.go:46-58 `permutation(n)`, returning the array stored in `shf.perm`. -/
def permutation (rd : Reader) (s : rd.σ) (n : Nat) : Go (List Nat × rd.σ) :=
  permLoop rd n s (List.range n)

/-- shuffle.go:11-14 `Shuffler`. -/
structure Shuffler (rd : Reader) where
  perm : Option (List Nat)
  rand : rd.σ

/-- shuffle.go:18-27 `NewShuffler(rand)` for a non-nil reader (a nil reader panics; the only caller, mixer.go:142, passes
crypto/rand.Reader). -/
def newShuffler (rd : Reader) (s : rd.σ) : Shuffler rd := ⟨none, s⟩

/-- shuffle.go:35-37: the test that decides whether a new permutation is drawn. -/
def needsPerm {rd : Reader} (shf : Shuffler rd) (len : Nat) : Bool :=
  match shf.perm with
  | none => true
  | some p => p.length != len

/-- shuffle.go:40-42 `for i := ...len(in) { in[i] = orig[p[i]] }`. -/
def applyPerm {α : Type} (p : List Nat) (orig : List α) : Go (List α) :=
  (List.range orig.length).mapM fun i => do
    let pi ← goIndex p i
    goIndex orig pi

/-- shuffle.go:30-43 `ShuffleOnions(in)`: returns the new content of `in` and the shuffler afterwards. -/
def shuffleOnions {α : Type} {rd : Reader} (shf : Shuffler rd) (inp : List α) : Go (List α × Shuffler rd) := do
  if needsPerm shf inp.length then
    let (p, s') ← permutation rd shf.rand inp.length
    let out ← applyPerm p inp
    .ok (out, ⟨some p, s'⟩)
  else
    match shf.perm with
    | none => .error .panic
    | some p =>
      let out ← applyPerm p inp
      .ok (out, shf)

/-- A sequence of `ShuffleOnions` calls on one shuffler; returns the outputs in call order and the final shuffler. -/
def shuffleAll {α : Type} {rd : Reader} : Shuffler rd → List (List α) → Go (List (List α) × Shuffler rd)
  | shf, [] => .ok ([], shf)
  | shf, x :: xs => do
    let (o, shf') ← shuffleOnions shf x
    let (os, shf'') ← shuffleAll shf' xs
    .ok (o :: os, shf'')

/-- A reader that delivers a script of words and zeros afterwards, one word for each read and no more bytes than asked for; with an arbitrary script it
stands for crypto/rand.Reader (mixer.go:142). -/
def scripted : Reader where
  σ := List Bytes
  read := fun s n => match s with
    | [] => (List.replicate n 0, false, [])
    | w :: ws => (w.take n, false, ws)

end Resmix.Shuffle
