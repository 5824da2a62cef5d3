import Verif.Model.Strings
set_option autoImplicit false
/-
The message storage of the client side: messages.go:126-185.
-/
namespace Resmix.Storage

/-- messages.go:126-129 `MessageOnionsPair`. -/
structure Pair where
  message : Bytes
  onions : List Bytes
deriving DecidableEq, Repr

/-- encoding/json on `[]MessageOnionsPair`, as a parameter. The laws: what was marshaled is unmarshaled to the same value, and what is left of it when its end
is missing is not valid JSON (it is an array, whose last byte is its closing bracket). -/
structure Json where
  marshal : List Pair → Bytes
  unmarshal : Bytes → Option (List Pair)
  round_trip : ∀ x, unmarshal (marshal x) = some x
  cut : ∀ x k, k < (marshal x).length → unmarshal ((marshal x).take k) = none

/-- messages.go:17 `defaultMessageStoreageLocation`: "message.storage". -/
def storageLocation : Str := [109, 101, 115, 115, 97, 103, 101, 46, 115, 116, 111, 114, 97, 103, 101]

/-- messages.go:153 `fmt.Sprintf("%v.round.%v.%v", round, numClients, m.messageStoreageLocation)`. (Negative numbers are left out: rounds are unsigned, and a
negative number of clients panics, messages.go:188.) -/
def fileName (numClients round : Nat) : Str :=
  dec round ++ [46, 114, 111, 117, 110, 100, 46] ++ dec numClients ++ [46] ++ storageLocation

/-- The files in the working directory. -/
abbrev Files := Str → Option Bytes

/-- A file written. -/
def Files.write (fs : Files) (name : Str) (content : Bytes) : Files := fun n => if n = name then some content else fs n

/-- An error of encoding/json; the text is not modelled. -/
def jsonErr : Fail := .err .unknown "json"

/-- messages.go:173-185 `loadMessages` of a file that exists. -/
def loadMessages (J : Json) (content : Bytes) : Go (List Pair) :=
  match J.unmarshal content with
  | some x => .ok x
  | none => .error jsonErr

/-- messages.go:152-171 `LoadOrCreateMessages`, when `generateOnions` (Model/Generate) returns `gen`. -/
def loadOrCreate (J : Json) (fs : Files) (numClients round : Nat) (gen : List Pair) : Files × Go (List Pair) :=
  match fs (fileName numClients round) with
  | some content => (fs, loadMessages J content)
  | none => (fs.write (fileName numClients round) (J.marshal gen), .ok gen)

/-- messages.go:166: the process dies in, or the disk fills up during, `os.WriteFile`, which has created the file and written `k` bytes. -/
def interrupted (J : Json) (fs : Files) (numClients round : Nat) (gen : List Pair) (k : Nat) : Files :=
  match fs (fileName numClients round) with
  | some _ => fs
  | none => fs.write (fileName numClients round) ((J.marshal gen).take k)

/-- What may happen: a call that completes, or one that does not. (One after the other: two processes writing the same file at the same time are not modelled.) -/
inductive Ev
  | call (numClients round : Nat) (gen : List Pair)
  | crash (numClients round : Nat) (gen : List Pair) (k : Nat)

/-- The files afterwards. -/
def step (J : Json) (fs : Files) : Ev → Files
  | .call n r gen => (loadOrCreate J fs n r gen).1
  | .crash n r gen k => interrupted J fs n r gen k

/-- A history. -/
def run (J : Json) (fs : Files) (evs : List Ev) : Files := evs.foldl (step J) fs

/-- messages.go:133-140 `AllOnions`: `m[0]` panics for an empty array. -/
def allOnions (m : List Pair) : Go (List Bytes) :=
  match m with
  | [] => .error .panic
  | _ :: _ => .ok (m.flatMap (·.onions))

/-- messages.go:142-149 `AllMessages`. -/
def allMessages (m : List Pair) : List Bytes := m.map (·.message)

end Resmix.Storage
