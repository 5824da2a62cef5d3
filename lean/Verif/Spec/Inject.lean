import Verif.Model.Sign
import Verif.Model.Parcel
set_option autoImplicit false
/-
C141: what a relay can make of the one parcel it is given.
-/
namespace Resmix.Rrpc

/-- A parcel made from the parcel `own`: relay index, method, length field and sender are replaced; payload and the rest of the note are copied. -/
def recast (own : Parcel) (i : Nat) (method : Str) (len : Bytes) (sender : Bytes) : Parcel :=
  { own with relayIndex := (i : Int), method := method, messageLength := len, signature := none
             note := { own.note with senderID := sender, senderMerkleProof := none } }

/-- A set of parcels made from `own` alone, one for every position, ready to be signed with another key. -/
def recastAll (own : Parcel) (n : Nat) (method : Str) (len : Bytes) (sender : Bytes) : List Parcel := (List.range n).map fun i => recast own i method len sender

/-- The call of an honest client (key `ck`): his parcels before and after signing; the parcel `own` that relay `r` gets of them; and what the relay makes of `own` alone, with
another method and another length field (computed from `own`) and its own key `ek`: a set of signed parcels, of which it uses the one with its index, `evil`. -/
structure Forged (S : SigScheme) (H : Merkle.HashFn) (cod : Codec) (ck ek : S.Sk) (net : Network) (C : Ecc.RS) (method : Str) (note : ExchangeNote) (args : Bytes) (r : Nat)
    (other : Str) (len : Parcel → Bytes) (out : List Parcel) (evil : Parcel) : Prop where
  made : ∃ parcels, RequestIntoRobust C false net method note args (.ok parcels) ∧ signRobust S H cod ck parcels = .ok out
  forged : ∃ own all, out[r]? = some own ∧
    signRobust S H cod ek (recastAll own net.serverAddresses.length other (len own) (S.pub ek)) = .ok all ∧ all[r]? = some evil

end Resmix.Rrpc
