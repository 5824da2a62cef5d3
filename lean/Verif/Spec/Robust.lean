import Verif.Model.Robust
set_option autoImplicit false
/-
What an accepted answer is, and which answers are well formed.
-/
namespace Resmix.Rrpc

/-- An answer of a relay together with what the certificate check says about it. -/
abbrev Answer := RelayStreamResponse × Go Unit

/-- The client accepts the answer: there is no error in it, it has a note and the certificate is valid. An error whose code is OK is
accepted as well (this is what makes C72 fail). -/
def Answer.accepted (a : Answer) : Bool :=
  match a.1.relayStreamError, a.1.response with
  | some s, _ => s.code == 0
  | none, none => false
  | none, some c => match c.rpcError with
    | some s => s.code == 0
    | none => c.note.isSome && a.2.toBool

/-- Judging the answer crashes the client: no error in it, and no note (or the check of the certificate crashes). -/
def Answer.crashes (a : Answer) : Prop :=
  a.1.relayStreamError = none ∧ ∃ c, a.1.response = some c ∧ c.rpcError = none ∧ (c.note = none ∨ a.2 = .error .panic)

/-- The error of an answer that is not accepted and does not crash the client: the status of the relay; or that the answer is empty
(code 13, internal); or the status of the server; or what is wrong with the certificate. -/
def Answer.Complaint (a : Answer) (e : CallErr) : Prop :=
  match a.1.relayStreamError, a.1.response with
  | some s, _ => e = .status s
  | none, none => ∃ msg, e = .status { code := 13, message := msg }
  | none, some c => match c.rpcError with
    | some s => e = .status s
    | none => ∃ f, a.2 = .error f ∧ e = .other f

/-- The answer arrives. -/
def Answer.ev (a : Answer) : RobustEv := .answer a.1 a.2

/-- A reply part of the right shape for `n` servers: a length field of at least 4 bytes, an index below `n`, at least 36 pieces. -/
def RrpcResponse.WellFormed (n : Nat) (p : RrpcResponse) : Prop :=
  4 ≤ p.messageLength.length ∧ 0 ≤ p.relayIndex ∧ p.relayIndex < n ∧ Ecc.numChunks ≤ p.payload.length

/-- An answer that is an error with a code other than OK, or empty, or has a note and a reply part of the right shape. -/
def RelayStreamResponse.WellFormed (n : Nat) (r : RelayStreamResponse) : Prop :=
  match r.relayStreamError with
  | some s => s.code ≠ 0
  | none => match r.response with
    | none => True
    | some c => match c.rpcError with
      | some s => s.code ≠ 0
      | none => c.note ≠ none ∧ ∃ p, c.response = some p ∧ p.WellFormed n

end Resmix.Rrpc
