import Verif.Model.DirectRace
set_option autoImplicit false
/- Vocabulary for C126. -/
namespace Resmix.Rrpc.DirectRace
open Resmix.Race Resmix.Rrpc.DirectClient
variable {ρ : Type}

/-- When a step of a careful run may be taken: every request can be sent; call ids are pairwise distinct; a response for a call arrives only after its request was
sent, and not while the cleanup is ending the call; and a request is changed only after its call got a response. -/
def Careful (s : State ρ) : Act ρ → Prop
  | .ev .sendFail => False
  | .ev (.call u _) => ∀ c ∈ s.inner.calls, c.uuid ≠ u
  | .ev (.respond u _) => ∀ (i : Nat) (c : Call ρ), s.inner.calls[i]? = some c → c.uuid = u → i ∈ s.sent ∧ s.inner.cleaner ≠ .notifying i ∧ s.inner.cleaner ≠ .deleting i
  | .reuse i => ∃ c x, s.inner.calls[i]? = some c ∧ c.got = some (.response x)
  | _ => True

/-- A run all of whose steps are careful. -/
def CarefulRun (ttl : Nat) (s : State ρ) : List (Act ρ) → Prop
  | [] => True
  | a :: as => Careful s a ∧ ∀ s', step ttl s a = some s' → CarefulRun ttl s' as

end Resmix.Rrpc.DirectRace
