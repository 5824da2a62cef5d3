import Verif.Spec.Race
set_option autoImplicit false
/-
The memory accesses of the client side of robust calls: rrpc/client.go:242-349, rrpc/coordinator.go:163-232, 240-244, rrpc/net_conns.go:40-215, rrpc/gc.go:16-33. What
is computed is in Model/Parcel, Model/Robust and Model/RelayConn; here are the goroutines, the objects they pass on, and what they read and write.
-/
namespace Resmix.Rrpc.RobustRace
open Resmix.Race

/-- Goroutines: users; of the connection to relay `i`: the one that sends parcels (rrpc/net_conns.go:157), the one that receives (line 186), the cleanup (line 94), the one
that sends proofs (line 103); the receiver of client `d` (rrpc/client.go:72). -/
inductive Gor
  | user (u : Nat)
  | sender (i : Nat)
  | receiver (i : Nat)
  | cleanup (i : Nat)
  | prover (i : Nat)
  | direct (d : Nat)
deriving DecidableEq

/-- Memory: a Request with its arguments and reply; the relay requests of call `c`, which share memory (certificates, the length field); a response; a proof with its note. -/
inductive Loc
  | req (r : Nat)
  | parts (c : Nat)
  | resp (m : Nat)
  | proof (p : Nat)
deriving DecidableEq

/-- Synchronisation objects: the entry of call `c` in `liveTasks` of relay `i` (rrpc/net_conns.go:147); its message on `requests` (line 151); a message on the call's
response channel (lines 45, 213); a message on `sendProofChan` of relay `i` (line 126). -/
inductive Obj
  | live (c i : Nat)
  | sent (c i : Nat)
  | answer (m : Nat)
  | pub (p i : Nat)
deriving DecidableEq

abbrev Entry := Event Gor Loc Obj

/-- A call: who makes it, with which Request; how many of its parcels were passed on; the responses it keeps. -/
structure Call where
  user : Nat
  req : Nat
  next : Nat
  got : List Nat

/-- Who used which Request; the calls so far; which entries were stored; which parcels wait to be sent; the responses so far: for which call, and whether still on the
channel; which proofs wait at which relay; how many proofs there are; the accesses so far. -/
structure State where
  uses : List (Nat × Nat)
  calls : List Call
  live : List (Nat × Nat)
  queue : List (Nat × Nat)
  resps : List (Nat × Bool)
  pubs : List (Nat × Nat)
  proofs : Nat
  trace : List Entry

def State.init : State := ⟨[], [], [], [], [], [], 0, []⟩

/-- One step of the client side of a network with `n` relays. Users are not stopped from doing other things while a call of theirs is waiting, entries of `liveTasks` can be
found any number of times, channels are not bounded: this can only add executions. -/
inductive Step (n : Nat) : State → State → Prop
  /-- A user does something to a Request. -/
  | touch (s : State) (u r : Nat) :
      Step n s { s with uses := s.uses ++ [(u, r)], trace := s.trace ++ [⟨.user u, .write (.req r)⟩] }
  /-- rrpc/client.go:242-263, 279-321: pack writes the Request, the relay requests are made and signed. -/
  | call (s : State) (u r : Nat) :
      Step n s { s with uses := s.uses ++ [(u, r)], calls := s.calls ++ [⟨u, r, 0, []⟩],
                        trace := s.trace ++ [⟨.user u, .write (.req r)⟩, ⟨.user u, .write (.parts s.calls.length)⟩] }
  /-- rrpc/coordinator.go:172-182, rrpc/net_conns.go:146-155. -/
  | send (s : State) (c : Nat) (x : Call) : s.calls[c]? = some x → x.next < n →
      Step n s { s with calls := s.calls.set c { x with next := x.next + 1 }, live := s.live ++ [(c, x.next)], queue := s.queue ++ [(c, x.next)],
                        trace := s.trace ++ [⟨.user x.user, .read (.parts c)⟩, ⟨.user x.user, .release (.live c x.next)⟩, ⟨.user x.user, .release (.sent c x.next)⟩] }
  /-- rrpc/net_conns.go:147-150: the connection is closed. -/
  | closed (s : State) (c : Nat) (x : Call) : s.calls[c]? = some x → x.next < n →
      Step n s { s with calls := s.calls.set c { x with next := x.next + 1 }, live := s.live ++ [(c, x.next)],
                        trace := s.trace ++ [⟨.user x.user, .read (.parts c)⟩, ⟨.user x.user, .release (.live c x.next)⟩] }
  /-- rrpc/net_conns.go:171-172: the parcel is encoded. -/
  | transmit (s : State) (c i : Nat) (l₁ l₂ : List (Nat × Nat)) : s.queue = l₁ ++ (c, i) :: l₂ →
      Step n s { s with queue := l₁ ++ l₂, trace := s.trace ++ [⟨.sender i, .acquire (.sent c i)⟩, ⟨.sender i, .read (.parts c)⟩] }
  /-- rrpc/net_conns.go:193-213: a response with the id of call `c`. -/
  | answer (s : State) (c i : Nat) : (c, i) ∈ s.live →
      Step n s { s with resps := s.resps ++ [(c, true)],
                        trace := s.trace ++ [⟨.receiver i, .write (.resp s.resps.length)⟩, ⟨.receiver i, .acquire (.live c i)⟩, ⟨.receiver i, .release (.answer s.resps.length)⟩] }
  /-- rrpc/gc.go:16-29, rrpc/net_conns.go:44-49: the call is too old. -/
  | expire (s : State) (c i : Nat) : (c, i) ∈ s.live →
      Step n s { s with resps := s.resps ++ [(c, true)],
                        trace := s.trace ++ [⟨.cleanup i, .acquire (.live c i)⟩, ⟨.cleanup i, .read (.parts c)⟩, ⟨.cleanup i, .write (.resp s.resps.length)⟩,
                          ⟨.cleanup i, .release (.answer s.resps.length)⟩] }
  /-- rrpc/coordinator.go:195-208, 218-232: Verify takes the certificate out of the response and puts it back. -/
  | take (s : State) (c m : Nat) (x : Call) : s.calls[c]? = some x → s.resps[m]? = some (c, true) →
      Step n s { s with calls := s.calls.set c { x with got := x.got ++ [m] }, resps := s.resps.set m (c, false),
                        trace := s.trace ++ [⟨.user x.user, .acquire (.answer m)⟩, ⟨.user x.user, .write (.resp m)⟩] }
  /-- rrpc/client.go:270-276, 323-349: the responses are decoded, the reply is written. -/
  | finish (s : State) (c : Nat) (x : Call) : s.calls[c]? = some x →
      Step n s { s with uses := s.uses ++ [(x.user, x.req)],
                        trace := s.trace ++ (x.got.map (fun m => ⟨.user x.user, .read (.resp m)⟩) ++ [⟨.user x.user, .write (.req x.req)⟩]) }
  /-- rrpc/client.go:92-95, rrpc/coordinator.go:240-244, rrpc/net_conns.go:124-133: a proof is passed to some of the relays' connections (line 131: not if the channel is full). -/
  | publish (s : State) (d : Nat) (dst : List Nat) :
      Step n s { s with proofs := s.proofs + 1, pubs := s.pubs ++ dst.map (fun i => (s.proofs, i)),
                        trace := s.trace ++ ([⟨.direct d, .write (.proof s.proofs)⟩] ++ dst.map (fun i => ⟨.direct d, .release (.pub s.proofs i)⟩)) }
  /-- rrpc/net_conns.go:114-117: it is encoded. -/
  | prove (s : State) (p i : Nat) (l₁ l₂ : List (Nat × Nat)) : s.pubs = l₁ ++ (p, i) :: l₂ →
      Step n s { s with pubs := l₁ ++ l₂, trace := s.trace ++ [⟨.prover i, .acquire (.pub p i)⟩, ⟨.prover i, .read (.proof p)⟩] }

inductive Reach (n : Nat) : State → Prop
  | init : Reach n .init
  | step (s s' : State) : Reach n s → Step n s s' → Reach n s'

/-- No Request is used by two goroutines. -/
def Separate (s : State) : Prop := ∀ u u' r, (u, r) ∈ s.uses → (u', r) ∈ s.uses → u = u'

end Resmix.Rrpc.RobustRace
