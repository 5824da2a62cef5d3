import Verif.Model.Onion
set_option autoImplicit false
/-
Model of sender.go: what the sender goroutine does with one batch taken from the mixer.
-/
namespace Resmix.Sender
open Resmix.Mixer (Messages MixOutput)
open Resmix.Onion

/-- sender.go:19-28 `messageSender`; of the connections only the set of known hosts matters here. -/
structure MessageSender where
  round : Nat
  topo : Topology
  connections : List Str
  address : Str

/-- The request handed to DirectCall (rrpc.Request with AddMessagesRequest arguments, sender.go:61-64, 79-85), and the host whose
connection is used. -/
structure Request where
  host : Str
  method : Str
  uuid : Str
  round : Nat
  messages : List Messages
deriving DecidableEq, Repr

/-- `fmt` verb `%v` of a []byte: the decimal values of the bytes, separated by spaces, in brackets. -/
def fmtBytes (b : Bytes) : Str := [91] ++ ((b.map fun x => dec x.toNat).intersperse [32]).flatten ++ [93]

/-- sender.go:83 `fmt.Sprintf("%v-to-%v:from-%v", m.address, host, string(logicalSender))`, where m.address is a []byte. -/
def uuidOf (address host logicalSender : Str) : Str :=
  fmtBytes address ++ [45, 116, 111, 45] ++ host ++ [58, 102, 114, 111, 109, 45] ++ logicalSender

/-- "/resmix.Mix/AddMessages" (sender.go:82). -/
def addMessagesMethod : Str :=
  [47, 114, 101, 115, 109, 105, 120, 46, 77, 105, 120, 47, 65, 100, 100, 77, 101, 115, 115, 97, 103, 101, 115]

/-- sender.go:58-87 `createRRPCRequest`; `order` is the iteration order of the map of groups. -/
def createRequest (s : MessageSender) (out : MixOutput) (host : Str) (order : GoMap Str (List Bytes)) : Request :=
  { host := host, method := addMessagesMethod, uuid := uuidOf s.address host out.logicalSender, round := s.round % 2^32,
    messages := order.map fun e =>
      { messages := e.2, physicalSender := s.address, logicalSender := out.logicalSender, logicalReceiver := e.1 } }

/-- `rq` is a possible result of createRRPCRequest. -/
def CreateRequest (s : MessageSender) (out : MixOutput) (host : Str) (onions : List Bytes) (rq : Go Request) : Prop :=
  match groupOnionsByMixName onions s.topo with
  | .error e => rq = .error e
  | .ok g => ∃ order, order.Perm g ∧ rq = .ok (createRequest s out host order)

/-- sender.go:48-54, the loop over the hosts in iteration order; a missing connection is a nil interface, whose method call panics.
The result lists the calls issued; whether a call fails makes no difference (line 52 only logs). -/
def SendHosts (s : MessageSender) (out : MixOutput) : GoMap Str (List Bytes) → Go (List Request) → Prop
  | [], res => res = .ok []
  | (host, onions) :: rest, res => ∃ rq, CreateRequest s out host onions rq ∧
      match rq with
      | .error e => res = .error e
      | .ok rq => if host ∈ s.connections then ∃ r, SendHosts s out rest r ∧ res = r.map (rq :: ·) else res = .error .panic

/-- sender.go:44-55: one iteration of the worker loop, for the batch `out`. -/
def SendBatch (s : MessageSender) (out : MixOutput) (res : Go (List Request)) : Prop :=
  match groupOnionsByHostname out.onions s.topo with
  | .error e => res = .error e
  | .ok g => ∃ order, order.Perm g ∧ SendHosts s out order res

end Resmix.Sender
