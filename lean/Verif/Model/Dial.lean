import Verif.Model.Bypass
set_option autoImplicit false
/-
The connections of a mix server: server.go:199-223, with rrpc/interfaces.go:51-61, rrpc/client.go:60-63, 177-214 and rrpc/grpc_wrapper.go:48-54, 81-90.
-/
namespace Resmix.Dial
open Resmix.Rrpc.Bypass (Configs Made make)

/-- What the outside decides for a host: whether grpc.Dial accepts the name (it does not wait for the host), whether the coordinator knows the host's public key,
whether the host answers now. -/
structure Net where
  valid : Str → Bool
  known : Str → Bool
  up : Str → Bool

/-- A connection object. -/
structure Conn where
  host : Str
  isOpen : Bool
deriving DecidableEq

/-- The part of a mix server used here: all connection objects it has made, and `Connections` (server.go:48), which holds positions in that list. -/
structure State where
  made : List Conn
  connections : GoMap Str Nat

/-- server.go:95: `NewMixServer`. -/
def init : State := { made := [], connections := [] }

/-- rrpc/interfaces.go:51-61 `NewConnection`. In bypass mode rrpc/grpc_wrapper.go:81-90: fails if grpc.Dial does. Else rrpc/client.go:177-214 `newClient`: panics if the
host is not known (lines 179-182), if grpc.Dial fails (184-187), if the stream cannot be opened (210-212). -/
def newConnection (cnf : Configs) (net : Net) (host : Str) : Go Unit :=
  match make cnf with
  | .error e => .error e
  | .ok .grpc => if net.valid host then .ok () else .error (.err .unknown "dial")
  | .ok .rrpc => if net.known host && net.valid host && net.up host then .ok () else .error .panic

/-- Close of one connection: rrpc/grpc_wrapper.go:52-54 (grpc: an error if it is closed already); rrpc/client.go:60-63 (never fails). -/
def closeConn (cnf : Configs) (s : State) (i : Nat) : State × Go Unit :=
  match s.made[i]? with
  | none => (s, .error .panic)
  | some c =>
    ({ s with made := s.made.set i { c with isOpen := false } },
      if cnf.isGrpc && !c.isOpen then .error (.err .canceled "grpc: the client connection is closing") else .ok ())

/-- server.go:215-223 `Close`, the loop: the entries in the order `range` visits them. -/
def closeAll (cnf : Configs) (s : State) : List (Str × Nat) → State × Go Unit
  | [] => (s, .ok ())
  | e :: es => match closeConn cnf s e.2 with
    | (s', .ok ()) => closeAll cnf s' es
    | (s', .error f) => (s', .error f)

/-- server.go:215-223 `Close`: `r` is a possible outcome. -/
def Close (cnf : Configs) (s : State) (r : State × Go Unit) : Prop :=
  ∃ order, order.Perm s.connections ∧ r = closeAll cnf s order

/-- server.go:195-213 `Dial`: `r` is a possible outcome (the order in which a Close visits the connections is free). -/
inductive Dial (cnf : Configs) (net : Net) : State → List Str → State × Go Unit → Prop
  | done (s : State) : Dial cnf net s [] (s, .ok ())
  | connected (s : State) (host : Str) (peers : List Str) (r : State × Go Unit) : newConnection cnf net host = .ok () →
      Dial cnf net { made := s.made ++ [{ host := host, isOpen := true }], connections := s.connections.insert host s.made.length } peers r →
      Dial cnf net s (host :: peers) r
  | panic (s : State) (host : Str) (peers : List Str) : newConnection cnf net host = .error .panic → Dial cnf net s (host :: peers) (s, .error .panic)
  | failed (s s' : State) (host : Str) (peers : List Str) (c : Code) (m : String) : newConnection cnf net host = .error (.err c m) →
      Close cnf s (s', .ok ()) → Dial cnf net s (host :: peers) (s', .error (.err c m))
  | failedTwice (s s' : State) (host : Str) (peers : List Str) (c c' : Code) (m m' : String) : newConnection cnf net host = .error (.err c m) →
      Close cnf s (s', .error (.err c' m')) → Dial cnf net s (host :: peers) (s', .error (.err c' m'))

/-- config/config.go:35-46: the peers of every server of a system are the hosts of all servers of the system (also itself), in order. -/
def peersOf (addresses : List Str) : List Str := addresses

end Resmix.Dial
