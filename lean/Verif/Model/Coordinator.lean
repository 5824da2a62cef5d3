import Verif.Model.Network
set_option autoImplicit false
/-
Setting up and closing the connections of a coordinator: rrpc/coordinator.go:108-153, 250-267 and rrpc/net_conns.go:51-101, 248-344.
-/
namespace Resmix.Rrpc.Coordinator

/-- An open connection: what its `Close` returns (rrpc/net_conns.go:135-140, 248-251), `none` for nil. Not modelled here: waiting for the goroutines of the
connection. -/
structure Conn where
  closeErr : Option Str
deriving DecidableEq, Repr

/-- What may become of `newRelayConn` (rrpc/net_conns.go:51-101): a connection, or an error of `grpc.Dial` or of one of the two streams. -/
inductive RelayDial
  | ok (c : Conn)
  | fails (e : Str)

/-- What may happen in `newServerConn` (rrpc/net_conns.go:260-344): all goes well; `grpc.Dial` fails; or the stream cannot be opened, and `cc.Close()` returns
`closeErr`. -/
inductive ServerDial
  | ok (c : Conn)
  | dialFails (e : Str)
  | streamFails (closeErr : Option Str)

/-- rrpc/net_conns.go:260-344 `newServerConn`: pointer and error. -/
def newServerConn : ServerDial → Option Conn × Option Str
  | .ok c => (some c, none)
  | .dialFails e => (none, some e)
  | .streamFails closeErr => (none, closeErr)                     -- line 274

/-- The fields of rrpc/coordinator.go:48-64 used here; nil pointers are `none`. `closed`: `callResponseChan` is closed. -/
structure State where
  relayConns : GoMap Str Conn
  serverConns : GoMap Str (Option Conn)
  closed : Bool

/-- A new coordinator (lines 86-103). -/
def init : State := { relayConns := [], serverConns := [], closed := false }

/-- Lines 116-129: the loops of `Close`, over the connections in some order; the last result is returned. A nil connection: nil pointer dereference
(rrpc/net_conns.go:249). -/
def closeAll : List (Option Conn) → Option Str → Go (Option Str)
  | [], err => .ok err
  | none :: _, _ => .error .panic
  | some c :: rest, _ => closeAll rest c.closeErr

/-- rrpc/coordinator.go:108-130 `Close`: a possible result (the maps are ranged over in any order) and the state afterwards. -/
def Close (s : State) (res : Go (Option Str)) (s' : State) : Prop :=
  if s.closed then res = .error .panic ∧ s' = s                    -- close of closed channel (line 112)
  else ∃ rs ss : List (Option Conn), rs.Perm (s.relayConns.map fun e => some e.2) ∧ ss.Perm (s.serverConns.map fun e => e.2) ∧
    res = closeAll (rs ++ ss) none ∧ s' = { s with closed := true }

/-- rrpc/coordinator.go:250-267 `Dial`: a possible result (`ok none`: nil) and the state afterwards. For every server, what happens when it is dialled. -/
def Dial : List (Str × RelayDial × ServerDial) → State → Go (Option Str) → State → Prop
  | [], s, res, s' => res = .ok none ∧ s' = s
  | (_, .fails _, _) :: _, s, res, s' => Close s res s'
  | (a, .ok r, d) :: rest, s, res, s' => match newServerConn d with
    | (_, some _) => Close { s with relayConns := s.relayConns.insert a r } res s'
    | (c, none) => Dial rest { s with relayConns := s.relayConns.insert a r, serverConns := s.serverConns.insert a c } res s'

/-- rrpc/coordinator.go:140-153 `AsyncSend`: the address on whose connection the message is put. -/
def asyncSend (net : Network) (s : State) (key : Bytes) : Go Str :=
  if net.getHostname key = [] then .error (.err .notFound "public key not found")
  else match s.serverConns.lookup (net.getHostname key) with
    | none => .error (.err .internal "no connection to server")
    | some none => .error .panic                                    -- nil pointer (rrpc/net_conns.go:253-257)
    | some (some _) => .ok (net.getHostname key)

end Resmix.Rrpc.Coordinator
