import Verif.Model.Services
set_option autoImplicit false
/-
The "bypass" mode of the RPC layer: rrpc/grpc_wrapper.go and rrpc/interfaces.go. The service table of google.golang.org/grpc (server.go `register` and `handleStream` of
version 1.51) is modelled too, because the property is about what is dispatched. Not modelled: the transport, interceptors (line 23 drops the one handed in), the
check of the handler's type.
-/
namespace Resmix.Rrpc.Bypass
variable {ζ μ : Type}

/-- rrpc/grpc_wrapper.go:27-31: `ms[i] = …; i += 1`. -/
def assign (acc : Go (Nat × List (Option (Str × μ)))) (e : Str × μ) : Go (Nat × List (Option (Str × μ))) :=
  match acc with
  | .error f => .error f
  | .ok p => match goSet p.2 p.1 (some e) with
    | .error f => .error f
    | .ok ms => .ok (p.1 + 1, ms)

/-- rrpc/grpc_wrapper.go:19-32: the array of methods. `order`: the entries of the map in the order in which `range` visits them; `ms[i]` panics if there are more
entries than `n`, the length the array was made with; entries that are never assigned keep no name and no handler. -/
def methodArray (n : Nat) (order : List (Str × μ)) : Go (List (Option (Str × μ))) :=
  match order.foldl assign (.ok (0, List.replicate n none)) with
  | .error f => .error f
  | .ok p => .ok p.2

/-- grpc's table of a server: service name ↦ server object and methods. -/
abbrev Table (ζ μ : Type) := GoMap Str (ζ × GoMap Str (Option μ))

/-- google.golang.org/grpc `(*Server).register`: `info.methods[d.MethodName] = d` for one method. One that was never assigned is registered under the empty name,
with a nil handler. -/
def addMethod (m : GoMap Str (Option μ)) : Option (Str × μ) → GoMap Str (Option μ)
  | some e => GoMap.insert m e.1 (some e.2)
  | none => GoMap.insert m [] none

/-- google.golang.org/grpc `(*Server).register`: a service name registered twice is fatal. -/
def register (t : Table ζ μ) (name : Str) (server : ζ) (ms : List (Option (Str × μ))) : Go (Table ζ μ) :=
  match GoMap.lookup t name with
  | some _ => .error .panic
  | none => .ok (GoMap.insert t name (server, ms.foldl addMethod []))

/-- rrpc/grpc_wrapper.go:18-42: one service, with the order in which its methods are visited. -/
def addService (acc : Go (Table ζ μ)) (e : (Str × ServiceDesc ζ μ) × List (Str × μ)) : Go (Table ζ μ) :=
  match acc with
  | .error f => .error f
  | .ok t => match methodArray e.1.2.methods.length e.2 with
    | .error f => .error f
    | .ok ms => register t e.1.1 e.1.2.server ms

/-- rrpc/grpc_wrapper.go:15-46 `newGrpcServer`, the loop over the services, in the order `order` in which `range` visits them, each with the order of its methods. -/
def newGrpcServer (order : List ((Str × ServiceDesc ζ μ) × List (Str × μ))) : Go (Table ζ μ) := order.foldl addService (.ok [])

/-- google.golang.org/grpc `(*Server).handleStream`: the name of a stream is split as in rrpc/services.go:27-40; an unknown method is answered with the code
Unimplemented (12), as is a name without slash. A nil handler panics. -/
def dispatch (t : Table ζ μ) (name : Str) : Go (ζ × μ) :=
  match extractMethodInfo name with
  | .error _ => .error (.err (.other 12) "malformed method name")
  | .ok (service, method) => match GoMap.lookup t service with
    | none => .error (.err (.other 12) "unknown service")
    | some (server, methods) => match methods.lookup method with
      | none => .error (.err (.other 12) "unknown method")
      | some none => .error .panic
      | some (some h) => .ok (server, h)

/-- rrpc/grpc_wrapper.go:77-79 `RobustCall`. -/
def robustCall : Go Unit := .error (.err (.other 12) "grpc doesn't have this functionality")

/- The goroutine of an asynchronous call. -/

/-- Where the goroutine of lines 69-72 is: in `DirectCall`, about to send its result, about to close the channel, at its end. -/
inductive Pc (ρ : Type)
  | calling
  | sending (x : ρ)
  | closing
  | done
deriving DecidableEq

/-- What a receive of the user gives. -/
inductive Recv (ρ : Type)
  | value (x : ρ)
  | closed
deriving DecidableEq

/-- rrpc/grpc_wrapper.go:66-75 `AsyncDirectCall`: the channel of capacity 1 (line 67), the goroutine and what the user has received so far. -/
structure Async (ρ : Type) where
  pc : Pc ρ
  buf : List ρ
  closed : Bool
  got : List (Recv ρ)

/-- `AsyncDirectCall` has returned. -/
def Async.init {ρ : Type} : Async ρ := { pc := .calling, buf := [], closed := false, got := [] }

/-- The steps: `DirectCall` returns `x` (line 70); the send, possible while the channel has room; the close (line 71); a receive by the user, possible if there is a
value or the channel is closed. -/
inductive Async.Step {ρ : Type} : Async ρ → Async ρ → Prop
  | ret (s : Async ρ) (x : ρ) : s.pc = .calling → Step s { s with pc := .sending x }
  | send (s : Async ρ) (x : ρ) : s.pc = .sending x → s.buf.length < 1 → Step s { s with pc := .closing, buf := s.buf ++ [x] }
  | close (s : Async ρ) : s.pc = .closing → Step s { s with pc := .done, closed := true }
  | recv (s : Async ρ) (x : ρ) (l : List ρ) : s.buf = x :: l → Step s { s with buf := l, got := s.got ++ [.value x] }
  | recvClosed (s : Async ρ) : s.buf = [] → s.closed = true → Step s { s with got := s.got ++ [.closed] }

/- rrpc/interfaces.go -/

/-- rrpc/interfaces.go:22-27 `Configs`, as far as it decides what is made. -/
structure Configs where
  isGrpc : Bool
  hasCoordinator : Bool

/-- What NewServer and NewConnection make. -/
inductive Made
  | grpc
  | rrpc
deriving DecidableEq

/-- rrpc/interfaces.go:29-31 `isEmpty`. -/
def Configs.isEmpty (c : Configs) : Bool := !c.hasCoordinator && !c.isGrpc

/-- rrpc/interfaces.go:35-49 `NewServer`, 51-61 `NewConnection`: which kind is made (its own constructor may still fail). -/
def make (c : Configs) : Go Made :=
  if c.isEmpty then .error (.err .unknown "no configs provided")
  else if c.isGrpc then .ok .grpc
  else .ok .rrpc

end Resmix.Rrpc.Bypass
