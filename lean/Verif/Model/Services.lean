import Verif.Model.GoMap
import Verif.Model.Strings
set_option autoImplicit false
/-
Model of rrpc/services.go. Not modelled: nil entries in a service table.
-/
namespace Resmix.Rrpc

/-- strings.LastIndex(s, "/") (Go library): the last position of a slash, searched from the end. -/
def lastSlashFrom (s : Str) : Nat → Option Nat
  | 0 => none
  | i + 1 => if s[i]? = some 47 then some i else lastSlashFrom s i

/-- strings.LastIndex(s, "/"); `none` for -1. -/
def lastSlash (s : Str) : Option Nat := lastSlashFrom s s.length

/-- rrpc/services.go:27-40 `extractMethodInfo`: service and method name. The text of the error is simplified. -/
def extractMethodInfo (name : Str) : Go (Str × Str) :=
  let name := match name with
    | [] => name
    | c :: rest => if c = 47 then rest else name
  match lastSlash name with
  | none => .error (.err .invalidArgument "method name could not be parsed")
  | some pos => .ok (name.take pos, name.drop (pos + 1))

/-- rrpc/services.go:19-23 `ServiceDesc`: `ζ` are server objects, `μ` handlers. The server type is not used by the code. -/
structure ServiceDesc (ζ μ : Type) where
  server : ζ
  methods : GoMap Str μ

/-- rrpc/services.go:25 `Services`. -/
abbrev Services (ζ μ : Type) := GoMap Str (ServiceDesc ζ μ)

variable {ζ μ η : Type}

/-- rrpc/services.go:42-62 `getServiceAndMethodDesc`: the server object and the handler. The texts of the errors are simplified. -/
def Services.get (s : Services ζ μ) (name : Str) : Go (ζ × μ) :=
  match extractMethodInfo name with
  | .error e => .error e
  | .ok (service, method) => match GoMap.lookup s service with
    | none => .error (.err .invalidArgument "service does not exist")
    | some d => match d.methods.lookup method with
      | none => .error (.err .invalidArgument "method does not exist")
      | some m => .ok (d.server, m)

/-- rrpc/services.go:64-83 `SingleServiceFromGRPCServiceDesc`; `wrap` turns a gRPC handler into one that passes no interceptor (line 71). -/
def singleService (wrap : η → μ) (serviceName : Str) (methods : List (Str × η)) (server : ζ) : Services ζ μ :=
  GoMap.insert [] serviceName { server := server, methods := methods.foldl (fun m e => GoMap.insert m e.1 (wrap e.2)) [] }

end Resmix.Rrpc
