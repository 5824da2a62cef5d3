import Verif.Model.Strings
import Verif.Spec.Race
set_option autoImplicit false
/-
The tables of connections while Dial runs: rrpc/coordinator.go:250-267 fills `relayConns` and `serverConns` (no lock) while handlers and callers use them
(lines 117, 123, 146, 164, 173, 235, 241, 247); server.go:195-213 fills `Connections` while the senders of rounds use it (sender.go:51). The Go runtime marks a map
during a write (hashWriting) and ends the process when a lookup, or a step of a range, finds the mark ("concurrent map read and map write"); len does not look
at it. Connections that cannot be made are in Model/Coordinator and Model/Dial.
-/
namespace Resmix.DialRace
open Resmix.Race

/-- What a use of a table found: whether a host has an entry; the number of entries; the hosts visited. -/
inductive Ans
  | has (tab : Nat) (h : Str) (yes : Bool)
  | len (tab : Nat) (n : Nat)
  | keys (tab : Nat) (hs : List Str)
deriving DecidableEq

/-- Goroutines: `none` is the one that runs Dial. Memory: the tables, by number. One synchronisation object: the return of Dial. -/
abbrev Entry := Event (Option Nat) Nat Unit

/-- The tables (the hosts with an entry), the map being written, what Dial has still to write, whether it has returned, whether the process was ended; and the
history: what every use found, and all accesses. -/
structure State where
  tables : Nat → List Str
  writing : Option Nat
  plan : List (Nat × Str)
  returned : Bool
  died : Bool
  answers : List (Nat × Ans)
  trace : List Entry

/-- What may happen: Dial begins, ends the write of its next entry; it returns; goroutine `g` comes to know that it has returned; `g` looks a host up
(AsyncSend, rrpc/coordinator.go:146; RobustRequest, 173; GetRelayConn, 247; sender.go:51), asks for the number of entries (RobustRequest, 164), or goes
through a table (Close, CancelRequest, PublishProof: 117-127, 235, 241; here in one step). -/
inductive Act
  | begin
  | finish
  | ret
  | learn (g : Nat)
  | look (g tab : Nat) (h : Str)
  | size (g tab : Nat)
  | range (g tab : Nat)
deriving DecidableEq

/-- Assignment to a map: the entry is new or replaced. -/
def put (t : Nat → List Str) (tab : Nat) (h : Str) : Nat → List Str :=
  fun n => if n = tab then (if h ∈ t n then t n else t n ++ [h]) else t n

/-- An access with the runtime's check. -/
def use (s : State) (g tab : Nat) (a : Ans) : State :=
  if s.writing = some tab then { s with died := true, trace := s.trace ++ [⟨some g, .read tab⟩] }
  else { s with answers := s.answers ++ [(g, a)], trace := s.trace ++ [⟨some g, .read tab⟩] }

/-- One step; `none`: not possible now. -/
def step (s : State) (a : Act) : Option State :=
  if s.died then none else
  match a with
  | .begin => match s.plan with
    | [] => none
    | (tab, _) :: _ => if s.writing = none then some { s with writing := some tab, trace := s.trace ++ [⟨none, .write tab⟩] } else none
  | .finish => match s.plan with
    | [] => none
    | (tab, h) :: rest => if s.writing = none then none else some { s with writing := none, plan := rest, tables := put s.tables tab h, trace := s.trace ++ [⟨none, .write tab⟩] }
  | .ret => if s.plan = [] ∧ s.returned = false then some { s with returned := true, trace := s.trace ++ [⟨none, .release ()⟩] } else none
  | .learn g => if s.returned then some { s with trace := s.trace ++ [⟨some g, .acquire ()⟩] } else none
  | .look g tab h => some (use s g tab (.has tab h (decide (h ∈ s.tables tab))))
  | .size g tab => some { s with answers := s.answers ++ [(g, .len tab (s.tables tab).length)], trace := s.trace ++ [⟨some g, .read tab⟩] }
  | .range g tab => some (use s g tab (.keys tab (s.tables tab)))

/-- A run. -/
def run : State → List Act → Option State
  | s, [] => some s
  | s, a :: as => (step s a).bind fun s' => run s' as

/-- Empty tables (rrpc/coordinator.go:91-92; server.go:95), and what Dial will write. -/
def start (plan : List (Nat × Str)) : State := ⟨fun _ => [], none, plan, false, false, [], []⟩

/-- rrpc/coordinator.go:251-264: for each server in turn, table 0 is `relayConns`, table 1 `serverConns`. -/
def coordinatorPlan (servers : List Str) : List (Nat × Str) := servers.flatMap fun s => [(0, s), (1, s)]

/-- server.go:196-209: table 0 is `Connections`. -/
def mixPlan (peers : List Str) : List (Nat × Str) := peers.map fun p => (0, p)

/-- The goroutine of a use. -/
def Act.user : Act → Option Nat
  | .look g _ _ | .size g _ | .range g _ => some g
  | _ => none

/-- Every goroutine that uses a table was told before that Dial has returned. -/
def Patient (as : List Act) : Prop := ∀ pre a post g, as = pre ++ a :: post → a.user = some g → .learn g ∈ pre

end Resmix.DialRace
