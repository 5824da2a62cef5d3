import Verif.Model.Base
set_option autoImplicit false
/-
Model of messages.go:187-226 `generateOnions`: the generator goroutines, the results channel and the collector.
-/
namespace Resmix.Generate

/-- messages.go:193-205: the number of messages per goroutine; `k` goroutines remain to be started, `current` as in the code.
`i+1 == N` holds exactly when `k = 1`. -/
def perThread (numClients partitionSize : Int) : Nat → Int → List Int
  | 0, _ => []
  | k + 1, current =>
    (if k = 0 then numClients - current else partitionSize) :: perThread numClients partitionSize k (current + partitionSize)

/-- messages.go:190-205 for `numClients` clients and `N` CPUs (runtime.NumCPU() ≥ 1; `numClients / N` truncates). -/
def threadCounts (numClients : Int) (N : Nat) : List Int := perThread numClients (numClients.tdiv N) N 0

/-- The goroutines: for each one the results it has still to send (in order), the buffered channel, and what the collector has
received. `α` is the type of results (MessageOnionsPair). -/
structure State (α : Type) where
  threads : List (List α)
  results : List α
  out : List α

/-- Scheduler's choices: goroutine `i` sends its next result; the collector receives. -/
inductive Action
  | send (i : Nat)
  | recv
deriving DecidableEq

variable {α : Type}

/-- messages.go:191, 207-217: goroutine `i` runs its loop body count times (`gen i k` is its k-th result). -/
def init (gen : Nat → Nat → α) (counts : List Int) : State α :=
  { threads := counts.zipIdx.map fun (c, i) => (List.range c.toNat).map (gen i), results := [], out := [] }

/-- One step; `none`: not possible in this state. The channel holds at most `cap` = 2*N results (line 191); the collector makes
`numClients` receives (line 221). -/
def step (numClients : Int) (cap : Nat) (s : State α) : Action → Option (State α)
  | .send i =>
    match s.threads[i]? with
    | some (x :: rest) => if s.results.length < cap then some { s with threads := s.threads.set i rest, results := s.results ++ [x] } else none
    | _ => none
  | .recv =>
    match s.results with
    | [] => none
    | x :: rest => if (s.out.length : Int) < numClients then some { s with results := rest, out := s.out ++ [x] } else none

/-- A run: a list of choices, all possible. -/
def exec (numClients : Int) (cap : Nat) (s : State α) : List Action → Option (State α)
  | [] => some s
  | a :: as => (step numClients cap s a).bind fun s' => exec numClients cap s' as

end Resmix.Generate
