import Mathlib.Logic.Basic
set_option autoImplicit false
/-
Data races, after the Go memory model (go.dev/ref/mem). An execution is a sequence of memory accesses and synchronisations of goroutines. A goroutine
releases a synchronisation object s (unlocks a mutex, sends a message, closes a channel, calls Done, finishes the function of a Once, starts a goroutine) or
acquires it (locks the mutex, receives that message, returns from Wait, from Do, begins to run). Every message of a channel is an object of its own.
-/
namespace Resmix.Race

/-- What a goroutine does: `L` are the memory locations, `S` the synchronisation objects. -/
inductive Op (L S : Type)
  | read (l : L)
  | write (l : L)
  | release (s : S)
  | acquire (s : S)

/-- `g` does `op`. -/
structure Event (G L S : Type) where
  g : G
  op : Op L S

variable {G L S : Type}

/-- "Happens before", between positions of a trace: the order of each goroutine's own events, and every release before the later acquires of the same
object; and what follows from these. -/
inductive HB (tr : List (Event G L S)) : Nat → Nat → Prop
  | program {i j : Nat} {a b : Event G L S} (h : i < j) (hi : tr[i]? = some a) (hj : tr[j]? = some b) (hg : a.g = b.g) : HB tr i j
  | sync {i j : Nat} {a b : Event G L S} {s : S} (h : i < j) (hi : tr[i]? = some a) (hj : tr[j]? = some b) (ha : a.op = .release s) (hb : b.op = .acquire s) :
      HB tr i j
  | trans {i j k : Nat} (h : HB tr i j) (h' : HB tr j k) : HB tr i k

/-- Two accesses of the same location, at least one of them a write. -/
def Conflict (a b : Event G L S) : Prop :=
  ∃ l, (a.op = .write l ∧ (b.op = .read l ∨ b.op = .write l)) ∨ (a.op = .read l ∧ b.op = .write l)

/-- Any two conflicting accesses are ordered by "happens before". -/
def RaceFree (tr : List (Event G L S)) : Prop :=
  ∀ (i j : Nat) (a b : Event G L S), i < j → tr[i]? = some a → tr[j]? = some b → Conflict a b → HB tr i j

end Resmix.Race
