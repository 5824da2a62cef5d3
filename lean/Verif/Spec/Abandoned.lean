import Verif.Model.Gc
import Verif.Model.Collector
set_option autoImplicit false
/-
Vocabulary for C137: what the tables of pending calls hold, and how often they are cleaned.
-/
namespace Resmix.Rrpc
variable {κ μ : Type}

/-- When the collector selected the event. -/
def CEv.time : CEv → Nat
  | .parcel t _ => t
  | .tick t => t

/-- The clock does not run backwards, and the events end by time `T`. -/
def CClock (T : Nat) (evs : List CEv) : Prop := (evs.map CEv.time).Pairwise (· ≤ ·) ∧ ∀ e ∈ evs, e.time ≤ T

/-- Up to time `T`, the collector selected a tick in every stretch of time of length `P`. -/
def CTicks (P T : Nat) (evs : List CEv) : Prop := ∀ x, x + P ≤ T → ∃ now, CEv.tick now ∈ evs ∧ x ≤ now ∧ now ≤ x + P

/-- The parcels the collector received at time `c` or later, in order. -/
def receivedSince (c : Nat) (evs : List CEv) : List Parcel :=
  evs.flatMap fun
    | .parcel t p => if c ≤ t then [p] else []
    | .tick _ => []

/-- What the collector remembers after these events. -/
def collectorTasks (net : Network) (lookup : Str → Go μ) (evs : List CEv) : GoMap Str (CTask μ) :=
  (collectorRun net.minimalRelayedParcels 5000000000 lookup [] evs).1

/-- When the event happened. -/
def TableEv.time : TableEv κ → Nat
  | .put t _ _ => t
  | .del t _ => t
  | .clean t _ => t

/-- The clock does not run backwards and the events end by time `T`; an entry is stored when it is made; a cleanup looks at entries after its tick. -/
structure TClock (T : Nat) (evs : List (TableEv κ)) : Prop where
  order : (evs.map TableEv.time).Pairwise (· ≤ ·)
  last : ∀ e ∈ evs, e.time ≤ T
  made : ∀ t k v, TableEv.put t k v ∈ evs → v.made = t
  after : ∀ t now, TableEv.clean t now ∈ evs → ∀ k, t ≤ now k

/-- Up to time `T`, a cleanup started in every stretch of time of length `P`. -/
def TTicks (P T : Nat) (evs : List (TableEv κ)) : Prop := ∀ x, x + P ≤ T → ∃ t now, TableEv.clean t now ∈ evs ∧ x ≤ t ∧ t ≤ x + P

end Resmix.Rrpc
