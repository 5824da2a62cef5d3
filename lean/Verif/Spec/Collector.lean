import Verif.Model.Collector
set_option autoImplicit false
/-
What reached the collector for one call, and what it started.
-/
namespace Resmix.Rrpc
variable {μ : Type}

/-- The parcels with call id `u` among the events, in order of arrival. -/
def callParcels (u : Str) (evs : List CEv) : List Parcel :=
  evs.filterMap fun
    | .parcel _ p => if p.note.calluuid = u then some p else none
    | .tick _ => none

/-- The tasks started for call id `u`, in order. -/
def runsOf (u : Str) (outs : List (COut μ)) : List (CTask μ) :=
  outs.filterMap fun
    | .run t => if t.savedNote.calluuid = u then some t else none
    | .refuse _ _ => none

/-- No cleanup tick strikes while an incomplete group of parcels (`m` make a group) of the call is older than `ttl`. -/
def Timely (m ttl : Nat) (u : Str) (evs : List CEv) : Prop :=
  ∀ pre now post, evs = pre ++ .tick now :: post →
    (callParcels u pre).length % m = 0 ∨ ∀ t p, CEv.parcel t p ∈ pre → p.note.calluuid = u → now ≤ t + ttl

/-- The complete groups of `m` in a list, in order. -/
def groups (m : Nat) (ps : List Parcel) : List (List Parcel) :=
  (List.range (ps.length / m)).map fun j => (ps.drop (j * m)).take m

/-- The task runs the handler of method `m` for call `u` on exactly the bytes `args`, whatever the order of the decoding workers. -/
def Invokes (C : Ecc.RS) (t : CTask μ) (m : μ) (u : Str) (args : Bytes) : Prop :=
  t.method = m ∧ t.savedNote.calluuid = u ∧ ∀ res, ReconstructParcels C false t.parcels res ↔ res = .ok args

end Resmix.Rrpc

namespace Resmix.Rrpc
/-- A parcel of the shape `RobustCall` gives it: a length field of at least 4 bytes and at least 36 pieces. -/
def Parcel.WellShaped (p : Parcel) : Prop := 4 ≤ p.messageLength.length ∧ Ecc.numChunks ≤ p.payload.length
end Resmix.Rrpc
