import Mathlib.Data.Finset.Card
import Verif.Spec.Collector
set_option autoImplicit false
/- Vocabulary for C133. -/
namespace Resmix.Rrpc
variable {μ : Type}

/-- The task's handler is run: a payload can be reconstructed from its parcels (rrpc/rrpc_server_stream.go:205-211; otherwise the task only sends errors). -/
def HandlerRuns (C : Ecc.RS) (t : CTask μ) : Prop := ∃ stopped payload, ReconstructParcels C stopped t.parcels (.ok payload)

/-- Every relay that is not in `D` hands over at most one parcel with call id `u`. (A relay can only hand over parcels with its own index: the server compares them, rrpc/rrpc_server_stream.go:94.) -/
def OnceExcept (D : Finset Int) (u : Str) (evs : List CEv) : Prop :=
  (((callParcels u evs).map (·.relayIndex)).filter (· ∉ D)).Nodup

end Resmix.Rrpc
