import Verif.Spec.DirectSystem
import Verif.Props.Direct
import Verif.Proofs.GoMap
set_option autoImplicit false
/-
Proofs about connections for direct calls: what an honest exchange gives, and the invariant of properly used connections.
-/
namespace Resmix.Rrpc.DirectSystem
open Resmix.Merkle
variable {ζ μ : Type} {cfg : Config ζ μ}

theorem encodable {r : Except SvcErr (Except Str Bytes)} (h : ∀ msg, r ≠ .ok (.error msg)) : ∃ res, intoDirectCallResponse r = .ok res ∧
    ∀ n, reply (.ok ()) { note := n, result := res } = outcomeOf r := by
  match r, h with
  | .error e, _ => exact ⟨_, rfl, fun n => by cases e <;> rfl⟩
  | .ok (.error m), h => exact (h m rfl).elim
  | .ok (.ok b), _ => exact ⟨_, rfl, fun n => rfl⟩

/-- The request of a call, and what the server and the client make of it. -/
theorem exchange (cfg : Config ζ μ) (uuid : Str) (d : CallData) : ∃ q, requestOf cfg uuid d = .ok q ∧
    ∀ (srv : ζ) (m : μ), cfg.svcs.get d.method = .ok (srv, m) → ∀ (h : Handler ζ μ) (cache : Cache), (∀ msg, h srv m uuid d.args ≠ .ok (.error msg)) →
      ∃ resp n, serveOne cfg h cache q = ([(srv, m, uuid, d.args)], [resp], none) ∧ resp.note = some n ∧ n.calluuid = uuid ∧
        ∀ cache', reply (verifyReceiverNote cfg.S cfg.H cfg.cod cache' (cfg.S.pub cfg.sk) n).1 resp = outcomeOf (h srv m uuid d.args) := by
  obtain ⟨n1, n2, s1, s2, s3, s4, s5⟩ := C45_direct_call cfg.S cfg.H cfg.cod cfg.ck cfg.sk
    { senderID := cfg.S.pub cfg.ck, receiverID := cfg.S.pub cfg.sk, senderMerkleProof := none, receiverMerkleProof := none, calluuid := uuid } rfl rfl
  have hsid : n1.senderID = cfg.S.pub cfg.ck := (congrArg ExchangeNote.senderID s3 :)
  have huuid : n1.calluuid = uuid := (congrArg ExchangeNote.calluuid s3 :)
  have huuid2 : n2.calluuid = uuid := by
    have := (congrArg ExchangeNote.calluuid s4 :)
    exact (by simpa using this : n2.calluuid = n1.calluuid).trans huuid
  refine ⟨{ method := d.method, payload := d.args, note := some n1 }, ?_, ?_⟩
  · simp only [requestOf, directRequest, Request.new, s1, Option.getD_some]
  · intro srv m hm h cache hh
    have hadm : Admissible cfg.svcs (cfg.S.pub cfg.ck) { method := d.method, payload := d.args, note := some n1 }
        (judge cfg cache { method := d.method, payload := d.args, note := some n1 }) srv m n1 := ⟨hm, rfl, hsid, by simp only [judge, hsid]; exact (s5 cache).1⟩
    obtain ⟨res, h1, h2⟩ := encodable hh
    have := directStep_served cfg.S cfg.H cfg.cod cfg.sk cfg.svcs h (cfg.S.pub cfg.ck) _ _ srv m n1 hadm res (by rw [huuid]; exact h1) n2 s2
    refine ⟨{ note := some n2, result := res }, n2, ?_, rfl, huuid2, fun cache' => ?_⟩
    · rw [serveOne, this, huuid]
    · rw [(s5 cache').2]; exact h2 _

end Resmix.Rrpc.DirectSystem
