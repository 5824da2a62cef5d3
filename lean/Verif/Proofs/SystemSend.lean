import Verif.Model.System
import Verif.Props.Sender
import Verif.Spec.Mixer
set_option autoImplicit false
/-
What the sender puts into the network for one batch (for C64), whether or not it panics half-way.
-/
namespace Resmix.System
open Resmix.Mixer (Messages MixOutput)
open Resmix.Onion (Addresses groupOnionsByHostname)
open Resmix.Sender

/-- The calls `rqs` were issued for the hosts `p` out of all groups. -/
def Emits (s : MessageSender) (out : MixOutput) (rqs : List Request) : Prop :=
  rqs = [] ∨ ∃ g order p q, groupOnionsByHostname out.onions s.topo = .ok g ∧ order.Perm g ∧ order = p ++ q ∧ SendHosts s out p (.ok rqs)

theorem emits_of_batch {s : MessageSender} {out : MixOutput} {rqs : List Request} (h : SendBatch s out (.ok rqs)) : Emits s out rqs := by
  unfold SendBatch at h
  split at h
  · cases h
  · next g hg =>
    obtain ⟨order, ho, hs⟩ := h
    exact .inr ⟨g, order, order, [], hg, ho, by simp, hs⟩

theorem emits_of_panic {s : MessageSender} {out : MixOutput} {rqs : List Request} (h : SendPanics s out rqs) : Emits s out rqs := by
  unfold SendPanics at h
  split at h
  · exact .inl h
  · next g hg =>
    obtain ⟨order, p, q, e, ho, hpq, hs, _⟩ := h
    exact .inr ⟨g, order, p, q, hg, ho, hpq, hs⟩

theorem sendHosts_ok {s : MessageSender} {out : MixOutput} (p : GoMap Str (List Bytes)) {rqs : List Request}
    (h : SendHosts s out p (.ok rqs)) : (∀ e ∈ p, e.1 ∈ s.connections) ∧ ∀ rq ∈ rqs, rq.round = s.round % 2 ^ 32 := by
  induction p generalizing rqs with
  | nil =>
    rw [SendHosts] at h
    cases h
    exact ⟨by simp, by simp⟩
  | cons e p ih =>
    obtain ⟨host, onions⟩ := e
    rw [SendHosts] at h
    obtain ⟨rq, hcr, hrest⟩ := h
    split at hrest
    · cases hrest
    · next rq0 =>
      split at hrest
      · next hc =>
        obtain ⟨res, hs, he⟩ := hrest
        cases res with
        | error e => cases he
        | ok rs =>
          cases he
          obtain ⟨h1, h2⟩ := ih hs
          refine ⟨?_, ?_⟩
          · intro e he
            rcases List.mem_cons.1 he with rfl | he
            · exact hc
            · exact h1 e he
          · intro rq hrq
            rcases List.mem_cons.1 hrq with rfl | hrq
            · unfold CreateRequest at hcr
              split at hcr
              · cases hcr
              · obtain ⟨order, _, he⟩ := hcr
                cases he; rfl
            · exact h2 rq hrq
      · cases hrest

theorem emits_round {s : MessageSender} {out : MixOutput} {rqs : List Request} (h : Emits s out rqs) :
    ∀ rq ∈ rqs, rq.round = s.round % 2 ^ 32 := by
  rcases h with rfl | ⟨g, order, p, q, _, _, _, hs⟩
  · simp
  · exact (sendHosts_ok p hs).2

/-- If all onions of the batch address mix `m1`, then everything sent goes to `m1`, and at most the onions of the batch. -/
theorem emits_spec {s : MessageSender} {out : MixOutput} {rqs : List Request} (h : Emits s out rqs) {first : List LogicalMix}
    (hf : s.topo.layers[0]? = some first) (hne : first ≠ []) {m1 : LogicalMix} (hw : ∀ o ∈ out.onions, Addresses s.topo o m1) :
    (∀ rq ∈ rqs, GoodRequest s out rq ∧ rq.host = m1.hostname) ∧
    (∀ M ∈ rqs.flatMap (·.messages), M.logicalReceiver = m1.name ∧ M.messages ≠ [] ∧ M.physicalSender = s.address ∧ M.logicalSender = out.logicalSender) ∧
    ((rqs.flatMap (·.messages)).flatMap (·.messages)).Subperm out.onions := by
  rcases h with rfl | ⟨g, order, p, q, hg, ho, hpq, hs⟩
  · simp
  · have hw' : ∀ o ∈ out.onions, ∃ m, Addresses s.topo o m := fun o ho => ⟨m1, hw o ho⟩
    obtain ⟨g', hg', hnd, hmem, hperm, _⟩ := Onion.C22_by_hostname out.onions s.topo first hf hne hw'
    rw [hg] at hg'; cases hg'
    obtain ⟨hconn, _⟩ := sendHosts_ok p hs
    obtain ⟨rqs', h1, h2, h3, h4⟩ := sendHosts_spec hf hne hw' p (fun e he => ⟨hconn e he, by
      have : e ∈ order := by rw [hpq]; exact List.mem_append_left _ he
      exact ((hmem e.1 e.2).1 (ho.mem_iff.1 this)).2⟩) hs
    cases h1
    have hM : ∀ rq ∈ rqs, ∀ M ∈ rq.messages, M.logicalReceiver = m1.name ∧ M.messages ≠ [] ∧ rq.host = m1.hostname := by
      intro rq hrq M hM
      obtain ⟨hne', _⟩ := (h3 rq hrq).onions M hM
      obtain ⟨o, ho'⟩ := List.exists_mem_of_ne_nil _ hne'
      obtain ⟨m, ha, hn, hh⟩ := (h3 rq hrq).routed M hM o ho'
      have hoo : o ∈ out.onions := by
        have := ((h3 rq hrq).onions M hM).2
        rw [this] at ho'
        exact (onionsFor_sub (onionsFor_sub ho').1).1
      rw [addresses_unique ha (hw o hoo)] at hn hh
      exact ⟨hn.symm, hne', hh.symm⟩
    refine ⟨fun rq hrq => ⟨h3 rq hrq, ?_⟩, ?_, ?_⟩
    · -- the host is that of a non-empty group
      have : rq.host ∈ p.map Prod.fst := by rw [← h2]; exact List.mem_map_of_mem hrq
      obtain ⟨e, he, hee⟩ := List.mem_map.1 this
      have heo : e ∈ order := by rw [hpq]; exact List.mem_append_left _ he
      obtain ⟨hne', heq⟩ := (hmem e.1 e.2).1 (ho.mem_iff.1 heo)
      obtain ⟨o, hoe⟩ := List.exists_mem_of_ne_nil _ hne'
      rw [heq] at hoe
      obtain ⟨hoo, m, ha, hh⟩ := onionsFor_sub hoe
      rw [addresses_unique ha (hw o hoo)] at hh
      rw [← hee, ← hh]
    · intro M hMm
      obtain ⟨rq, hrq, hM'⟩ := List.mem_flatMap.1 hMm
      obtain ⟨ha, hb⟩ := (h3 rq hrq).senders M hM'
      exact ⟨(hM rq hrq M hM').1, (hM rq hrq M hM').2.1, ha, hb⟩
    · rw [List.flatMap_assoc]
      refine h4.subperm.trans ?_
      refine List.Subperm.trans ?_ ((ho.flatMap_right Prod.snd).trans hperm).subperm
      rw [hpq, List.flatMap_append]
      exact (List.sublist_append_left _ _).subperm

end Resmix.System
