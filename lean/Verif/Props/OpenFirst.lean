import Verif.Proofs.OpenFirst
import Verif.Props.SystemLive
set_option autoImplicit false
/-
C145: if the clients open a round at every server before they send the first onion, nothing of the round comes too early anywhere, and the round completes.
Executions and the clients' behaviour as in C64 and C87 (Model/System, Spec/System); opening first and the losses of the network in Spec/OpenFirst, Spec/Lost.
-/
namespace Resmix.System
open Resmix.Sender

/-- C145, first part. For every cascade whose servers have dialled each other, and every execution in which the network drops no request of round `r` (of other rounds it may)
and the clients keep to the protocol and open round `r` everywhere before they use it: no request between servers is lost, and no AddMessages call of the round, by a client or a
server, is answered with NotFound. -/
theorem C145_opened_first_loses_nothing {c : Config} {servers : List Str} {L : Nat} (hL : 0 < L) (ht : Topology.createCascade servers L = .ok c.topo)
    (hconn : Connected c servers) {conn : Str → Bool} (hdial : ∀ h ∈ servers, conn h = true) {r : Nat} (hr : r < 2 ^ 32)
    {evs : List Event} {lost : List Request} {s : State} (hrun : LossyRun c r (Undropped r) (init conn) evs lost s)
    (hall : AllOrderly c L evs) (hfirst : OpenFirst servers r evs) : lost = [] ∧ LosslessRun c r (init conn) evs s := by
  obtain ⟨⟨h1, h2⟩, -⟩ := open_run hL ht hconn hdial hrun hr hall hfirst
  exact ⟨h2, h1⟩

/-- C145. Such a round completes: however the goroutines and deliveries are scheduled, from any state on the servers make only a bounded number of steps of their own, and in every
state in which nothing is left to do the last mix of every chain whose submissions were all sent returns the plaintexts submitted over that chain. Nothing is assumed about when the servers handled the requests; that the round is open when a request comes is not assumed but follows. -/
theorem C145_opened_first_completes {c : Config} {servers : List Str} {L : Nat} (hL : 0 < L) (ht : Topology.createCascade servers L = .ok c.topo)
    (hconn : Connected c servers) {conn : Str → Bool} (hdial : ∀ h ∈ servers, conn h = true) {r : Nat} (hr : r < 2 ^ 32)
    (hcpu : ∀ h, 0 < (c.env h r).nCPU) (htask : ∀ h, 0 < (c.env h r).taskCap) (hout : ∀ h, 0 < (c.env h r).outCap)
    {subs : List Submission} (hop : Opens c r L subs) {evs : List Event} {lost : List Request} {s : State}
    (hrun : LossyRun c r (Undropped r) (init conn) evs lost s) (hall : AllOrderly c L evs) (hcl : Clients c.topo subs r evs) (ho : Orderly c.topo r evs)
    (hfirst : OpenFirst servers r evs) :
    (∃ N, ∀ evs' s', Run c s evs' s' → (∀ e ∈ evs', Own e) → evs'.length ≤ N) ∧
    (∃ evs' s', Run c s evs' s' ∧ (∀ e ∈ evs', Own e) ∧ AtRest c s') ∧
    (AtRest c s → ∀ ch last, c.topo.mixAt (L - 1) ch = some last → onChain subs ch ≠ [] →
      (∀ first, c.topo.mixAt 0 ch = some first → (clientOnions evs r first.name).Perm ((onChain subs ch).map (·.onion))) →
      ∃ out, Returns s last.hostname r last.name out ∧ out.Perm ((onChain subs ch).map (·.msg))) := by
  obtain ⟨⟨hl, -⟩, -⟩ := open_run hL ht hconn hdial hrun hr hall hfirst
  obtain ⟨N, hN⟩ := bounded hL ht hconn hl.run hall
  refine ⟨⟨N, fun evs' s' h1 h2 => (hN evs' s' h1 h2).1⟩, reach_rest fun evs' s' h1 h2 => (hN evs' s' h1 h2).1, ?_⟩
  intro hrest ch last hm hs hsent
  exact completed (Topology.closed_of_create ht) hL hop hcpu htask hout hconn (rinv_lossless hL ht hop hr hconn hl hcl) ho (no_crash hL ht hconn hl.run hall)
    hrest hsent hm hs

/-! ### The execution of C87 meets the hypotheses -/
namespace ExFirst
open Ex

theorem undropped_of {c : Config} {r : Nat} {s0 : State} {evs : List Event} {s : State} (h : Run c s0 evs s) (hd : ∀ k, Event.drop k ∉ evs) :
    ∃ lost, LossyRun c r (Undropped r) s0 evs lost s := by
  induction h with
  | nil => exact ⟨_, .nil⟩
  | snoc hrun hst ih =>
    next evs s s' e =>
    obtain ⟨lost, h1⟩ := ih fun k hk => hd k (by simp [hk])
    refine ⟨_, h1.snoc ?_ hst⟩
    cases e with
    | drop k => exact absurd (by simp) (hd k)
    | _ => trivial

theorem first0 : OpenFirst [a, b] 7 evs0 := by
  intro p q h ms he
  have hp : [.client a (.newRound 7 loads topo.mixes), .client b (.newRound 7 loads topo.mixes)] <+: p ∧ (h = a ∨ h = b) := by
    rcases p with _ | ⟨e1, _ | ⟨e2, p⟩⟩
    · simp [evs0] at he
    · simp [evs0] at he
    · simp only [evs0, List.cons_append, List.cons.injEq] at he
      obtain ⟨rfl, rfl, he⟩ := he
      refine ⟨⟨p, rfl⟩, ?_⟩
      have : Event.client h (.addMessages 7 ms) ∈ p ++ .client h (.addMessages 7 ms) :: q := by simp
      rw [← he] at this
      simp at this
      rcases this with h | h <;> simp [h.1]
  obtain ⟨⟨t, rfl⟩, hh⟩ := hp
  refine ⟨by simpa using hh, fun h' hh' => ?_⟩
  simp only [List.mem_cons, List.not_mem_nil, or_false] at hh'
  rcases hh' with rfl | rfl
  · exact ⟨loads, _, by simp; exact .inl rfl⟩
  · exact ⟨loads, _, by simp; exact .inr (.inl rfl)⟩

/-- Any way of going on without drops ends, and then both chains return. -/
example : ∃ evs' s', Run conf (init fun _ => true) (evs0 ++ evs') s' ∧ AtRest conf s' ∧ ∀ ch, ch < 2 → ∃ last out, conf.topo.mixAt 1 ch = some last ∧
    Returns s' last.hostname 7 last.name out ∧ out.Perm ((onChain subs ch).map (·.msg)) := by
  have hconn : Connected conf [a, b] := fun h _ h' hh => hh
  have hd : ∀ k, Event.drop k ∉ evs0 := fun k hk => by simp [evs0] at hk
  obtain ⟨lost, h0⟩ := undropped_of (r := 7) lossless0.run hd
  obtain ⟨-, ⟨evs', s', h1, h2, h3⟩, -⟩ := C145_opened_first_completes (by omega) topo_ok hconn (fun _ _ => rfl) (by omega) (fun _ => Nat.succ_pos _)
    (fun _ => Nat.succ_pos _) (fun _ => Nat.succ_pos _) opens0 h0 all0 clients0 orderly0 first0
  have hrun := lossless0.run.append h1
  obtain ⟨lost', h4⟩ := undropped_of (r := 7) hrun fun k hk => by
    rcases List.mem_append.1 hk with hk | hk
    · exact hd k hk
    · exact (h2 _ hk).2 k rfl
  have hf : OpenFirst [a, b] 7 (evs0 ++ evs') := by
    intro p q h ms he
    rcases List.append_eq_append_iff.1 he with ⟨t, h5, h6⟩ | ⟨t, h5, h6⟩
    · exact absurd rfl ((h2 _ (by rw [h6]; simp)).1 h (.addMessages 7 ms))
    · cases t with
      | nil =>
        have : Event.client h (.addMessages 7 ms) ∈ evs' := by simp only [List.nil_append] at h6; rw [← h6]; simp
        exact absurd rfl ((h2 _ this).1 h (.addMessages 7 ms))
      | cons e t =>
        simp only [List.cons_append, List.cons.injEq] at h6
        obtain ⟨rfl, rfl⟩ := h6
        exact first0 p t h ms h5
  obtain ⟨-, -, h5⟩ := C145_opened_first_completes (by omega) topo_ok hconn (fun _ _ => rfl) (by omega) (fun _ => Nat.succ_pos _)
    (fun _ => Nat.succ_pos _) (fun _ => Nat.succ_pos _) opens0 h4 (all0.own h2) (clients0.own h2) (orderly0.own h2) hf
  have hs5 : ∀ ch first, conf.topo.mixAt 0 ch = some first → (clientOnions (evs0 ++ evs') 7 first.name).Perm ((onChain subs ch).map (·.onion)) :=
    fun ch first hfm => by rw [own_onions h2]; exact sent0 ch first hfm
  refine ⟨evs', s', hrun, h3, ?_⟩
  intro ch hch
  rcases (show ch = 0 ∨ ch = 1 by omega) with rfl | rfl
  · obtain ⟨out, h7, h8⟩ := h5 h3 0 _ rfl (by simp [onChain, subs]) (hs5 0)
    exact ⟨_, out, rfl, h7, h8⟩
  · obtain ⟨out, h7, h8⟩ := h5 h3 1 _ rfl (by simp [onChain, subs]) (hs5 1)
    exact ⟨_, out, rfl, h7, h8⟩

end ExFirst

end Resmix.System
