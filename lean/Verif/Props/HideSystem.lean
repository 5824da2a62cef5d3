import Verif.Proofs.HideF
set_option autoImplicit false
/-
C116: anonymity in the whole system.
-/
namespace Resmix.System
open Resmix.Onion (Peels)

/-- C116. One honest mix on the way is enough. Take any execution of the whole system in which the clients of round `r` behave (other rounds, losses,
crashes and schedules are arbitrary), two submissions `x` and `y` over the same chain, and a host `h` that has a mix of this chain at some layer `l`.
Then there is another execution, in which `h` has another key for the round: every onion still opens along its chain, but the onion of `x` contains
the message of `y` and vice versa; the same clients make the same calls with the same onions, and after every event everybody but `h` sees the same
(all requests in flight, the whole states of all other servers, all answers, forwarded batches and crashes of `h`). The events are the same except for the
random words of `h`'s shuffles. In particular GetMessages returns the same everywhere. -/
theorem C116_one_honest_mix {c : Config} {hosts : List Str} {L : Nat} (hL : 0 < L) (ht : Topology.createCascade hosts L = .ok c.topo)
    {r : Nat} (hr : r < 2 ^ 32) {subs : List Submission} (hop : Opens c r L subs)
    {conn : Str → Bool} {tr : List (Event × State)} {s : State} (htr : Trace c (init conn) tr s) (hcl : Clients c.topo subs r (tr.map (·.1)))
    {h : Str} {l : Nat} {mix : LogicalMix} {x y : Submission} (hx : x ∈ subs) (hy : y ∈ subs) (hxy : x.chain = y.chain)
    (hm : c.topo.mixAt l x.chain = some mix) (hh : mix.hostname = h) (hd : Distinct c r L h subs) (hsz : ∀ ch, (onChain subs ch).length ≤ 2 ^ 32) :
    let c' := c.exchange h r (before c r x.chain l x.onion) (before c r y.chain l y.onion)
    Opens c' r L (exchanged x y subs) ∧
    ∃ tr' s', Trace c' (init conn) tr' s' ∧ Clients c'.topo (exchanged x y subs) r (tr'.map (·.1)) ∧
      List.Forall₂ (fun p p' => SameEvent (· = h) p.1 p'.1 ∧ SameView (· = h) p.2 p'.2) tr tr' ∧ SameView (· = h) s s' ∧
      ∀ h' r' n out, Returns s h' r' n out ↔ Returns s' h' r' n out := by
  intro c'
  have hclosed := Topology.closed_of_create ht
  have hl : l < L := (mixAt_layer hclosed hm).2.1
  refine ⟨exchange_opens hop hd hx hy hxy hm hh hl, ?_⟩
  obtain ⟨tr', s', h1, h2, h3⟩ := sys_sim (c' := c') hL ht hop hr (exchange_rekeyed (h := h) _ _) (exchange_keyOk hclosed hop hd hx hy hxy hm hh hl hsz) htr hcl
  refine ⟨tr', s', h1, ?_, h2, h3.view, fun _ _ _ _ => returns_same h3.view⟩
  refine clients_same (subs := subs) (H := (· = h)) ?_ (exchanged_onions x y subs) hcl
  rw [List.forall₂_map_left_iff, List.forall₂_map_right_iff]
  exact h2.imp fun _ _ hp => hp.1

namespace Ex
def x1 : Submission := ⟨0, [41], onion 0 [41]⟩
def y1 : Submission := ⟨0, [42], onion 0 [42]⟩

theorem distinct : Distinct conf 7 2 a subs := by
  refine ⟨by decide, ?_⟩
  intro x hx y hy l k m m' hl hk hm hm' hh hh' he
  simp only [subs, List.mem_cons, List.not_mem_nil, or_false] at hx hy
  have key : ∀ x ∈ subs, ∀ y ∈ subs, ∀ l, l < 2 → ∀ k, k < 2 → before conf 7 x.chain l x.onion = before conf 7 y.chain k y.onion → x = y ∧ l = k := by
    decide
  exact key x (by simpa [subs] using hx) y (by simpa [subs] using hy) l hl k hk he

/-- Non-vacuity: the execution of C64's example (two servers, two layers, three submissions; both chains delivered), with the first host honest;
the messages exchanged differ, and so do the two configurations. -/
example : (∃ tr, Trace conf (init fun _ => true) tr final ∧ Clients conf.topo subs 7 (tr.map (·.1))) ∧ x1 ∈ subs ∧ y1 ∈ subs ∧ x1.chain = y1.chain ∧
    x1.msg ≠ y1.msg ∧ (∃ mix, conf.topo.mixAt 0 x1.chain = some mix ∧ mix.hostname = a) ∧ Distinct conf 7 2 a subs ∧
    (∀ ch, (onChain subs ch).length ≤ 2 ^ 32) ∧ Opens conf 7 2 subs ∧
    ((conf.exchange a 7 (before conf 7 0 0 x1.onion) (before conf 7 0 0 y1.onion)).env a 7).decrypt x1.onion ≠ (conf.env a 7).decrypt x1.onion := by
  refine ⟨?_, by decide, by decide, rfl, by decide, ⟨_, rfl, rfl⟩, distinct, ?_, ?_, by decide⟩
  · obtain ⟨tr, h1, h2⟩ := run_trace run
    exact ⟨tr, h1, by rw [h2]; exact behaved⟩
  · intro ch
    exact (List.length_filter_le _ _).trans (by decide)
  · intro x hx
    simp only [subs, List.mem_cons, List.not_mem_nil, or_false] at hx
    rcases hx with rfl | rfl | rfl <;> exact peels (by simp) _
end Ex

end Resmix.System
