import Verif.Proofs.SystemI
import Verif.Props.System
set_option autoImplicit false
/-
C87, C88: the whole system makes progress. Executions and the clients' behaviour as in C64 (Model/System, Spec/System).
-/
namespace Resmix.System
open Resmix.Mixer (Messages MixOutput onionsFor)
open Resmix.Onion

/-- C88. For every cascade whose servers have dialled each other, and every execution in which in every round all clients keep to the
protocol (losses, delays and reorderings of requests between servers included): no server crashes. -/
theorem C88_no_crash {c : Config} {servers : List Str} {L : Nat} (hL : 0 < L) (ht : Topology.createCascade servers L = .ok c.topo)
    (hconn : Connected c servers) {conn : Str → Bool} {evs : List Event} {s : State} (hrun : Run c (init conn) evs s)
    (hall : AllOrderly c L evs) : ∀ h, (s.servers h).crashed = false :=
  no_crash hL ht hconn hrun hall

/-- Own steps are possible until the system is at rest, so a bound on their number means that rest is reached. -/
theorem reach_rest {c : Config} {s : State} {N : Nat} (hN : ∀ evs' s', Run c s evs' s' → (∀ e ∈ evs', Own e) → evs'.length ≤ N) :
    ∃ evs' s', Run c s evs' s' ∧ (∀ e ∈ evs', Own e) ∧ AtRest c s' := by
  by_contra hno
  push Not at hno
  have : ∀ n, ∃ evs' s', Run c s evs' s' ∧ (∀ e ∈ evs', Own e) ∧ evs'.length = n := by
    intro n
    induction n with
    | zero => exact ⟨[], s, .nil, by simp, rfl⟩
    | succ n ih =>
      obtain ⟨evs', s', h1, h2, h3⟩ := ih
      have h4 := hno evs' s' h1 h2
      unfold AtRest at h4
      push Not at h4
      obtain ⟨e, s2, h5, h6, h7⟩ := h4
      refine ⟨evs' ++ [e], s2, h1.snoc h5, ?_, by simp [h3]⟩
      intro e' he'
      rcases List.mem_append.1 he' with he' | he'
      · exact h2 e' he'
      · rw [List.mem_singleton] at he'
        subst he'
        exact ⟨h6, h7⟩
  obtain ⟨evs', s', h1, h2, h3⟩ := this (N + 1)
  have := hN evs' s' h1 h2
  omega

/-- C87. Take any execution in which all clients keep to the protocol, no request of round `r` was lost so far, the round is open at every
server, and the clients have sent all onions of the round. From then on, with no further client calls and no request lost, however the
goroutines and deliveries are scheduled: the servers make only a bounded number of steps, they can always go on until nothing is left to do,
and when nothing is left to do the last mix of every chain with a submission returns the plaintexts submitted over that chain. -/
theorem C87_round_completes {c : Config} {servers : List Str} {L : Nat} (hL : 0 < L) (ht : Topology.createCascade servers L = .ok c.topo)
    (hconn : Connected c servers) {r : Nat} (hr : r < 2 ^ 32)
    (hcpu : ∀ h, 0 < (c.env h r).nCPU) (htask : ∀ h, 0 < (c.env h r).taskCap) (hout : ∀ h, 0 < (c.env h r).outCap)
    {subs : List Submission} (hop : Opens c r L subs) {conn : Str → Bool} {evs : List Event} {s : State}
    (hrun : LosslessRun c r (init conn) evs s) (hall : AllOrderly c L evs) (hcl : Clients c.topo subs r evs) (ho : Orderly c.topo r evs)
    (hopen : ∀ h ∈ servers, (s.servers h).rounds.lookup r ≠ none)
    (hsent : ∀ ch first, c.topo.mixAt 0 ch = some first → (clientOnions evs r first.name).Perm ((onChain subs ch).map (·.onion))) :
    (∃ N, ∀ evs' s', Run c s evs' s' → (∀ e ∈ evs', Own e) → evs'.length ≤ N) ∧
    (∀ evs' s', Run c s evs' s' → (∀ e ∈ evs', Own e) →
      ∃ evs'' s'', Run c s' evs'' s'' ∧ (∀ e ∈ evs'', Own e) ∧ AtRest c s'') ∧
    ∀ evs' s', Run c s evs' s' → (∀ e ∈ evs', Own e) → AtRest c s' → ∀ ch last, c.topo.mixAt (L - 1) ch = some last → onChain subs ch ≠ [] →
      ∃ out, Returns s' last.hostname r last.name out ∧ out.Perm ((onChain subs ch).map (·.msg)) := by
  have hclosed := Topology.closed_of_create ht
  obtain ⟨N, hN⟩ := bounded hL ht hconn hrun.run hall
  refine ⟨⟨N, fun evs' s' h1 h2 => (hN evs' s' h1 h2).1⟩, ?_, ?_⟩
  · intro evs' s' h1 h2
    obtain ⟨N', hN'⟩ := bounded hL ht hconn (hrun.run.append h1) (hall.own h2)
    exact reach_rest fun evs'' s'' h3 h4 => (hN' evs'' s'' h3 h4).1
  · intro evs' s' h1 h2 hrest ch last hm hs
    have hl := lossless_continue hL ht hconn hrun hr hall hopen h1 h2
    have hi := rinv_lossless hL ht hop hr hconn hl (hcl.own h2)
    refine completed hclosed hL hop hcpu htask hout hconn hi (ho.own h2) (no_crash hL ht hconn hl.run (hall.own h2)) hrest ?_ hm hs
    intro first hf
    rw [own_onions h2]
    exact hsent ch first hf

/-! ### A concrete execution that meets the hypotheses -/
namespace Ex

/-- Both servers open the round, then the clients send all their onions. -/
def evs0 : List Event :=
  [.client a (.newRound 7 loads topo.mixes), .client b (.newRound 7 loads topo.mixes),
   .client a (.addMessages 7 [fromClient [onion 0 [42]] (mixNameOf 0 0), fromClient [onion 0 [41]] (mixNameOf 0 0)]),
   .client b (.addMessages 7 [fromClient [onion 1 [43]] (mixNameOf 0 1)])]

def s1 : State := (runC conf (init fun _ => true) (evs0.take 1)).getD (init fun _ => true)
def s2 : State := (stepC conf s1 (.client b (.newRound 7 loads topo.mixes))).getD s1
def s3 : State := (stepC conf s2 (.client a (.addMessages 7 [fromClient [onion 0 [42]] (mixNameOf 0 0), fromClient [onion 0 [41]] (mixNameOf 0 0)]))).getD s2
def s4 : State := (stepC conf s3 (.client b (.addMessages 7 [fromClient [onion 1 [43]] (mixNameOf 0 1)]))).getD s3

theorem lossless0 : LosslessRun conf 7 (init fun _ => true) evs0 s4 := by
  have e1 : Step conf (init fun _ => true) (.client a (.newRound 7 loads topo.mixes)) s1 := stepC_sound rfl
  have e2 : Step conf s1 (.client b (.newRound 7 loads topo.mixes)) s2 := stepC_sound rfl
  have e3 : Step conf s2 (.client a (.addMessages 7 [fromClient [onion 0 [42]] (mixNameOf 0 0), fromClient [onion 0 [41]] (mixNameOf 0 0)])) s3 := stepC_sound rfl
  have e4 : Step conf s3 (.client b (.addMessages 7 [fromClient [onion 1 [43]] (mixNameOf 0 1)])) s4 := stepC_sound rfl
  have l1 : (s2.servers a).rounds.lookup 7 = some 0 := rfl
  have l2 : (s3.servers b).rounds.lookup 7 = some 0 := rfl
  have k3 : Keeps 7 s2 (.client a (.addMessages 7 [fromClient [onion 0 [42]] (mixNameOf 0 0), fromClient [onion 0 [41]] (mixNameOf 0 0)])) := by
    intro _; rw [l1]; simp
  have k4 : Keeps 7 s3 (.client b (.addMessages 7 [fromClient [onion 1 [43]] (mixNameOf 0 1)])) := by
    intro _; rw [l2]; simp
  exact (((LosslessRun.nil.snoc (by trivial) e1).snoc (by trivial) e2).snoc k3 e3).snoc k4 e4

theorem opens0 : Opens conf 7 2 subs := fun x hx => by
  simp only [subs, List.mem_cons, List.not_mem_nil, or_false] at hx
  rcases hx with rfl | rfl | rfl <;> exact peels (by simp) _

theorem sent0 : ∀ ch first, conf.topo.mixAt 0 ch = some first → (clientOnions evs0 7 first.name).Perm ((onChain subs ch).map (·.onion)) := by
  intro c first hf
  have hc := (Topology.closed_of_create topo_ok).mixAt_some hf
  rcases (show c = 0 ∨ c = 1 by have := hc.2.1; simp at this; omega) with rfl | rfl
  · cases hf; exact List.Perm.swap _ _ []
  · cases hf; exact List.Perm.refl _

theorem clients0 : Clients conf.topo subs 7 evs0 where
  once h := by
    by_cases ha : h = a
    · subst ha; decide
    · by_cases hb : h = b
      · subst hb; decide
      · have : evs0.filter (isOpening h 7) = [] := by
          simp only [evs0, isOpening, List.filter_cons, List.filter_nil]
          simp [Ne.symm ha, Ne.symm hb]
        rw [this]; simp
  loads h ls order he := by
    have : ls = loads := by
      simp [evs0] at he
      rcases he with ⟨_, h, _⟩ | ⟨_, h, _⟩ <;> exact h
    subst this
    refine ⟨by decide, ?_⟩
    intro c first hf
    have hc := (Topology.closed_of_create topo_ok).mixAt_some hf
    rcases (show c = 0 ∨ c = 1 by have := hc.2.1; simp at this; omega) with rfl | rfl <;>
    · cases hf; rfl
  first h ms he := by
    simp [evs0] at he
    rcases he with ⟨_, rfl⟩ | ⟨_, rfl⟩
    · intro m hm
      simp only [List.mem_cons, List.not_mem_nil, or_false] at hm
      refine ⟨0, _, rfl, ?_⟩
      rcases hm with rfl | rfl <;> exact ⟨rfl, fun h => by simp [fromClient] at h⟩
    · intro m hm
      simp only [List.mem_cons, List.not_mem_nil, or_false] at hm
      subst hm
      exact ⟨1, _, rfl, rfl, fun h => by simp [fromClient] at h⟩
  onions c first hf := (sent0 c first hf).subperm

theorem orderly0 : Orderly conf.topo 7 evs0 where
  noEnd h he := by simp [evs0] at he
  form h ms he := by
    simp [evs0] at he
    rcases he with ⟨rfl, rfl⟩ | ⟨rfl, rfl⟩
    · intro m hm
      simp only [List.mem_cons, List.not_mem_nil, or_false] at hm
      refine ⟨0, _, rfl, ?_⟩
      rcases hm with rfl | rfl <;> exact ⟨rfl, rfl, rfl, rfl⟩
    · intro m hm
      simp only [List.mem_cons, List.not_mem_nil, or_false] at hm
      subst hm
      exact ⟨1, _, rfl, rfl, rfl, rfl, rfl⟩

theorem all0 : AllOrderly conf 2 evs0 := by
  intro r _
  by_cases hr : r = 7
  · subst hr; exact ⟨subs, opens0, clients0, orderly0⟩
  · have hn : ∀ h (ls : GoMap Str Nat) order, Event.client h (.newRound r ls order) ∉ evs0 := by
      intro h ls order he; simp [evs0, hr] at he
    have ha : ∀ h ms, Event.client h (.addMessages r ms) ∉ evs0 := by
      intro h ms he; simp [evs0, hr] at he
    refine ⟨[], by simp [Opens], ⟨?_, ?_, ?_, ?_⟩, ⟨?_, ?_⟩⟩
    · intro h
      have : evs0.filter (isOpening h r) = [] := by
        simp only [evs0, isOpening, List.filter_cons, List.filter_nil]
        simp [Ne.symm hr]
      rw [this]; simp
    · exact fun h ls order he => absurd he (hn h ls order)
    · exact fun h ms he => absurd he (ha h ms)
    · intro c first _
      have : clientOnions evs0 r first.name = [] := by simp [clientOnions, evs0, sentBy, Ne.symm hr]
      rw [this]; exact List.nil_subperm
    · intro h he; simp [evs0] at he
    · exact fun h ms he => absurd he (ha h ms)

/-- The example meets all hypotheses, and both chains carry submissions: however the servers go on, they come to rest with the results. -/
example : ∃ evs' s', Run conf s4 evs' s' ∧ (∀ e ∈ evs', Own e) ∧ ∀ ch, ch < 2 → ∃ last out, conf.topo.mixAt 1 ch = some last ∧
    Returns s' last.hostname 7 last.name out ∧ out.Perm ((onChain subs ch).map (·.msg)) := by
  have hconn : Connected conf [a, b] := fun h _ h' hh => hh
  have hopen : ∀ h ∈ [a, b], (s4.servers h).rounds.lookup 7 ≠ none := by
    intro h hh
    simp only [List.mem_cons, List.not_mem_nil, or_false] at hh
    rcases hh with rfl | rfl
    · rw [show (s4.servers a).rounds.lookup 7 = some 0 from rfl]; simp
    · rw [show (s4.servers b).rounds.lookup 7 = some 0 from rfl]; simp
  obtain ⟨_, h2, h3⟩ := C87_round_completes (by omega) topo_ok hconn (by omega) (fun _ => Nat.succ_pos _) (fun _ => Nat.succ_pos _) (fun _ => Nat.succ_pos _)
    opens0 lossless0 all0 clients0 orderly0 hopen sent0
  obtain ⟨evs', s', h4, h5, h6⟩ := h2 [] s4 .nil (by simp)
  refine ⟨evs', s', h4, h5, ?_⟩
  intro ch hch
  rcases (show ch = 0 ∨ ch = 1 by omega) with rfl | rfl
  · obtain ⟨out, h7, h8⟩ := h3 evs' s' h4 h5 h6 0 _ rfl (by simp [onChain, subs])
    exact ⟨_, out, rfl, h7, h8⟩
  · obtain ⟨out, h7, h8⟩ := h3 evs' s' h4 h5 h6 1 _ rfl (by simp [onChain, subs])
    exact ⟨_, out, rfl, h7, h8⟩

end Ex

end Resmix.System
