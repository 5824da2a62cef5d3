import Verif.Props.Missing
import Verif.Proofs.OpenFirst
set_option autoImplicit false
/-
C148: what becomes of a chain when the round is ended at the server of its first mix before all its onions came.
-/
namespace Resmix.System
open Resmix.Mixer (Messages MixOutput onionsFor workloadOf)
open Resmix.Sender
open Resmix.Topology (Closed)

/-- A round that a server does not know stays unknown to it until it is asked to open it. -/
theorem rounds_none {cfg : Server.Config} {r : Nat} {srv srv' : Server.State} {a : Server.Action} {resp : Server.Resp}
    (hs : Server.step cfg srv a = some (srv', resp)) (hne : ∀ ls order, a ≠ .newRound r ls order) (ho : srv.rounds.lookup r = none) :
    srv'.rounds.lookup r = none := by
  unfold Server.step at hs
  split at hs
  · cases hs
  cases a with
  | newRound r' ls order =>
    have hrr : r ≠ r' := fun h => hne ls order (by rw [h])
    simp only at hs
    split at hs
    · next s1 hn => cases hs; unfold Server.newRound at hn; grind [GoMap.lookup_insert]
    · cases hs; exact ho
    · cases hs; exact ho
  | endRound r' => simp only at hs; grind [Server.State.setObj, GoMap.lookup_erase]
  | _ => simp only at hs; grind [Server.State.setObj]

section
variable {c : Config} {r : Nat} {subs : List Submission} {hosts : List Str} {L : Nat}

theorem closed_round (hcl : Closed hosts L c.topo) {ch : Nat} {first : LogicalMix} (hf : c.topo.mixAt 0 ch = some first) {s0 : State} {evs0 got0 : List Event}
    {lost0 : List Request} {s : State} (h0 : HeardRun c r s0 evs0 got0 lost0 s) (hn : (s.servers first.hostname).rounds.lookup r = none) {evs : List Event} {s' : State}
    (hrun : Run c s evs s') (hno : ∀ e ∈ evs, isOpening first.hostname r e = false)
    (hform : ∀ h ms, .client h (.addMessages r ms) ∈ evs → ∀ m ∈ ms, ∃ c' f, c.topo.mixAt 0 c' = some f ∧ m.logicalReceiver = f.name ∧ f.hostname = h) :
    (s'.servers first.hostname).rounds.lookup r = none ∧
      ∃ got lost, HeardRun c r s0 (evs0 ++ evs) got lost s' ∧ clientOnions got r first.name = clientOnions got0 r first.name := by
  induction hrun with
  | nil => exact ⟨hn, got0, lost0, by simpa using h0, rfl⟩
  | snoc hrun hst ih =>
    next evs s s' e =>
    obtain ⟨hn, got, lost, hh, hc⟩ := ih (fun e he => hno e (by simp [he])) (fun h ms he => hform h ms (by simp [he]))
    refine ⟨?_, ?_⟩
    · rcases step_servers hst first.hostname with heq | ⟨a, srv, resp, h1, h2, h3⟩
      · rw [heq]; exact hn
      · have hne : ∀ ls order, a ≠ .newRound r ls order := by
          rintro ls order rfl
          rcases h3 with rfl | h3 | ⟨i, h3⟩ | ⟨k, rq, _, _, _, h3⟩
          · have := hno _ (List.mem_append_right evs (List.mem_singleton_self _))
            simp [isOpening] at this
          · exact h3
          · cases h3
          · cases h3
        have := rounds_none h1 hne hn
        rcases h2 with h2 | h2 <;> rw [h2] <;> exact this
    · rw [← List.append_assoc]
      by_cases hhe : Heard r s e
      · refine ⟨_, _, hh.snoc hhe hst, ?_⟩
        unfold clientOnions at hc ⊢
        rw [List.flatMap_append, hc, List.flatMap_singleton]
        suffices sentBy r first.name e = [] by rw [this, List.append_nil]
        cases e with
        | client h a =>
          cases a with
          | addMessages r' ms =>
            simp only [sentBy]
            split
            · next hrr =>
              subst hrr
              unfold onionsFor
              rw [List.flatMap_eq_nil_iff]
              intro m hm
              rw [List.mem_filter] at hm
              obtain ⟨c', f, h1, h2, h3⟩ := hform h ms (by simp) m hm.1
              have hnm : m.logicalReceiver = first.name := by simpa using hm.2
              obtain ⟨_, _, rfl⟩ := mixAt_inj hcl h1 hf (h2.symm.trans hnm)
              rw [← h3] at hhe
              exact absurd hn (hhe rfl)
            · rfl
          | _ => rfl
        | _ => rfl
      · exact ⟨_, _, hh.unheard hhe hst, hc⟩

/-- C148 fails. When the round is ended at the server of the first mix of a chain before all the chain's onions were sent there, the last mix of the chain returns nothing to anybody,
in no continuation: neither the onions that came before nor those sent afterwards, at whatever time, bring it to an end. (Clients open the round once at every server and send the
onions to the server of the first mix, as in C64.) -/
theorem C148_ended_early_refuted (hL : 0 < L) (ht : Topology.createCascade hosts L = .ok c.topo) (hr : r < 2 ^ 32) (hop : Opens c r L subs)
    {conn : Str → Bool} {evs1 evs2 : List Event} {s1 s2 s3 : State} {ch : Nat} {first : LogicalMix} (hf : c.topo.mixAt 0 ch = some first)
    (hrun1 : Run c (init conn) evs1 s1) (hopen : (s1.servers first.hostname).rounds.lookup r ≠ none)
    (hend : Step c s1 (.client first.hostname (.endRound r)) s2) (hrun2 : Run c s2 evs2 s3)
    (hcs : Clients c.topo subs r (evs1 ++ [.client first.hostname (.endRound r)] ++ evs2))
    (hform : ∀ h ms, .client h (.addMessages r ms) ∈ evs2 → ∀ m ∈ ms, ∃ c' f, c.topo.mixAt 0 c' = some f ∧ m.logicalReceiver = f.name ∧ f.hostname = h)
    (hmissing : (clientOnions evs1 r first.name).length < (onChain subs ch).length) {last : LogicalMix}
    (hlast : c.topo.mixAt (L - 1) ch = some last) (out : List Bytes) : ¬ Returns s3 last.hostname r last.name out := by
  have hcl := Topology.closed_of_create ht
  have hcs12 : Clients c.topo subs r (evs1 ++ [.client first.hostname (.endRound r)]) := hcs.sublist (List.sublist_append_left _ _)
  have hi := rinv_run hL ht hop hr hrun1 (hcs12.sublist (List.sublist_append_left _ _))
  obtain ⟨got1, lost1, hh1⟩ := hrun1.heard (r := r)
  have hh2 := hh1.snoc (e := .client first.hostname (.endRound r)) (by trivial) hend
  obtain ⟨e, he, hee⟩ : ∃ e ∈ evs1, isOpening first.hostname r e = true := by
    obtain ⟨i, hi'⟩ := Option.ne_none_iff_exists'.1 hopen
    obtain ⟨m, hm⟩ := (hi.si first.hostname).bound r i hi'
    exact hi.opened _ (by rw [mixerOf_eq (hi.si first.hostname) hm]; rfl)
  have hno : ∀ e ∈ evs2, isOpening first.hostname r e = false := by
    intro e2 he2
    by_contra hb
    have hone := hcs.once first.hostname
    rw [List.filter_append, List.filter_append, List.length_append, List.length_append] at hone
    have p1 : 0 < (evs1.filter (isOpening first.hostname r)).length := List.length_pos_of_mem (List.mem_filter.2 ⟨he, hee⟩)
    have p2 : 0 < (evs2.filter (isOpening first.hostname r)).length := List.length_pos_of_mem (List.mem_filter.2 ⟨he2, by simpa using hb⟩)
    omega
  have hn : (s2.servers first.hostname).rounds.lookup r = none := by
    cases hend with
    | client ha hs =>
      rw [set_self]
      unfold Server.step at hs
      split at hs
      · cases hs
      simp only at hs
      grind [Server.State.setObj, GoMap.lookup_erase]
  obtain ⟨_, got, lost, h3, h4⟩ := closed_round hcl hf hh2 hn hrun2 hno hform
  refine C146_missing_onion_refuted hL ht hr hop h3 hcs hf (lt_of_le_of_lt ?_ hmissing) hlast out
  rw [h4]
  have : clientOnions (got1 ++ [.client first.hostname (.endRound r)]) r first.name = clientOnions got1 r first.name := by simp [clientOnions, sentBy]
  rw [this]
  exact (clientOnions_sublist hh1.sublist _).length_le

end

/-! ### A concrete execution: one of two onions has come when the round is ended; the other is sent afterwards -/
namespace ExEnded
open Ex
open ExMissing (early)

def evs1 : List Event :=
  [.client a (.newRound 7 loads topo.mixes), .client b (.newRound 7 loads topo.mixes),
   .client a (.addMessages 7 [fromClient [onion 0 [42]] (mixNameOf 0 0)])]

/-- The server after EndRound, if the step is enabled. -/
def srvE : Server.State × Server.Resp := (Server.step (conf.server a) (ExMissing.s3.servers a) (.endRound 7)).getD (ExMissing.s3.servers a, .ok)

def s4 : State := ExMissing.s3.setServer a srvE.1

theorem run1 : Run conf (init fun _ => true) evs1 ExMissing.s3 := by
  have e1 : Step conf (init fun _ => true) (.client a (.newRound 7 loads topo.mixes)) ExMissing.s1 := stepC_sound rfl
  have e2 : Step conf ExMissing.s1 (.client b (.newRound 7 loads topo.mixes)) ExMissing.s2 := stepC_sound rfl
  have e3 : Step conf ExMissing.s2 (.client a (.addMessages 7 [fromClient [onion 0 [42]] (mixNameOf 0 0)])) ExMissing.s3 := stepC_sound rfl
  exact ((Run.nil.snoc e1).snoc e2).snoc e3

theorem onionsE (n : Str) : clientOnions (evs1 ++ [.client a (.endRound 7)] ++ [early]) 7 n = if mixNameOf 0 0 = n then [onion 0 [42], onion 0 [41]] else [] := by
  simp only [clientOnions, early, evs1, sentBy, List.flatMap_cons, List.flatMap_nil, onionsFor, fromClient, List.filter_cons, List.filter_nil, List.cons_append,
    List.nil_append]
  by_cases h1 : mixNameOf 0 0 = n
  · subst h1; simp
  · simp [h1]

theorem clientsE : Clients conf.topo subs 7 (evs1 ++ [.client a (.endRound 7)] ++ [early]) where
  once h := by
    by_cases ha : h = a
    · subst ha; decide
    · by_cases hb : h = b
      · subst hb; decide
      · have : (evs1 ++ [Event.client a (.endRound 7)] ++ [early]).filter (isOpening h 7) = [] := by
          simp only [early, evs1, isOpening, List.filter_cons, List.filter_nil, List.cons_append, List.nil_append]
          simp [Ne.symm ha, Ne.symm hb]
        rw [this]; simp
  loads h ls order he := by
    have : ls = loads := by
      simp [early, evs1] at he
      rcases he with ⟨_, h, _⟩ | ⟨_, h, _⟩ <;> exact h
    subst this
    refine ⟨by decide, ?_⟩
    intro c first hf
    have hc := (Topology.closed_of_create topo_ok).mixAt_some hf
    rcases (show c = 0 ∨ c = 1 by have := hc.2.1; simp at this; omega) with rfl | rfl <;>
    · cases hf; rfl
  first h ms he := by
    simp [early, evs1] at he
    rcases he with ⟨_, rfl⟩ | ⟨_, rfl⟩ <;>
    · intro m hm; rw [List.mem_singleton] at hm; subst hm; exact ⟨0, _, rfl, rfl, fun h => by simp [fromClient] at h⟩
  onions c first hf := by
    have hc := (Topology.closed_of_create topo_ok).mixAt_some hf
    rw [onionsE]
    rcases (show c = 0 ∨ c = 1 by have := hc.2.1; simp at this; omega) with rfl | rfl
    · cases hf; exact (List.Perm.swap _ _ _).subperm
    · cases hf
      rw [if_neg (by decide)]
      exact List.nil_subperm

/-- The example meets the hypotheses: the last mix of the chain never returns, though both onions were sent. -/
example : ∃ last, conf.topo.mixAt 1 0 = some last ∧ ∀ out, ¬ Returns s4 last.hostname 7 last.name out := by
  have e4 : Step conf ExMissing.s3 (.client a (.endRound 7)) s4 := .client (resp := srvE.2) (show (7 : Nat) < 2 ^ 32 by omega) rfl
  have e5 : Step conf s4 early s4 := by
    have h : Step conf s4 early (s4.setServer a (s4.servers a)) :=
      .client (resp := .fail (.err .notFound "round not found")) (show (7 : Nat) < 2 ^ 32 by omega) rfl
    rwa [setServer_same] at h
  refine ⟨_, rfl, fun out => ?_⟩
  refine C148_ended_early_refuted (by omega) topo_ok (by omega) opens0 (ch := 0) rfl run1 ?_ e4 (Run.nil.snoc e5) clientsE ?_ ?_ rfl out
  · show (ExMissing.s3.servers a).rounds.lookup 7 ≠ none
    rw [show (ExMissing.s3.servers a).rounds.lookup 7 = some 0 from rfl]; simp
  · intro h ms he
    simp [early] at he
    obtain ⟨rfl, rfl⟩ := he
    intro m hm; rw [List.mem_singleton] at hm; subst hm; exact ⟨0, _, rfl, rfl, rfl⟩
  · decide

end ExEnded

end Resmix.System
