import Verif.Proofs.Missing
import Verif.Props.Lost
set_option autoImplicit false
/-
C146: what becomes of a round when a client does not send an onion that was announced, or sends it before the round is open.
-/
namespace Resmix.System
open Resmix.Mixer (Messages MixOutput onionsFor workloadOf)
open Resmix.Sender
open Resmix.Topology (Closed)

section
variable {c : Config} {r : Nat} {subs : List Submission} {hosts : List Str} {L : Nat}

/-- C146 fails. In a round whose clients behave: as long as of the onions announced for a chain even one was not sent to the chain's first mix, or was sent only to be answered with
NotFound, the last mix of the chain returns nothing to anybody; and nothing but that client can change this, whatever the servers do. -/
theorem C146_missing_onion_refuted (hL : 0 < L) (ht : Topology.createCascade hosts L = .ok c.topo) (hr : r < 2 ^ 32) (hop : Opens c r L subs)
    {conn : Str → Bool} {evs got : List Event} {lost : List Request} {s : State} (hrun : HeardRun c r (init conn) evs got lost s)
    (hcs : Clients c.topo subs r evs) {ch : Nat} {first : LogicalMix} (hf : c.topo.mixAt 0 ch = some first)
    (hmissing : (clientOnions got r first.name).length < (onChain subs ch).length) {last : LogicalMix}
    (hlast : c.topo.mixAt (L - 1) ch = some last) (out : List Bytes) : ¬ Returns s last.hostname r last.name out := by
  have hcl := Topology.closed_of_create ht
  obtain ⟨hsi, _, A, ⟨v, _, _⟩⟩ := rinv_run hL ht hop hr hrun.lossy.run (hcs.sublist hrun.sublist)
  have hshort : (Mixer.delivered (A first.hostname) first.name).length < (onChain subs ch).length := by
    have hsub : (Mixer.delivered (A first.hostname) first.name).Subperm (clientOnions got r first.name) := subperm_of_count fun o => by
      have h1 := v.acct 0 ch first hf o
      rw [delivered_cnt]
      simp only [upSent, hf] at h1
      omega
    exact lt_of_le_of_lt hsub.length_le hmissing
  have hlastshort := starved hcl v hf hshort (L - 1) last (by rw [Nat.zero_add]; exact hlast)
  rintro ⟨hcr, i, m, hi, hg⟩
  have hm := mixerOf_eq (hsi last.hostname) (i := i) (m := m) hi
  obtain ⟨w, order, ms0, hord, h0, hx, hw, hexp⟩ := v.mixer _ _ hm
  obtain ⟨_, _, _, _, _, _, _, _, hfull, _⟩ := Mixer.outputs_of_get h0 hx (by rw [hw _ _ _ hlast]; omega) hg
  rw [hw _ _ _ hlast] at hfull
  omega

/-- C146, what holds. Other chains are not touched: once the system is at rest, the last mix of every chain all of whose announced onions were accepted by the server of its first mix,
and of whose onions none was lost between servers, returns the plaintexts submitted over it, whatever is missing on other chains. -/
theorem C146_other_chains_partial (hL : 0 < L) (ht : Topology.createCascade hosts L = .ok c.topo) (hconn : Connected c hosts) (hr : r < 2 ^ 32)
    (hcpu : ∀ h, 0 < (c.env h r).nCPU) (htask : ∀ h, 0 < (c.env h r).taskCap) (hout : ∀ h, 0 < (c.env h r).outCap) (hop : Opens c r L subs)
    {conn : Str → Bool} {evs got : List Event} {lost : List Request} {s : State} (hrun : HeardRun c r (init conn) evs got lost s) (hall : AllOrderly c L evs)
    (hcs : Clients c.topo subs r evs) (ho : Orderly c.topo r evs) (hrest : AtRest c s) {ch : Nat} {first : LogicalMix} (hf : c.topo.mixAt 0 ch = some first)
    (hsent : (clientOnions got r first.name).length = (onChain subs ch).length) (hlost : ¬ Carries c.topo ch lost) {last : LogicalMix}
    (hlast : c.topo.mixAt (L - 1) ch = some last) (hne : onChain subs ch ≠ []) :
    ∃ out, Returns s last.hostname r last.name out ∧ out.Perm ((onChain subs ch).map (·.msg)) := by
  have hs := hrun.sublist
  refine C143_other_chains_partial hL ht hconn hr hcpu htask hout hop hrun.lossy (hall.sublist hs) (hcs.sublist hs) (ho.sublist hs) ?_ hrest hlost hlast hne
  intro f hf'
  rw [hf] at hf'
  cases hf'
  exact ((hcs.sublist hs).onions ch first hf).perm_of_length_le (by rw [List.length_map, hsent])

/-- C146, together: at rest, exactly those chains with submissions have returned all of whose onions were accepted from the clients and none lost between servers. Every execution is
such an execution, with some refused requests and some losses (`Run.heard`). -/
theorem C146_exactly_partial (hL : 0 < L) (ht : Topology.createCascade hosts L = .ok c.topo) (hconn : Connected c hosts) (hr : r < 2 ^ 32)
    (hcpu : ∀ h, 0 < (c.env h r).nCPU) (htask : ∀ h, 0 < (c.env h r).taskCap) (hout : ∀ h, 0 < (c.env h r).outCap) (hop : Opens c r L subs)
    {conn : Str → Bool} {evs : List Event} {s : State} (hrun : Run c (init conn) evs s) (hall : AllOrderly c L evs)
    (hcs : Clients c.topo subs r evs) (ho : Orderly c.topo r evs) (hrest : AtRest c s) :
    ∃ got lost, HeardRun c r (init conn) evs got lost s ∧ ∀ ch first last, c.topo.mixAt 0 ch = some first → c.topo.mixAt (L - 1) ch = some last →
      onChain subs ch ≠ [] → ((∃ out, Returns s last.hostname r last.name out) ↔
        (clientOnions got r first.name).length = (onChain subs ch).length ∧ ¬ Carries c.topo ch lost) := by
  obtain ⟨got, lost, h⟩ := hrun.heard (r := r)
  refine ⟨got, lost, h, ?_⟩
  intro ch first last hf hlast hne
  have hcs' := hcs.sublist h.sublist
  constructor
  · rintro ⟨out, hret⟩
    refine ⟨?_, fun hcar => C143_lost_for_good_refuted hL ht hr hop (h.lossy.weaken fun _ _ _ => trivial) hcs' hcar hlast out hret⟩
    have h1 := (hcs'.onions ch first hf).length_le
    rw [List.length_map] at h1
    by_contra hlt
    exact C146_missing_onion_refuted hL ht hr hop h hcs hf (by omega) hlast out hret
  · rintro ⟨h1, h2⟩
    obtain ⟨out, h3, _⟩ := C146_other_chains_partial hL ht hconn hr hcpu htask hout hop h hall hcs ho hrest hf h1 h2 hlast hne
    exact ⟨out, h3⟩

end

/-! ### A concrete execution: one onion comes before the round is open and is not sent again -/
namespace ExMissing
open Ex

def early : Event := .client a (.addMessages 7 [fromClient [onion 0 [41]] (mixNameOf 0 0)])
def evsM : List Event :=
  [.client a (.newRound 7 loads topo.mixes), .client b (.newRound 7 loads topo.mixes),
   .client a (.addMessages 7 [fromClient [onion 0 [42]] (mixNameOf 0 0)]),
   .client b (.addMessages 7 [fromClient [onion 1 [43]] (mixNameOf 0 1)])]

def s1 : State := (runC conf (init fun _ => true) (evsM.take 1)).getD (init fun _ => true)
def s2 : State := (stepC conf s1 (.client b (.newRound 7 loads topo.mixes))).getD s1
def s3 : State := (stepC conf s2 (.client a (.addMessages 7 [fromClient [onion 0 [42]] (mixNameOf 0 0)]))).getD s2
def s4 : State := (stepC conf s3 (.client b (.addMessages 7 [fromClient [onion 1 [43]] (mixNameOf 0 1)]))).getD s3

theorem heardM : HeardRun conf 7 (init fun _ => true) (early :: evsM) evsM [] s4 := by
  have e0 : Step conf (init fun _ => true) early (init fun _ => true) := by
    have h : Step conf (init fun _ => true) early ((init fun _ => true).setServer a ((init fun _ => true).servers a)) :=
      .client (resp := .fail (.err .notFound "round not found")) (show (7 : Nat) < 2 ^ 32 by omega) rfl
    rwa [setServer_same] at h
  have e1 : Step conf (init fun _ => true) (.client a (.newRound 7 loads topo.mixes)) s1 := stepC_sound rfl
  have e2 : Step conf s1 (.client b (.newRound 7 loads topo.mixes)) s2 := stepC_sound rfl
  have e3 : Step conf s2 (.client a (.addMessages 7 [fromClient [onion 0 [42]] (mixNameOf 0 0)])) s3 := stepC_sound rfl
  have e4 : Step conf s3 (.client b (.addMessages 7 [fromClient [onion 1 [43]] (mixNameOf 0 1)])) s4 := stepC_sound rfl
  have l1 : (s2.servers a).rounds.lookup 7 = some 0 := rfl
  have l2 : (s3.servers b).rounds.lookup 7 = some 0 := rfl
  have k0 : ¬ Heard 7 (init fun _ => true) early := fun h => h rfl rfl
  have k3 : Heard 7 s2 (.client a (.addMessages 7 [fromClient [onion 0 [42]] (mixNameOf 0 0)])) := by intro _; rw [l1]; simp
  have k4 : Heard 7 s3 (.client b (.addMessages 7 [fromClient [onion 1 [43]] (mixNameOf 0 1)])) := by intro _; rw [l2]; simp
  exact ((((HeardRun.nil.unheard k0 e0).snoc (by trivial) e1).snoc (by trivial) e2).snoc k3 e3).snoc k4 e4

/-- The clients of the example are those of C87's example, who send the same onions in two calls. -/
theorem onionsM (n : Str) : clientOnions (early :: evsM) 7 n = if mixNameOf 0 0 = n then [onion 0 [41], onion 0 [42]] else if mixNameOf 0 1 = n then [onion 1 [43]] else [] := by
  have hne : mixNameOf 0 0 ≠ mixNameOf 0 1 := by decide
  simp only [clientOnions, early, evsM, sentBy, List.flatMap_cons, List.flatMap_nil, onionsFor, fromClient, List.filter_cons, List.filter_nil]
  by_cases h1 : mixNameOf 0 0 = n
  · subst h1; simp [Ne.symm hne]
  · by_cases h2 : mixNameOf 0 1 = n
    · subst h2; simp [hne]
    · simp [h1, h2]

theorem clientsM : Clients conf.topo subs 7 (early :: evsM) where
  once h := by
    by_cases ha : h = a
    · subst ha; decide
    · by_cases hb : h = b
      · subst hb; decide
      · have : (early :: evsM).filter (isOpening h 7) = [] := by
          simp only [early, evsM, isOpening, List.filter_cons, List.filter_nil]
          simp [Ne.symm ha, Ne.symm hb]
        rw [this]; simp
  loads h ls order he := by
    have : ls = loads := by
      simp [early, evsM] at he
      rcases he with ⟨_, h, _⟩ | ⟨_, h, _⟩ <;> exact h
    subst this
    refine ⟨by decide, ?_⟩
    intro c first hf
    have hc := (Topology.closed_of_create topo_ok).mixAt_some hf
    rcases (show c = 0 ∨ c = 1 by have := hc.2.1; simp at this; omega) with rfl | rfl <;>
    · cases hf; rfl
  first h ms he := by
    simp [early, evsM] at he
    rcases he with ⟨_, rfl⟩ | ⟨_, rfl⟩ | ⟨_, rfl⟩
    · intro m hm; rw [List.mem_singleton] at hm; subst hm; exact ⟨0, _, rfl, rfl, fun h => by simp [fromClient] at h⟩
    · intro m hm; rw [List.mem_singleton] at hm; subst hm; exact ⟨0, _, rfl, rfl, fun h => by simp [fromClient] at h⟩
    · intro m hm; rw [List.mem_singleton] at hm; subst hm; exact ⟨1, _, rfl, rfl, fun h => by simp [fromClient] at h⟩
  onions c first hf := by
    have hc := (Topology.closed_of_create topo_ok).mixAt_some hf
    rcases (show c = 0 ∨ c = 1 by have := hc.2.1; simp at this; omega) with rfl | rfl
    · cases hf; exact List.Subperm.refl _
    · cases hf; exact List.Subperm.refl _

theorem orderlyM : Orderly conf.topo 7 (early :: evsM) where
  noEnd h he := by simp [early, evsM] at he
  form h ms he := by
    simp [early, evsM] at he
    rcases he with ⟨rfl, rfl⟩ | ⟨rfl, rfl⟩ | ⟨rfl, rfl⟩
    · intro m hm; rw [List.mem_singleton] at hm; subst hm; exact ⟨0, _, rfl, rfl, rfl, rfl, rfl⟩
    · intro m hm; rw [List.mem_singleton] at hm; subst hm; exact ⟨0, _, rfl, rfl, rfl, rfl, rfl⟩
    · intro m hm; rw [List.mem_singleton] at hm; subst hm; exact ⟨1, _, rfl, rfl, rfl, rfl, rfl⟩

theorem allM : AllOrderly conf 2 (early :: evsM) := by
  intro r _
  by_cases hr : r = 7
  · subst hr; exact ⟨subs, opens0, clientsM, orderlyM⟩
  · have hn : ∀ h (ls : GoMap Str Nat) order, Event.client h (.newRound r ls order) ∉ early :: evsM := by
      intro h ls order he; simp [early, evsM, hr] at he
    have ha : ∀ h ms, Event.client h (.addMessages r ms) ∉ early :: evsM := by
      intro h ms he; simp [early, evsM, hr] at he
    refine ⟨[], by simp [Opens], ⟨?_, ?_, ?_, ?_⟩, ⟨?_, ?_⟩⟩
    · intro h
      have : (early :: evsM).filter (isOpening h r) = [] := by
        simp only [early, evsM, isOpening, List.filter_cons, List.filter_nil]
        simp [Ne.symm hr]
      rw [this]; simp
    · exact fun h ls order he => absurd he (hn h ls order)
    · exact fun h ms he => absurd he (ha h ms)
    · intro c first _
      have : clientOnions (early :: evsM) r first.name = [] := by simp [clientOnions, early, evsM, sentBy, Ne.symm hr]
      rw [this]; exact List.nil_subperm
    · intro h he; simp [early, evsM] at he
    · exact fun h ms he => absurd he (ha h ms)

/-- The example meets the hypotheses: however the servers go on from there, they come to rest, the chain one of whose onions came too early returns nothing (not even the other
client's plaintext) and the other chain its plaintext. -/
example : ∃ evs' s', Run conf s4 evs' s' ∧ (∀ e ∈ evs', Own e) ∧ AtRest conf s' ∧
    (∃ last, conf.topo.mixAt 1 0 = some last ∧ ∀ out, ¬ Returns s' last.hostname 7 last.name out) ∧
    ∃ last out, conf.topo.mixAt 1 1 = some last ∧ Returns s' last.hostname 7 last.name out ∧ out.Perm [[43]] := by
  have hconn : Connected conf [a, b] := fun h _ h' hh => hh
  have hopen : ∀ h ∈ [a, b], (s4.servers h).rounds.lookup 7 ≠ none := by
    intro h hh
    simp only [List.mem_cons, List.not_mem_nil, or_false] at hh
    rcases hh with rfl | rfl
    · rw [show (s4.servers a).rounds.lookup 7 = some 0 from rfl]; simp
    · rw [show (s4.servers b).rounds.lookup 7 = some 0 from rfl]; simp
  obtain ⟨N, hN⟩ := bounded (by omega) topo_ok hconn heardM.lossy.run (allM.sublist heardM.sublist)
  obtain ⟨evs', s', h1, h2, h3⟩ := reach_rest fun evs' s' h1 h2 => (hN evs' s' h1 h2).1
  have hl := heard_continue (by omega) topo_ok hconn heardM (by omega) allM hopen h1 h2
  have hcs' := clientsM.own h2
  refine ⟨evs', s', h1, h2, h3, ⟨_, rfl, fun out => ?_⟩, ?_⟩
  · refine C146_missing_onion_refuted (by omega) topo_ok (by omega) opens0 hl hcs' (ch := 0) rfl ?_ rfl out
    rw [own_onions h2]
    decide
  · obtain ⟨out, h4, h5⟩ := C146_other_chains_partial (by omega) topo_ok hconn (by omega) (fun _ => Nat.succ_pos _) (fun _ => Nat.succ_pos _) (fun _ => Nat.succ_pos _)
      opens0 hl (allM.own h2) hcs' (orderlyM.own h2) h3 (ch := 1) rfl (by rw [own_onions h2]; decide) (fun ⟨_, h, _⟩ => by cases h) (last := _) rfl
      (by simp [onChain, subs])
    exact ⟨_, out, rfl, h4, h5⟩

end ExMissing

end Resmix.System
