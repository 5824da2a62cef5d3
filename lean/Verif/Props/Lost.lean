import Verif.Proofs.Lost
import Verif.Props.SystemLive
set_option autoImplicit false
/-
C143: what becomes of a round when a request between servers is lost, or comes too early.
-/
namespace Resmix.System
open Resmix.Mixer (Messages MixOutput callOf onionsFor onionsOf resultOf workloadOf)
open Resmix.Onion (Peels)
open Resmix.Sender
open Resmix.Topology (Closed)

section
variable {c : Config} {r : Nat} {subs : List Submission} {hosts : List Str} {L : Nat}

theorem starved (hcl : Closed hosts L c.topo) {evs : List Event} {mx : Str → Option Mixer.State} {wt : Str → List Messages} {nt : List Messages}
    {A : Str → List Mixer.Action} (v : VInv c r subs evs mx wt nt A) {ch : Nat} {l0 : Nat} {m0 : LogicalMix} (hm0 : c.topo.mixAt l0 ch = some m0)
    (hs : (Mixer.delivered (A m0.hostname) m0.name).length < (onChain subs ch).length) :
    ∀ (d : Nat) (mix : LogicalMix), c.topo.mixAt (l0 + d) ch = some mix → (Mixer.delivered (A mix.hostname) mix.name).length < (onChain subs ch).length := by
  intro d
  induction d with
  | zero => intro mix hm; rw [Nat.add_zero, hm0] at hm; cases hm; exact hs
  | succ d ih =>
    intro mix hm
    obtain ⟨hlt, hch, _⟩ := hcl.mixAt_some hm
    obtain ⟨u, hu⟩ : ∃ u, c.topo.mixAt (l0 + d) ch = some u := ⟨_, hcl.mixAt_eq (l0 + d) ch (by omega) hch⟩
    have hd := ih u hu
    have hne : onChain subs ch ≠ [] := by intro h; rw [h] at hd; simp at hd
    have hsent : upSent c r evs mx ch (l0 + d + 1) = [] := by
      simp only [upSent, hu]
      cases hmx : mx u.hostname with
      | none => rfl
      | some m =>
        obtain ⟨w, order, ms0, hord, h0, hx, hw, hexp⟩ := v.mixer _ m hmx
        obtain ⟨hlay, _, hmem⟩ := mixAt_layer hcl hu
        have hown := (Server.mem_ownMixes hcl hord (m := u) (host := u.hostname)).2 ⟨hmem, rfl⟩
        obtain ⟨pk, hpk⟩ := hexp u hown
        exact short_silent h0 (Server.ownMixes_nodup hcl hord) hx hown hpk (by rw [hw _ _ _ hu]; exact hd) (noEmpty_of ((v.ne _ ch u hu hne).1 _))
    have hz : Mixer.delivered (A mix.hostname) mix.name = [] := by
      rw [List.eq_nil_iff_forall_not_mem]
      intro o ho
      have h1 := v.acct _ ch mix hm o
      have h2 : 0 < (Mixer.delivered (A mix.hostname) mix.name).count o := List.count_pos_iff.2 ho
      rw [delivered_cnt] at h2
      rw [show l0 + (d + 1) = l0 + d + 1 by omega, hsent] at h1
      simp at h1
      omega
    rw [hz]
    exact List.length_pos_iff.2 hne

/-- C143 fails. In a round whose clients behave, once a request that carries onions of a chain was lost, because the network dropped it or because its host had not yet opened the
round, the last mix of that chain never returns anything, however the execution goes on (the execution may be of any length, before and after the loss). -/
theorem C143_lost_for_good_refuted (hL : 0 < L) (ht : Topology.createCascade hosts L = .ok c.topo) (hr : r < 2 ^ 32) (hop : Opens c r L subs)
    {conn : Str → Bool} {evs : List Event} {lost : List Request} {s : State} (hrun : LossyRun c r (fun _ _ => True) (init conn) evs lost s)
    (hcs : Clients c.topo subs r evs) {ch : Nat} (hlost : Carries c.topo ch lost) {last : LogicalMix}
    (hlast : c.topo.mixAt (L - 1) ch = some last) (out : List Bytes) : ¬ Returns s last.hostname r last.name out := by
  have hround := lost_round hrun
  have hcl := Topology.closed_of_create ht
  obtain ⟨evs', t, h1, _, h3, h4, h5⟩ := shadow rfl hrun
  obtain ⟨hsi, _, A, ⟨v, _, _⟩⟩ := rinv_run hL ht hop hr h1 (hcs.congr h5)
  obtain ⟨rq, hrq, M, hM, hMne, l0, m0, hm0, hMr⟩ := hlost
  have hin : M ∈ netB r t.net := by
    refine List.mem_flatMap.2 ⟨rq, h4.mem_iff.2 (List.mem_append_left _ hrq), ?_⟩
    rw [if_pos (hround rq hrq)]
    exact hM
  have hcount : ∀ l mix, c.topo.mixAt l ch = some mix → ∀ o, cnt mix.name o (calls (A mix.hostname)) + cnt mix.name o (netB r t.net) ≤ (X c r subs ch l).count o := by
    intro l mix hm o
    have h6 := v.acct l ch mix hm o
    have h7 := v.bnd l ch o
    omega
  obtain ⟨hlt0, hch, _⟩ := hcl.mixAt_some hm0
  have hshort : (Mixer.delivered (A m0.hostname) m0.name).length < (onChain subs ch).length := by
    have hsub : (Mixer.delivered (A m0.hostname) m0.name ++ onionsFor m0.name (netB r t.net)).Subperm (X c r subs ch l0) := subperm_of_count fun o => by
      rw [List.count_append, delivered_cnt]
      exact hcount l0 m0 hm0 o
    have hlen := hsub.length_le
    rw [X_length, List.length_append] at hlen
    have hpos : 0 < (onionsFor m0.name (netB r t.net)).length := by
      obtain ⟨o, ho⟩ := List.exists_mem_of_ne_nil _ hMne
      refine List.length_pos_of_mem (a := o) ?_
      unfold onionsFor
      exact List.mem_flatMap.2 ⟨M, List.mem_filter.2 ⟨hin, by simpa using hMr⟩, ho⟩
    omega
  have hlastshort := starved hcl v hm0 hshort (L - 1 - l0) last (by rw [show l0 + (L - 1 - l0) = L - 1 by omega]; exact hlast)
  rintro ⟨hcr, i, m, hi, hg⟩
  have hm := mixerOf_eq (hsi last.hostname) (i := i) (m := m) (by rw [h3]; exact hi)
  obtain ⟨w, order, ms0, hord, h0, hx, hw, hexp⟩ := v.mixer _ _ hm
  obtain ⟨_, _, _, _, _, _, _, _, hfull, _⟩ := Mixer.outputs_of_get h0 hx (by rw [hw _ _ _ hlast]; omega) hg
  rw [hw _ _ _ hlast] at hfull
  omega

/-- C143, what holds. Take a round whose clients behave and sent no onions to a server that had not opened the round, and any losses whatever of requests
between servers: dropped ones and ones that came before their host opened the round. Once the system is at rest, the last mix of every chain of whose onions all were sent and none was lost returns the
plaintexts submitted over that chain: a loss on one chain does not touch the others. Every execution is such an execution with some list of losses (`Run.lossy`). -/
theorem C143_other_chains_partial (hL : 0 < L) (ht : Topology.createCascade hosts L = .ok c.topo) (hconn : Connected c hosts) (hr : r < 2 ^ 32)
    (hcpu : ∀ h, 0 < (c.env h r).nCPU) (htask : ∀ h, 0 < (c.env h r).taskCap) (hout : ∀ h, 0 < (c.env h r).outCap) (hop : Opens c r L subs)
    {conn : Str → Bool} {evs : List Event} {lost : List Request} {s : State} (hrun : LossyRun c r (Heard r) (init conn) evs lost s) (hall : AllOrderly c L evs)
    (hcs : Clients c.topo subs r evs) (ho : Orderly c.topo r evs)
    {ch : Nat} (hsent : ∀ first, c.topo.mixAt 0 ch = some first → (clientOnions evs r first.name).Perm ((onChain subs ch).map (·.onion))) (hrest : AtRest c s)
    (hlost : ¬ Carries c.topo ch lost) {last : LogicalMix} (hlast : c.topo.mixAt (L - 1) ch = some last) (hne : onChain subs ch ≠ []) :
    ∃ out, Returns s last.hostname r last.name out ∧ out.Perm ((onChain subs ch).map (·.msg)) := by
  have hcl := Topology.closed_of_create ht
  have hc := no_crash hL ht hconn hrun.run hall
  have hi := rinv_run hL ht hop hr hrun.run hcs
  obtain ⟨evs', t, _, h2, h3, h4, h5⟩ := shadow rfl hrun
  obtain ⟨_, _, A, a⟩ := rinv_lossless hL ht hop hr hconn (h2 fun _ _ h => h) (hcs.congr h5)
  rw [h3] at a
  refine completed_of hcl hL hop hcpu htask hout hconn hi a (ho.congr h5) hc hrest ?_ ?_ hlast hne
  · intro first hf
    rw [clientOnions_congr h5]
    exact hsent first hf
  · intro l mix hm o
    have h6 := net_of_rest hc hrest
    rw [h6, List.append_nil] at h4
    refine cnt_of_not_carries (fun hcar => hlost ?_) hm o
    obtain ⟨rq, hrq, hx⟩ := hcar
    exact ⟨rq, h4.mem_iff.1 hrq, hx⟩

/-- C143, together: at rest, exactly the chains with submissions of whose onions none was lost have returned. -/
theorem C143_exactly_partial (hL : 0 < L) (ht : Topology.createCascade hosts L = .ok c.topo) (hconn : Connected c hosts) (hr : r < 2 ^ 32)
    (hcpu : ∀ h, 0 < (c.env h r).nCPU) (htask : ∀ h, 0 < (c.env h r).taskCap) (hout : ∀ h, 0 < (c.env h r).outCap) (hop : Opens c r L subs)
    {conn : Str → Bool} {evs : List Event} {lost : List Request} {s : State} (hrun : LossyRun c r (Heard r) (init conn) evs lost s) (hall : AllOrderly c L evs)
    (hcs : Clients c.topo subs r evs) (ho : Orderly c.topo r evs)
    (hsent : ∀ ch first, c.topo.mixAt 0 ch = some first → (clientOnions evs r first.name).Perm ((onChain subs ch).map (·.onion))) (hrest : AtRest c s)
    {ch : Nat} {last : LogicalMix} (hlast : c.topo.mixAt (L - 1) ch = some last) (hne : onChain subs ch ≠ []) :
    (∃ out, Returns s last.hostname r last.name out) ↔ ¬ Carries c.topo ch lost := by
  constructor
  · rintro ⟨out, h⟩ hcar
    exact C143_lost_for_good_refuted hL ht hr hop (hrun.weaken fun _ _ _ => trivial) hcs hcar hlast out h
  · intro h
    obtain ⟨out, h1, _⟩ := C143_other_chains_partial hL ht hconn hr hcpu htask hout hop hrun hall hcs ho (hsent _) hrest h hlast hne
    exact ⟨out, h1⟩

end

/-! ### A concrete execution: the first server forwards its batch before the second has opened the round -/
namespace ExLost
open Ex

def unheardC (r : Nat) (s : State) : Event → Bool
  | .client h (.addMessages r' _) => decide (r' = r) && ((s.servers h).rounds.lookup r).isNone
  | _ => false

/-- The scheduler of `Ex`, which also keeps the list of the requests that get lost. -/
def lossyC (c : Config) (r : Nat) (s : State) : List Event → Option (List Request × State)
  | [] => some ([], s)
  | e :: es =>
    if unheardC r s e then none else (stepC c s e).bind fun s' => (lossyC c r s' es).map fun x => (lostBy r s e ++ x.1, x.2)

theorem lossyC_sound {c : Config} {r : Nat} {s0 : State} : ∀ {es : List Event} {s : State} {evs : List Event} {lost0 : List Request} {x : List Request × State},
    LossyRun c r (Heard r) s0 evs lost0 s → lossyC c r s es = some x → LossyRun c r (Heard r) s0 (evs ++ es) (lost0 ++ x.1) x.2
  | [], s, evs, lost0, x, h, hx => by simp only [lossyC, Option.some.injEq] at hx; subst hx; simpa using h
  | e :: es, s, evs, lost0, x, h, hx => by
    rw [lossyC] at hx
    by_cases hc : unheardC r s e = true
    · rw [if_pos hc] at hx; cases hx
    · rw [if_neg hc] at hx
      simp only [Option.bind_eq_some_iff, Option.map_eq_some_iff] at hx
      obtain ⟨s1, h1, y, h2, rfl⟩ := hx
      have hh : Heard r s e := by
        cases e with
        | client h a =>
          cases a with
          | addMessages r' ms =>
            intro hr hn
            simp [unheardC, hr, hn] at hc
          | _ => trivial
        | _ => trivial
      have := lossyC_sound (h.snoc hh (stepC_sound h1)) h2
      simpa using this

def open_ (h : Str) : Event := .client h (.newRound 7 loads topo.mixes)
def toA : Event := .client a (.addMessages 7 [fromClient [onion 0 [42]] (mixNameOf 0 0), fromClient [onion 0 [41]] (mixNameOf 0 0)])
def toB : Event := .client b (.addMessages 7 [fromClient [onion 1 [43]] (mixNameOf 0 1)])

/-- Only the first server has opened the round when it forwards its batch; then the second opens it and gets its messages. -/
def evsL : List Event := [open_ a, toA, .work a (.enter 0)] ++ List.replicate 7 (.work a (.work 0 .addStep)) ++
  [.work a (.work 0 .take), .work a (.work 0 .take), .work a (.work 0 (.finish 1)), .work a (.work 0 (.finish 0)), .work a (.work 0 (.shuffle 0 ws)), .work a (.work 0 (.send 0)), .forward a 0, .deliver 0, open_ b, toB]

/-- The clients' part of the execution. -/
def evsC : List Event :=
  [.client a (.newRound 7 loads topo.mixes), .client a (.addMessages 7 [fromClient [onion 0 [42]] (mixNameOf 0 0), fromClient [onion 0 [41]] (mixNameOf 0 0)]),
   .client b (.newRound 7 loads topo.mixes), .client b (.addMessages 7 [fromClient [onion 1 [43]] (mixNameOf 0 1)])]

theorem evsC_filter : evsL.filter isClient = evsC.filter isClient := rfl

theorem sentC : ∀ ch first, conf.topo.mixAt 0 ch = some first → (clientOnions evsC 7 first.name).Perm ((onChain subs ch).map (·.onion)) := by
  intro c first hf
  have hc := (Topology.closed_of_create topo_ok).mixAt_some hf
  rcases (show c = 0 ∨ c = 1 by have := hc.2.1; simp at this; omega) with rfl | rfl
  · cases hf; exact List.Perm.swap _ _ []
  · cases hf; exact List.Perm.refl _

theorem clientsC : Clients conf.topo subs 7 evsC where
  once h := by
    by_cases ha : h = a
    · subst ha; decide
    · by_cases hb : h = b
      · subst hb; decide
      · have : evsC.filter (isOpening h 7) = [] := by
          simp only [evsC, isOpening, List.filter_cons, List.filter_nil]
          simp [Ne.symm ha, Ne.symm hb]
        rw [this]; simp
  loads h ls order he := by
    have : ls = loads := by
      simp [evsC] at he
      rcases he with ⟨_, h, _⟩ | ⟨_, h, _⟩ <;> exact h
    subst this
    refine ⟨by decide, ?_⟩
    intro c first hf
    have hc := (Topology.closed_of_create topo_ok).mixAt_some hf
    rcases (show c = 0 ∨ c = 1 by have := hc.2.1; simp at this; omega) with rfl | rfl <;>
    · cases hf; rfl
  first h ms he := by
    simp [evsC] at he
    rcases he with ⟨_, rfl⟩ | ⟨_, rfl⟩
    · intro m hm
      simp only [List.mem_cons, List.not_mem_nil, or_false] at hm
      refine ⟨0, _, rfl, ?_⟩
      rcases hm with rfl | rfl <;> exact ⟨rfl, fun h => by simp [fromClient] at h⟩
    · intro m hm
      simp only [List.mem_cons, List.not_mem_nil, or_false] at hm
      subst hm
      exact ⟨1, _, rfl, rfl, fun h => by simp [fromClient] at h⟩
  onions c first hf := (sentC c first hf).subperm

theorem orderlyC : Orderly conf.topo 7 evsC where
  noEnd h he := by simp [evsC] at he
  form h ms he := by
    simp [evsC] at he
    rcases he with ⟨rfl, rfl⟩ | ⟨rfl, rfl⟩
    · intro m hm
      simp only [List.mem_cons, List.not_mem_nil, or_false] at hm
      refine ⟨0, _, rfl, ?_⟩
      rcases hm with rfl | rfl <;> exact ⟨rfl, rfl, rfl, rfl⟩
    · intro m hm
      simp only [List.mem_cons, List.not_mem_nil, or_false] at hm
      subst hm
      exact ⟨1, _, rfl, rfl, rfl, rfl, rfl⟩

theorem allC : AllOrderly conf 2 evsC := by
  intro r _
  by_cases hr : r = 7
  · subst hr; exact ⟨subs, opens0, clientsC, orderlyC⟩
  · have hn : ∀ h (ls : GoMap Str Nat) order, Event.client h (.newRound r ls order) ∉ evsC := by
      intro h ls order he; simp [evsC, hr] at he
    have ha : ∀ h ms, Event.client h (.addMessages r ms) ∉ evsC := by
      intro h ms he; simp [evsC, hr] at he
    refine ⟨[], by simp [Opens], ⟨?_, ?_, ?_, ?_⟩, ⟨?_, ?_⟩⟩
    · intro h
      have : evsC.filter (isOpening h r) = [] := by
        simp only [evsC, isOpening, List.filter_cons, List.filter_nil]
        simp [Ne.symm hr]
      rw [this]; simp
    · exact fun h ls order he => absurd he (hn h ls order)
    · exact fun h ms he => absurd he (ha h ms)
    · intro c first _
      have : clientOnions evsC r first.name = [] := by simp [clientOnions, evsC, sentBy, Ne.symm hr]
      rw [this]; exact List.nil_subperm
    · intro h he; simp [evsC] at he
    · exact fun h ms he => absurd he (ha h ms)

def resL : List Request × State := (lossyC conf 7 (init fun _ => true) evsL).getD ([], init fun _ => true)

set_option maxRecDepth 10000 in
theorem okL : (lossyC conf 7 (init fun _ => true) evsL).isSome = true := by rfl

theorem lossyL : LossyRun conf 7 (Heard 7) (init fun _ => true) evsL resL.1 resL.2 := by
  have h := okL
  rw [Option.isSome_iff_exists] at h
  obtain ⟨x, hx⟩ := h
  have := lossyC_sound (evs := []) LossyRun.nil hx
  unfold resL
  rw [hx]
  simpa using this

set_option maxRecDepth 10000 in
theorem lostL : resL.1.map (fun rq => (rq.host, rq.round, rq.messages)) = [(b, 7, [⟨[[42, 0, 0, 0, 1, 0, 0, 0, 0], [41, 0, 0, 0, 1, 0, 0, 0, 0]], a, mixNameOf 0 0, mixNameOf 1 1⟩])] := by rfl

theorem lostOne : ∃ rq, resL.1 = [rq] ∧ rq.messages = [⟨[[42, 0, 0, 0, 1, 0, 0, 0, 0], [41, 0, 0, 0, 1, 0, 0, 0, 0]], a, mixNameOf 0 0, mixNameOf 1 1⟩] := by
  have h := lostL
  obtain ⟨rq, h1, h2⟩ := List.map_eq_singleton_iff.1 h
  exact ⟨rq, h1, (Prod.mk.inj (Prod.mk.inj h2).2).2⟩

theorem carries0 : Carries conf.topo 0 resL.1 := by
  obtain ⟨rq, h1, h2⟩ := lostOne
  rw [h1]
  exact ⟨rq, List.mem_cons_self, _, by rw [h2]; exact List.mem_cons_self, by simp, 1, _, rfl, rfl⟩

theorem carries1 : ¬ Carries conf.topo 1 resL.1 := by
  obtain ⟨rq0, h1, h2⟩ := lostOne
  rw [h1]
  rintro ⟨rq, hrq, M, hM, _, l, mix, hm, hn⟩
  rw [List.mem_singleton] at hrq
  subst hrq
  rw [h2, List.mem_singleton] at hM
  subst hM
  have hl := (Topology.closed_of_create topo_ok).mixAt_some hm
  rcases (show l = 0 ∨ l = 1 by have := hl.1; omega) with rfl | rfl <;>
  · cases hm
    revert hn
    decide

/-- The example meets the hypotheses of the three theorems: however the servers go on from there, they come to rest, the chain whose batch came too early returns nothing and the
other one its plaintext. -/
example : ∃ evs' s', Run conf resL.2 evs' s' ∧ (∀ e ∈ evs', Own e) ∧ AtRest conf s' ∧
    (∃ last, conf.topo.mixAt 1 0 = some last ∧ ∀ out, ¬ Returns s' last.hostname 7 last.name out) ∧
    ∃ last out, conf.topo.mixAt 1 1 = some last ∧ Returns s' last.hostname 7 last.name out ∧ out.Perm [[43]] := by
  have hconn : Connected conf [a, b] := fun h _ h' hh => hh
  have hcs : Clients conf.topo subs 7 evsL := clientsC.congr evsC_filter
  have ho : Orderly conf.topo 7 evsL := orderlyC.congr evsC_filter
  have hall : AllOrderly conf 2 evsL := fun r hr => by
    obtain ⟨subs, h1, h2, h3⟩ := allC r hr
    exact ⟨subs, h1, h2.congr evsC_filter, h3.congr evsC_filter⟩
  have hopen : ∀ h ∈ [a, b], (resL.2.servers h).rounds.lookup 7 ≠ none := by
    intro h hh
    simp only [List.mem_cons, List.not_mem_nil, or_false] at hh
    rcases hh with rfl | rfl
    · rw [show (resL.2.servers a).rounds.lookup 7 = some 0 from rfl]; simp
    · rw [show (resL.2.servers b).rounds.lookup 7 = some 0 from rfl]; simp
  obtain ⟨N, hN⟩ := bounded (by omega) topo_ok hconn lossyL.run hall
  obtain ⟨evs', s', h1, h2, h3⟩ := reach_rest fun evs' s' h1 h2 => (hN evs' s' h1 h2).1
  have hl := lossy_continue (by omega) topo_ok hconn lossyL (by omega) hall hopen h1 h2
  have hcs' := hcs.own h2
  refine ⟨evs', s', h1, h2, h3, ⟨_, rfl, fun out => ?_⟩, ?_⟩
  · exact C143_lost_for_good_refuted (by omega) topo_ok (by omega) opens0 (hl.weaken fun _ _ _ => trivial) hcs' carries0 rfl out
  · obtain ⟨out, h4, h5⟩ := C143_other_chains_partial (by omega) topo_ok hconn (by omega) (fun _ => Nat.succ_pos _) (fun _ => Nat.succ_pos _) (fun _ => Nat.succ_pos _)
      opens0 hl (hall.own h2) hcs' (ho.own h2) (fun first hf => by rw [own_onions h2, clientOnions_congr evsC_filter]; exact sentC _ first hf) h3 carries1
      (last := _) rfl (by simp [onChain, subs])
    exact ⟨_, out, rfl, h4, h5⟩

end ExLost

end Resmix.System
