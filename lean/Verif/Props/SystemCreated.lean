import Verif.Props.SystemLive
set_option autoImplicit false
/-
C87 for a created system: the whole pipeline, from CreateSystemConfigs and generateOnion to the answers of the last mixes, with progress.
-/
namespace Resmix.System
open Resmix.Mixer (Messages MixOutput onionsFor)
open Resmix.Onion
open Resmix.Tibe Resmix.Config

theorem by_chain (n : Nat) (subs : List Submission) (h : ∀ x ∈ subs, x.chain < n) :
    ((List.range n).flatMap fun ch => (onChain subs ch).map (·.msg)).Perm (subs.map (·.msg)) := by
  rw [← List.map_flatMap]
  refine List.Perm.map _ ?_
  induction n generalizing subs with
  | zero =>
    have : subs = [] := List.eq_nil_iff_forall_not_mem.2 fun x hx => absurd (h x hx) (by omega)
    subst this; simp
  | succ n ih =>
    rw [List.range_succ, List.flatMap_append]
    simp only [List.flatMap_cons, List.flatMap_nil, List.append_nil]
    have hp := List.filter_append_perm (fun x : Submission => decide (x.chain < n)) subs
    refine List.Perm.trans ?_ hp
    refine List.Perm.append ?_ ?_
    · have := ih (subs.filter fun x => decide (x.chain < n)) (fun x hx => by simpa using (List.mem_filter.1 hx).2)
      refine List.Perm.trans ?_ this
      refine List.Perm.of_eq (List.flatMap_congr fun ch hch => ?_)
      unfold onChain
      rw [List.filter_filter]
      refine List.filter_congr fun x _ => ?_
      have := List.mem_range.1 hch
      by_cases hx : x.chain = ch <;> simp [hx, this]
    · refine List.Perm.of_eq (List.filter_congr fun x hx => ?_)
      have := h x hx
      by_cases h : x.chain = n
      · simp [h]
      · have h2 : x.chain < n := by omega
        simp [h, h2]

/-- C87 for a created system. Servers are configured by CreateSystemConfigs, have dialled each other and decrypt with their round keys; clients
wrap their messages with NewMessageGenerator / generateOnion. If all clients keep to the protocol, the round is open at every server and all its onions
were submitted, without a request lost, then from there on, however goroutines and deliveries are scheduled, the servers come to rest after a
bounded number of steps; at rest the last mix of every chain that was used returns its messages, and over all chains these are the clients'
plaintexts, each exactly ⌈√(2n)⌉ times. -/
theorem C87_created_system (B : Bls) (S : Sha3) (addrs : List Str) (d : Nat) (dkg : Poly) (polys : List Poly) (cs : List ServerConfig)
    (hcr : Created B addrs d dkg polys cs) (L : Nat) (hL0 : 0 < L) (hL : L ≤ 2 ^ 32) (hn : 1 ≤ addrs.length) (hb : addrs.length ≤ 2 ^ 50)
    (c : Config) (ht : Topology.createCascade addrs L = .ok c.topo) (hconn : Connected c addrs) (G : Generator B) (hG : NewGenerator B c.topo cs (.ok G))
    (node : Str → Node B) (hnode : ∀ sc ∈ cs, CreateTIBENode B sc (.ok (node sc.hostname))) (r : Nat) (hr : r < 2 ^ 32)
    (henv : ∀ host, (c.env host r).decrypt = peel ((node host).decrypter (computeId S host r)))
    (hcpu : ∀ h, 0 < (c.env h r).nCPU) (htask : ∀ h, 0 < (c.env h r).taskCap) (hout : ∀ h, 0 < (c.env h r).outCap)
    (ms : List ClientMessage) (hgen : Generated S G addrs.length r ms) {conn : Str → Bool} {evs : List Event} {s : State}
    (hrun : LosslessRun c r (init conn) evs s) (hall : AllOrderly c L evs) (hcl : Clients c.topo (submissions ms) r evs) (ho : Orderly c.topo r evs)
    (hopen : ∀ h ∈ addrs, (s.servers h).rounds.lookup r ≠ none)
    (hsent : ∀ ch first, c.topo.mixAt 0 ch = some first → (clientOnions evs r first.name).Perm ((onChain (submissions ms) ch).map (·.onion))) :
    (∃ N, ∀ evs' s', Run c s evs' s' → (∀ e ∈ evs', Own e) → evs'.length ≤ N) ∧
    (∀ evs' s', Run c s evs' s' → (∀ e ∈ evs', Own e) → ∃ evs'' s'', Run c s' evs'' s'' ∧ (∀ e ∈ evs'', Own e) ∧ AtRest c s'') ∧
    ∀ evs' s', Run c s evs' s' → (∀ e ∈ evs', Own e) → AtRest c s' → ∃ outs : Nat → List Bytes,
      (∀ ch, onChain (submissions ms) ch = [] → outs ch = []) ∧
      (∀ ch, ch < addrs.length → onChain (submissions ms) ch ≠ [] → ∃ last, c.topo.mixAt (L - 1) ch = some last ∧ Returns s' last.hostname r last.name (outs ch)) ∧
      ((List.range addrs.length).flatMap outs).Perm (ms.flatMap fun m => List.replicate ⌈Real.sqrt (2 * addrs.length)⌉₊ m.msg) := by
  obtain ⟨hop, hmsgs⟩ := generated_opens B S addrs d dkg polys cs hcr L hL hn hb c ht G hG node hnode r henv ms hgen
  obtain ⟨h1, h2, h3⟩ := C87_round_completes hL0 ht hconn hr hcpu htask hout hop hrun hall hcl ho hopen hsent
  refine ⟨h1, h2, fun evs' s' ha hown hrest => ?_⟩
  have hclosed := Topology.closed_of_create ht
  have hlast : ∀ ch, ch < addrs.length → ∃ last, c.topo.mixAt (L - 1) ch = some last := by
    intro ch hch
    exact ⟨_, hclosed.mixAt_eq (L - 1) ch (by omega) hch⟩
  have hex : ∀ ch, ∃ out : List Bytes, (onChain (submissions ms) ch = [] → out = []) ∧ out.Perm ((onChain (submissions ms) ch).map (·.msg)) ∧
      (ch < addrs.length → onChain (submissions ms) ch ≠ [] → ∃ last, c.topo.mixAt (L - 1) ch = some last ∧ Returns s' last.hostname r last.name out) := by
    intro ch
    by_cases he : onChain (submissions ms) ch = []
    · exact ⟨[], fun _ => rfl, by simp [he], fun _ h => absurd he h⟩
    · by_cases hch : ch < addrs.length
      · obtain ⟨last, hl⟩ := hlast ch hch
        obtain ⟨out, hr1, hr2⟩ := h3 evs' s' ha hown hrest ch last hl he
        exact ⟨out, fun h => absurd h he, hr2, fun _ _ => ⟨last, hl, hr1⟩⟩
      · exact ⟨_, fun h => absurd h he, List.Perm.refl _, fun h => absurd h hch⟩
  choose outs ho1 ho2 ho3 using hex
  refine ⟨outs, ho1, ho3, ?_⟩
  rw [← hmsgs]
  have hchain : ∀ x ∈ submissions ms, x.chain < addrs.length := by
    intro x hx
    obtain ⟨m, hm⟩ := peels_first (hop x hx) hL0
    exact (hclosed.mixAt_some hm).2.1
  exact (List.Perm.flatMap_left _ fun ch _ => ho2 ch).trans (by_chain _ _ hchain)

/-! ### Executions that meet the hypotheses, for every system and all submissions -/
namespace Possible

/-- The workload the leader asks for: the number of submissions of every chain. -/
def loads (servers : List Str) (subs : List Submission) : GoMap Str Nat :=
  (List.range servers.length).map fun ch => (mixNameOf 0 ch, (onChain subs ch).length)

def opening (c : Config) (servers : List Str) (subs : List Submission) (r : Nat) (h : Str) : Event :=
  .client h (.newRound r (loads servers subs) c.topo.mixes)

/-- One request with all onions of chain `ch`. -/
def batch (subs : List Submission) (ch : Nat) : List Messages :=
  if onChain subs ch = [] then [] else [⟨(onChain subs ch).map (·.onion), genesisName, genesisName, mixNameOf 0 ch⟩]

/-- The host of the first mix of chain `ch`. -/
def hostOf (servers : List Str) (ch : Nat) : Str := servers.getD ch []

def adding (servers : List Str) (subs : List Submission) (r ch : Nat) : Event :=
  .client (hostOf servers ch) (.addMessages r (batch subs ch))

/-- First all servers open the round, then all onions are sent. -/
def schedule (c : Config) (servers : List Str) (subs : List Submission) (r : Nat) : List Event :=
  servers.dedup.map (opening c servers subs r) ++ (List.range servers.length).map (adding servers subs r)

theorem loads_lookup (servers : List Str) (subs : List Submission) (ch : Nat) (h : ch < servers.length) :
    (loads servers subs).lookup (mixNameOf 0 ch) = some (onChain subs ch).length := by
  apply GoMap.mem_lookup
  · unfold GoMap.NodupKeys loads
    rw [List.map_map, List.nodup_map_iff_inj_on List.nodup_range]
    intro x _ y _ hxy
    exact (mixNameOf_inj hxy).2
  · exact List.mem_map.2 ⟨ch, List.mem_range.2 h, rfl⟩

/-- No server has crashed or lost its connections. -/
def Up (s : State) : Prop := ∀ h, (s.servers h).crashed = false ∧ (s.servers h).connections = true

theorem Up.set {s : State} (h : Up s) (x : Str) {srv : Server.State} (h1 : srv.crashed = false) (h2 : srv.connections = true) : Up (s.setServer x srv) := by
  intro y
  unfold State.setServer
  by_cases hx : y = x
  · simp [hx, h1, h2]
  · simpa [hx] using h y

theorem first_eq {c : Config} {servers : List Str} {L : Nat} (hL : 0 < L) (ht : Topology.createCascade servers L = .ok c.topo) {ch : Nat} {m : LogicalMix}
    (h : c.topo.mixAt 0 ch = some m) : ch < servers.length ∧ m.name = mixNameOf 0 ch ∧ m.hostname = hostOf servers ch := by
  obtain ⟨_, hi, rfl⟩ := (Topology.closed_of_create ht).mixAt_some h
  refine ⟨hi, ?_, ?_⟩
  · simp [Topology.closedMix, Topology.newMix, Nat.mod_eq_of_lt hi]
  · simp [Topology.closedMix, Topology.newMix, Nat.mod_eq_of_lt hi, hi, hostOf]

theorem open_all {c : Config} {servers : List Str} {L : Nat} (hL : 0 < L) (ht : Topology.createCascade servers L = .ok c.topo) {r : Nat} (hr : r < 2 ^ 32)
    (subs : List Submission) (hlen : subs.length < 2 ^ 63) {s0 : State} : ∀ (hs : List Str) (evs : List Event) (s : State), LosslessRun c r s0 evs s → Up s →
    ∃ s', LosslessRun c r s0 (evs ++ hs.map (opening c servers subs r)) s' ∧ Up s' ∧
      (∀ h, (s.servers h).rounds.lookup r ≠ none → (s'.servers h).rounds.lookup r ≠ none) ∧ ∀ h ∈ hs, (s'.servers h).rounds.lookup r ≠ none
  | [], evs, s, h, hup => ⟨s, by simpa using h, hup, fun _ h => h, by simp⟩
  | x :: hs, evs, s, h, hup => by
    obtain ⟨hok, _⟩ := Server.C06_newRound_propagates_workload hL ht (c.server x) rfl (s.servers x) (hup x).1 r (loads servers subs) (by
      intro e he
      obtain ⟨ch, _, rfl⟩ := List.mem_map.1 he
      exact Nat.lt_of_le_of_lt (List.length_filter_le _ _) hlen) c.topo.mixes (List.Perm.refl _)
    obtain ⟨w, m, hstep, _⟩ := hok ⟨(hup x).2, fun i first hf => by
      obtain ⟨h1, h2, _⟩ := first_eq hL ht hf
      rw [h2, loads_lookup _ _ _ h1]; rfl⟩
    have hst : Step c s (opening c servers subs r x) _ := .client ⟨hr, List.Perm.refl _⟩ hstep
    obtain ⟨s', h1, h2, h3, h4⟩ := open_all hL ht hr subs hlen hs _ _ (h.snoc (by trivial) hst) (hup.set x (hup x).1 (hup x).2)
    have hself : ∀ h, ((s.servers h).rounds.lookup r ≠ none ∨ h = x) → (s'.servers h).rounds.lookup r ≠ none := by
      intro h hh
      apply h3
      unfold State.setServer
      by_cases hx : h = x
      · simp [hx, GoMap.lookup_insert]
      · rcases hh with hh | hh
        · simpa [hx] using hh
        · exact absurd hh hx
    refine ⟨s', by simpa using h1, h2, fun h hh => hself h (.inl hh), ?_⟩
    intro h hh
    rcases List.mem_cons.1 hh with rfl | hh
    · exact hself _ (.inr rfl)
    · exact h4 h hh

theorem add_all {c : Config} {servers : List Str} {r : Nat} (hr : r < 2 ^ 32) (subs : List Submission) {s0 : State} :
    ∀ (chs : List Nat) (evs : List Event) (s : State), LosslessRun c r s0 evs s → Up s → (∀ ch ∈ chs, ch < servers.length) →
    (∀ h ∈ servers, (s.servers h).rounds.lookup r ≠ none) →
    ∃ s', LosslessRun c r s0 (evs ++ chs.map (adding servers subs r)) s' ∧ ∀ h ∈ servers, (s'.servers h).rounds.lookup r ≠ none
  | [], evs, s, h, _, _, ho => ⟨s, by simpa using h, ho⟩
  | ch :: chs, evs, s, h, hup, hch, ho => by
    have hlt := hch ch (by simp)
    have hmem : hostOf servers ch ∈ servers := by
      simp [hostOf, hlt]
    have hop := ho _ hmem
    obtain ⟨i, hi⟩ := Option.ne_none_iff_exists'.1 hop
    have hstep : Server.step (c.server (hostOf servers ch)) (s.servers (hostOf servers ch)) (.addMessages r (batch subs ch)) =
        some ({ s.servers (hostOf servers ch) with waiting := (s.servers (hostOf servers ch)).waiting ++ [(i, batch subs ch)] }, .pending i) := by
      simp [Server.step, (hup _).1, hi]
    have hst : Step c s (adding servers subs r ch) _ := .client hr hstep
    obtain ⟨s', h1, h2⟩ := add_all hr subs chs _ _ (h.snoc (by intro _; exact hop) hst) (hup.set _ (hup _).1 (hup _).2) (fun x hx => hch x (by simp [hx])) (by
      intro h hh
      unfold State.setServer
      by_cases hx : h = hostOf servers ch
      · simpa [hx] using hop
      · simpa [hx] using ho h hh)
    exact ⟨s', by simpa using h1, h2⟩

theorem onions_of (c : Config) (servers : List Str) (subs : List Submission) (r : Nat) {ch : Nat} (hch : ch < servers.length) :
    clientOnions (schedule c servers subs r) r (mixNameOf 0 ch) = (onChain subs ch).map (·.onion) := by
  unfold clientOnions schedule
  rw [List.flatMap_append, List.flatMap_eq_nil_iff.2 (by
    intro e he
    obtain ⟨h, _, rfl⟩ := List.mem_map.1 he
    rfl), List.nil_append, List.flatMap_map]
  have hone : ∀ k, sentBy r (mixNameOf 0 ch) (adding servers subs r k) = if k = ch then (onChain subs ch).map (·.onion) else [] := by
    intro k
    simp only [adding, sentBy, if_true, batch, Mixer.onionsFor]
    by_cases hk : k = ch
    · subst hk
      by_cases he : onChain subs k = [] <;> simp [he]
    · have : mixNameOf 0 k ≠ mixNameOf 0 ch := fun h => hk (mixNameOf_inj h).2
      by_cases he : onChain subs k = [] <;> simp [he, hk, this]
  simp only [hone]
  generalize (onChain subs ch).map (·.onion) = l
  have : ∀ n, (List.range n).flatMap (fun k => if k = ch then l else []) = if ch < n then l else [] := by
    intro n
    induction n with
    | zero => simp
    | succ n ih =>
      rw [List.range_succ, List.flatMap_append, ih]
      by_cases h : ch < n
      · have : n ≠ ch := by omega
        simp [h, this, Nat.lt_succ_of_lt h]
      · by_cases h2 : n = ch
        · subst h2; simp
        · have : ¬ ch < n + 1 := by omega
          simp [h, h2, this]
  rw [this, if_pos hch]

theorem mem_schedule {c : Config} {servers : List Str} {subs : List Submission} {r : Nat} {e : Event} (h : e ∈ schedule c servers subs r) :
    (∃ x ∈ servers, e = opening c servers subs r x) ∨ ∃ ch, ch < servers.length ∧ e = adding servers subs r ch := by
  rcases List.mem_append.1 h with h | h
  · obtain ⟨x, hx, rfl⟩ := List.mem_map.1 h
    exact .inl ⟨x, List.mem_dedup.1 hx, rfl⟩
  · obtain ⟨x, hx, rfl⟩ := List.mem_map.1 h
    exact .inr ⟨x, List.mem_range.1 hx, rfl⟩

theorem clients {c : Config} {servers : List Str} {L : Nat} (hL : 0 < L) (ht : Topology.createCascade servers L = .ok c.topo) (r : Nat)
    (subs : List Submission) (hlen : subs.length < 2 ^ 63) : Clients c.topo subs r (schedule c servers subs r) where
  once h := by
    unfold schedule
    rw [List.filter_append, (List.filter_eq_nil_iff (l := (List.range servers.length).map (adding servers subs r))).2 (by
      intro e he
      obtain ⟨ch, _, rfl⟩ := List.mem_map.1 he
      simp [adding, isOpening]), List.append_nil, List.filter_map, List.length_map]
    have : (isOpening h r ∘ opening c servers subs r) = fun x => decide (x = h) := by
      funext x; simp [opening, isOpening]
    rw [this, ← List.countP_eq_length_filter]
    have := List.nodup_iff_count_le_one.1 (List.nodup_dedup servers) h
    refine Nat.le_trans (Nat.le_of_eq ?_) this
    rw [List.count]
    congr 1
    funext x; simp [beq_eq_decide]
  loads h ls order he := by
    rcases mem_schedule he with ⟨x, _, h⟩ | ⟨ch, _, h⟩
    · simp only [opening, Event.client.injEq, Server.Action.newRound.injEq] at h
      obtain ⟨_, _, rfl, _⟩ := h
      refine ⟨?_, ?_⟩
      · intro e he
        obtain ⟨ch, _, rfl⟩ := List.mem_map.1 he
        exact Nat.lt_of_le_of_lt (List.length_filter_le _ _) hlen
      · intro ch first hf
        obtain ⟨h1, h2, _⟩ := first_eq hL ht hf
        rw [h2, loads_lookup _ _ _ h1]
    · simp [adding] at h
  first h ms he m hm := by
    rcases mem_schedule he with ⟨x, _, h⟩ | ⟨ch, hch, h⟩
    · simp [opening] at h
    · simp only [adding, Event.client.injEq, Server.Action.addMessages.injEq, true_and] at h
      obtain ⟨_, rfl⟩ := h
      have hat := (Topology.closed_of_create ht).mixAt_eq 0 ch hL hch
      unfold batch at hm
      split at hm
      · simp at hm
      · rename_i hne
        simp only [List.mem_singleton] at hm
        subst hm
        exact ⟨ch, _, hat, (first_eq hL ht hat).2.1.symm, fun h => by simpa using h⟩
  onions ch first hf := by
    obtain ⟨h1, h2, _⟩ := first_eq hL ht hf
    rw [h2, onions_of c servers subs r h1]

theorem orderly {c : Config} {servers : List Str} {L : Nat} (hL : 0 < L) (ht : Topology.createCascade servers L = .ok c.topo) (r : Nat)
    (subs : List Submission) : Orderly c.topo r (schedule c servers subs r) where
  noEnd h he := by
    rcases mem_schedule he with ⟨x, _, h⟩ | ⟨ch, hch, h⟩ <;> simp [opening, adding] at h
  form h ms he m hm := by
    rcases mem_schedule he with ⟨x, _, h⟩ | ⟨ch, hch, h⟩
    · simp [opening] at h
    · simp only [adding, Event.client.injEq, Server.Action.addMessages.injEq, true_and] at h
      obtain ⟨rfl, rfl⟩ := h
      have hat := (Topology.closed_of_create ht).mixAt_eq 0 ch hL hch
      unfold batch at hm
      split at hm
      · simp at hm
      · simp only [List.mem_singleton] at hm
        subst hm
        exact ⟨ch, _, hat, (first_eq hL ht hat).2.1.symm, (first_eq hL ht hat).2.2, rfl, rfl⟩

theorem allOrderly {c : Config} {servers : List Str} {L : Nat} (hL : 0 < L) (ht : Topology.createCascade servers L = .ok c.topo) (r : Nat)
    (subs : List Submission) (hlen : subs.length < 2 ^ 63) (hop : Opens c r L subs) : AllOrderly c L (schedule c servers subs r) := by
  intro r' _
  by_cases hr : r' = r
  · subst hr; exact ⟨subs, hop, clients hL ht r' subs hlen, orderly hL ht r' subs⟩
  · have hn : ∀ h (ls : GoMap Str Nat) order, Event.client h (.newRound r' ls order) ∉ schedule c servers subs r := by
      intro h ls order he
      rcases mem_schedule he with ⟨x, _, h⟩ | ⟨ch, hch, h⟩ <;> simp [opening, adding, hr] at h
    have ha : ∀ h ms, Event.client h (.addMessages r' ms) ∉ schedule c servers subs r := by
      intro h ms he
      rcases mem_schedule he with ⟨x, _, h⟩ | ⟨ch, hch, h⟩ <;> simp [opening, adding, hr] at h
    refine ⟨[], by simp [Opens], ⟨?_, fun h ls order he => absurd he (hn h ls order), fun h ms he => absurd he (ha h ms), ?_⟩,
      ⟨?_, fun h ms he => absurd he (ha h ms)⟩⟩
    · intro h
      rw [List.filter_eq_nil_iff.2 (by
        intro e he
        rcases mem_schedule he with ⟨x, _, rfl⟩ | ⟨ch, hch, rfl⟩ <;> simp [opening, adding, isOpening, Ne.symm hr])]
      simp
    · intro ch first _
      have : clientOnions (schedule c servers subs r) r' first.name = [] := by
        unfold clientOnions
        rw [List.flatMap_eq_nil_iff]
        intro e he
        rcases mem_schedule he with ⟨x, _, rfl⟩ | ⟨ch, hch, rfl⟩ <;> simp [opening, adding, sentBy, Ne.symm hr]
      rw [this]; exact List.nil_subperm
    · intro h he
      rcases mem_schedule he with ⟨x, _, h⟩ | ⟨ch, hch, h⟩ <;> simp [opening, adding] at h

theorem runs {c : Config} {servers : List Str} {L : Nat} (hL : 0 < L) (ht : Topology.createCascade servers L = .ok c.topo) {r : Nat} (hr : r < 2 ^ 32)
    (subs : List Submission) (hlen : subs.length < 2 ^ 63) : ∃ s, LosslessRun c r (init fun _ => true) (schedule c servers subs r) s ∧
      ∀ h ∈ servers, (s.servers h).rounds.lookup r ≠ none := by
  obtain ⟨s1, h1, h2, _, h4⟩ := open_all hL ht hr subs hlen (s0 := init fun _ => true) servers.dedup [] (init fun _ => true) .nil (fun _ => ⟨rfl, rfl⟩)
  exact add_all hr subs (List.range servers.length) _ s1 h1 h2 (fun ch h => List.mem_range.1 h) (fun h hh => h4 h (List.mem_dedup.2 hh))

end Possible

/-- C87, reachability: for every cascade, every round number and all submissions that open along their chains there is an execution that
meets every hypothesis of `C87_round_completes`, so that theorem is never vacuous; the last mixes then return all submitted plaintexts. -/
theorem C87_can_complete {c : Config} {servers : List Str} {L : Nat} (hL : 0 < L) (ht : Topology.createCascade servers L = .ok c.topo)
    (hconn : Connected c servers) {r : Nat} (hr : r < 2 ^ 32)
    (hcpu : ∀ h, 0 < (c.env h r).nCPU) (htask : ∀ h, 0 < (c.env h r).taskCap) (hout : ∀ h, 0 < (c.env h r).outCap)
    {subs : List Submission} (hlen : subs.length < 2 ^ 63) (hop : Opens c r L subs) :
    ∃ evs s, LosslessRun c r (init fun _ => true) evs s ∧ AllOrderly c L evs ∧ Clients c.topo subs r evs ∧ Orderly c.topo r evs ∧
      (∀ h ∈ servers, (s.servers h).rounds.lookup r ≠ none) ∧
      (∀ ch first, c.topo.mixAt 0 ch = some first → (clientOnions evs r first.name).Perm ((onChain subs ch).map (·.onion))) ∧
      ∃ evs' s', Run c s evs' s' ∧ (∀ e ∈ evs', Own e) ∧ AtRest c s' ∧ ∀ ch last, c.topo.mixAt (L - 1) ch = some last → onChain subs ch ≠ [] →
        ∃ out, Returns s' last.hostname r last.name out ∧ out.Perm ((onChain subs ch).map (·.msg)) := by
  obtain ⟨s, h1, h2⟩ := Possible.runs hL ht hr subs hlen
  have h3 := Possible.allOrderly hL ht r subs hlen hop
  have h4 := Possible.clients hL ht r subs hlen
  have h5 := Possible.orderly hL ht r subs
  have h6 : ∀ ch first, c.topo.mixAt 0 ch = some first → (clientOnions (Possible.schedule c servers subs r) r first.name).Perm ((onChain subs ch).map (·.onion)) := by
    intro ch first hf
    obtain ⟨h1, h2, _⟩ := Possible.first_eq hL ht hf
    rw [h2, Possible.onions_of c servers subs r h1]
  obtain ⟨_, k2, k3⟩ := C87_round_completes hL ht hconn hr hcpu htask hout hop h1 h3 h4 h5 h2 h6
  obtain ⟨evs', s', k4, k5, k6⟩ := k2 [] s .nil (by simp)
  exact ⟨_, s, h1, h3, h4, h5, h2, h6, evs', s', k4, k5, k6, k3 evs' s' k4 k5 k6⟩

/-- The hypotheses of `C87_created_system` on the execution are met by some execution, for every created system and all generated messages. -/
example (B : Bls) (S : Sha3) (addrs : List Str) (d : Nat) (dkg : Poly) (polys : List Poly) (cs : List ServerConfig)
    (hcr : Created B addrs d dkg polys cs) (L : Nat) (hL0 : 0 < L) (hL : L ≤ 2 ^ 32) (hn : 1 ≤ addrs.length) (hb : addrs.length ≤ 2 ^ 50)
    (c : Config) (ht : Topology.createCascade addrs L = .ok c.topo) (hconn : Connected c addrs) (G : Generator B) (hG : NewGenerator B c.topo cs (.ok G))
    (node : Str → Node B) (hnode : ∀ sc ∈ cs, CreateTIBENode B sc (.ok (node sc.hostname))) (r : Nat) (hr : r < 2 ^ 32)
    (henv : ∀ host, (c.env host r).decrypt = peel ((node host).decrypter (computeId S host r)))
    (hcpu : ∀ h, 0 < (c.env h r).nCPU) (htask : ∀ h, 0 < (c.env h r).taskCap) (hout : ∀ h, 0 < (c.env h r).outCap)
    (ms : List ClientMessage) (hgen : Generated S G addrs.length r ms) (hlen : (submissions ms).length < 2 ^ 63) :
    ∃ evs s, LosslessRun c r (init fun _ => true) evs s ∧ AllOrderly c L evs ∧ Clients c.topo (submissions ms) r evs ∧ Orderly c.topo r evs ∧
      (∀ h ∈ addrs, (s.servers h).rounds.lookup r ≠ none) ∧
      (∀ ch first, c.topo.mixAt 0 ch = some first → (clientOnions evs r first.name).Perm ((onChain (submissions ms) ch).map (·.onion))) := by
  obtain ⟨hop, _⟩ := generated_opens B S addrs d dkg polys cs hcr L hL hn hb c ht G hG node hnode r henv ms hgen
  obtain ⟨evs, s, h1, h2, h3, h4, h5, h6, _⟩ := C87_can_complete hL0 ht hconn hr hcpu htask hout hlen hop
  exact ⟨evs, s, h1, h2, h3, h4, h5, h6⟩

end Resmix.System
