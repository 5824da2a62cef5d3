import Verif.Proofs.SystemF
set_option autoImplicit false
/-
A round in which nothing was lost has, once the system is at rest, passed every onion through every layer (C87).
-/
namespace Resmix.System
open Resmix.Mixer (Messages MixOutput callOf onionsFor onionsOf resultOf workloadOf)
open Resmix.Onion (Addresses Peels groupOnionsByHostname groupOnionsByMixName)
open Resmix.Topology (Closed)
open Resmix.Sender

variable {c : Config} {r : Nat} {subs : List Submission} {hosts : List Str} {L : Nat}

theorem deliveredFrom_eq {A : List Mixer.Action} {pk : Str × Str} {n : Str}
    (h : ∀ M ∈ calls A, M.logicalReceiver = n → (M.physicalSender, M.logicalSender) = pk) :
    Mixer.deliveredFrom A pk n = Mixer.delivered A n := by
  unfold Mixer.deliveredFrom Mixer.delivered
  refine List.flatMap_congr fun a ha => ?_
  cases a with
  | call ms =>
    simp only [Mixer.deliveredBy, onionsFor]
    congr 1
    refine List.filter_congr fun M hM => ?_
    by_cases hn : M.logicalReceiver = n
    · have := h M (List.mem_flatMap.2 ⟨_, ha, hM⟩) hn
      simp [hn, this]
    · simp [hn]
  | _ => rfl

theorem perm_of_count {a b : List Bytes} (h : ∀ o, a.count o = b.count o) : a.Perm b := List.perm_iff_count.2 h

/-- What is known of chain `ch` of round `r` when the system is at rest. -/
structure Rest (c : Config) (r : Nat) (evs : List Event) (s : State) (A : Str → List Mixer.Action) (ch : Nat) : Prop where
  cnt : ∀ l mix, c.topo.mixAt l ch = some mix → ∀ o,
    cnt mix.name o (calls (A mix.hostname)) = (upSent c r evs (fun h => mixerOf r (s.servers h)) ch l).count o
  idle : ∀ h m, mixerOf r (s.servers h) = some m → m.crashed = false ∧ Mixer.Idle m

theorem mixerOf_obj {srv : Server.State} {m : Mixer.State} (h : mixerOf r srv = some m) : ∃ i : Nat, srv.objs[i]? = some (r, m) := by
  unfold mixerOf at h
  obtain ⟨⟨r', m'⟩, hf, rfl⟩ := Option.map_eq_some_iff.1 h
  obtain ⟨i, hi⟩ := List.getElem?_of_mem (List.mem_of_find?_eq_some hf)
  have := List.find?_some hf
  simp only [decide_eq_true_eq] at this
  subst this
  exact ⟨i, hi⟩

theorem rest_of (hcl : Closed hosts L c.topo) (hop : Opens c r L subs) (hconn : Connected c hosts) (hcpu : ∀ h, 0 < (c.env h r).nCPU)
    (htc : ∀ h, 0 < (c.env h r).taskCap) (hoc : ∀ h, 0 < (c.env h r).outCap) {k : Prop} {evs : List Event} {s : State}
    (hi : RInv c r subs k evs s) {A : Str → List Mixer.Action} {evs' : List Event} {net : List Request}
    (a : AInv c r subs True evs' (fun h => mixerOf r (s.servers h)) (fun h => waitB r (s.servers h)) net A)
    (ho : Orderly c.topo r evs') (hc : ∀ h, (s.servers h).crashed = false) (hrest : AtRest c s) {ch : Nat}
    (hnet : ∀ l mix, c.topo.mixAt l ch = some mix → ∀ o, cnt mix.name o (netB r net) = 0) : Rest c r evs' s A ch := by
  have hidle : ∀ h m, mixerOf r (s.servers h) = some m → m.crashed = false ∧ Mixer.Idle m := by
    intro h m hm
    obtain ⟨i, hmi⟩ := mixerOf_obj hm
    obtain ⟨w, order, m0, hord, h0, hx, hw, hexp⟩ := a.v.mixer h m hm
    exact Mixer.idle_of_stuck h0 (Server.ownMixes_nodup hcl hord) hexp (hcpu h) (htc h) (hoc h) hx (good_of_inv hcl hop a ho hord hw)
      (stuck_of_rest hcl hop hconn hi (hc h) hrest hmi)
  refine ⟨fun l mix hm o => ?_, hidle⟩
  have h1 := a.q trivial ho l ch mix hm o
  have h2 : waitB r (s.servers mix.hostname) = [] := wait_of_rest (hi.si _) (hc _) hrest fun i m hmi => (hidle _ m (mixerOf_eq (hi.si _) hmi)).2.1
  have h3 := hnet l mix hm o
  have h4 : upChan c (fun h => mixerOf r (s.servers h)) ch l = [] := by
    cases l with
    | zero => rfl
    | succ l =>
      cases hu : c.topo.mixAt l ch with
      | none => simp only [upChan, hu]
      | some u =>
        simp only [upChan, hu]
        cases hmm : mixerOf r (s.servers u.hostname) with
        | none => rfl
        | some m => simp only [chanOf, (hidle _ _ hmm).2.2.2.2.2]; rfl
  rw [h2, h3, h4] at h1
  simpa [cnt_nil] using h1

/-- The round object of a mix that should have got something, with all it got. -/
theorem rest_got (hcl : Closed hosts L c.topo) {k : Prop} {evs : List Event} {s : State} {A : Str → List Mixer.Action} {net : List Request}
    (a : AInv c r subs k evs (fun h => mixerOf r (s.servers h)) (fun h => waitB r (s.servers h)) net A) (ho : Orderly c.topo r evs)
    {ch : Nat} (hr : Rest c r evs s A ch) {l : Nat} {mix : LogicalMix} (hm : c.topo.mixAt l ch = some mix) (hs : onChain subs ch ≠ [])
    (hup : ∀ o, (upSent c r evs (fun h => mixerOf r (s.servers h)) ch l).count o = (X c r subs ch l).count o) :
    (Mixer.delivered (A mix.hostname) mix.name).Perm (X c r subs ch l) ∧
    (∀ pk, Mixer.deliveredFrom (A mix.hostname) (expect c.topo ch l) mix.name = pk → pk.length = (onChain subs ch).length) ∧
    ∃ m, mixerOf r (s.servers mix.hostname) = some m := by
  have hp : (Mixer.delivered (A mix.hostname) mix.name).Perm (X c r subs ch l) := perm_of_count fun o => by
    rw [delivered_cnt, hr.cnt l mix hm, hup]
  refine ⟨hp, ?_, ?_⟩
  · rintro _ rfl
    rw [deliveredFrom_eq, hp.length_eq, X_length]
    intro M hM hn
    obtain ⟨l', ch', mix', hm', hr', _, hpk⟩ := (a.e ho).tagA _ M hM
    obtain ⟨rfl, rfl, rfl⟩ := mixAt_inj hcl hm hm' (hn ▸ hr')
    exact hpk
  · cases hmx : mixerOf r (s.servers mix.hostname) with
    | some m => exact ⟨m, rfl⟩
    | none =>
      have := a.v.none_ _ hmx
      rw [this] at hp
      have h1 := hp.length_eq
      rw [X_length] at h1
      exact absurd (List.length_eq_zero_iff.1 (by rw [← h1]; rfl)) hs

theorem onionsOf_one {m : Mixer.State} {n : Str} (h : (m.sent.filter fun b => b.logicalSender = n).length = 1) :
    ∃ b ∈ m.sent, b.logicalSender = n ∧ onionsOf m.sent n = b.onions := by
  obtain ⟨b, hb⟩ := List.length_eq_one_iff.1 h
  have : b ∈ m.sent.filter fun b => b.logicalSender = n := by rw [hb]; simp
  simp only [List.mem_filter, decide_eq_true_eq] at this
  refine ⟨b, this.1, this.2, ?_⟩
  unfold onionsOf
  rw [hb]
  simp

/-- At rest every layer has passed on all its onions. -/
theorem rest_layers (hcl : Closed hosts L c.topo) {k : Prop} {evs : List Event} {s : State} {A : Str → List Mixer.Action} {net : List Request}
    (a : AInv c r subs k evs (fun h => mixerOf r (s.servers h)) (fun h => waitB r (s.servers h)) net A) (ho : Orderly c.topo r evs)
    {ch : Nat} (hr : Rest c r evs s A ch)
    (hall : ∀ first, c.topo.mixAt 0 ch = some first → (clientOnions evs r first.name).Perm ((onChain subs ch).map (·.onion)))
    (hch : ch < hosts.length) (hs : onChain subs ch ≠ []) :
    ∀ l, l < L → ∀ o, (upSent c r evs (fun h => mixerOf r (s.servers h)) ch l).count o = (X c r subs ch l).count o := by
  intro l
  induction l with
  | zero =>
    intro hl o
    have hm : c.topo.mixAt 0 ch = some _ := hcl.mixAt_eq 0 ch hl hch
    simp only [upSent, hm, X]
    exact (hall _ hm).count_eq o
  | succ l ih =>
    intro hl o
    have hm : c.topo.mixAt l ch = some _ := hcl.mixAt_eq l ch (by omega) hch
    generalize Topology.closedMix hosts L l ⟨ch, hch⟩ = u at hm
    obtain ⟨hp, hfrom, m, hmx⟩ := rest_got hcl a ho hr hm hs (ih (by omega))
    obtain ⟨hcm, hidle⟩ := hr.idle _ _ hmx
    obtain ⟨w, order, m0, hord, h0, hx, hw, hexp⟩ := a.v.mixer _ m hmx
    obtain ⟨hlay, hlt, hmem⟩ := mixAt_layer hcl hm
    have hown := (Server.mem_ownMixes hcl hord (m := u) (host := u.hostname)).2 ⟨hmem, rfl⟩
    obtain ⟨pk, hpk⟩ := hexp u hown
    have hLL : c.topo.layers.length = L := by rw [hcl.layers]; simp
    have hlen : (Mixer.delivered (A u.hostname) u.name).length = workloadOf w u.name := by rw [hp.length_eq, X_length, hw _ _ _ hm]
    have hpos : 0 < workloadOf w u.name := by rw [hw _ _ _ hm]; exact List.length_pos_iff.2 hs
    obtain ⟨_, hget, hone⟩ := (Mixer.C10_forwards_once_partial h0 (Server.ownMixes_nodup hcl hord) hx hcm hown hpk).2.2
      (by rw [hlay, hLL]; omega) (noEmpty_of ((a.v.ne l ch u hm hs).1 _)) hpos (le_of_eq hlen)
    obtain ⟨b, hb, hbn, hbo⟩ := onionsOf_one (hone hidle (by rw [expects hcl hm hpk, hfrom _ rfl, hw _ _ _ hm]))
    obtain ⟨_, _, _, _, _, _, _, _, _, hperm⟩ := Mixer.outputs_of_get h0 hx (le_of_eq hlen) (hget b hb hbn)
    have hX : X c r subs ch (l + 1) = (X c r subs ch l).map (resultOf (c.env u.hostname r)) := by rw [X, hm]
    simp only [upSent, hm, hmx, sentOf, hbo, hX]
    exact (hperm.trans (hp.map _)).count_eq o

theorem completed_of (hcl : Closed hosts L c.topo) (hL : 0 < L) (hop : Opens c r L subs) (hcpu : ∀ h, 0 < (c.env h r).nCPU)
    (htc : ∀ h, 0 < (c.env h r).taskCap) (hoc : ∀ h, 0 < (c.env h r).outCap) (hconn : Connected c hosts) {evs : List Event} {s : State}
    {k : Prop} (hi : RInv c r subs k evs s) {A : Str → List Mixer.Action} {evs' : List Event} {net : List Request}
    (a : AInv c r subs True evs' (fun h => mixerOf r (s.servers h)) (fun h => waitB r (s.servers h)) net A)
    (ho : Orderly c.topo r evs') (hc : ∀ h, (s.servers h).crashed = false) (hrest : AtRest c s)
    {ch : Nat} (hall : ∀ first, c.topo.mixAt 0 ch = some first → (clientOnions evs' r first.name).Perm ((onChain subs ch).map (·.onion)))
    (hnet : ∀ l mix, c.topo.mixAt l ch = some mix → ∀ o, cnt mix.name o (netB r net) = 0) {last : LogicalMix} (hm : c.topo.mixAt (L - 1) ch = some last) (hs : onChain subs ch ≠ []) :
    ∃ out, Returns s last.hostname r last.name out ∧ out.Perm ((onChain subs ch).map (·.msg)) := by
  have hr := rest_of hcl hop hconn hcpu htc hoc hi a ho hc hrest hnet
  obtain ⟨hl', hch, _⟩ := hcl.mixAt_some hm
  obtain ⟨hp, hfrom, m, hmx⟩ := rest_got hcl a ho hr hm hs (rest_layers hcl a ho hr hall hch hs _ (by omega))
  obtain ⟨w, order, m0, hord, h0, hx, hw, hexp⟩ := a.v.mixer _ m hmx
  obtain ⟨hlay, hlt, hmem⟩ := mixAt_layer hcl hm
  have hown := (Server.mem_ownMixes hcl hord (m := last) (host := last.hostname)).2 ⟨hmem, rfl⟩
  obtain ⟨pk, hpk⟩ := hexp last hown
  obtain ⟨i, hmi⟩ := mixerOf_obj hmx
  obtain ⟨out, hout, hperm⟩ := (Mixer.C11_fully_delivered_round_completes_partial h0 (Server.ownMixes_nodup hcl hord) hexp (hcpu _) (htc _) (hoc _) hx
    (good_of_inv hcl hop a ho hord hw)).2 [] m (by simp) rfl (stuck_of_rest hcl hop hconn hi (hc _) hrest hmi) last hown pk hpk
    (by rw [hw _ _ _ hm]; exact List.length_pos_iff.2 hs) (by rw [expects hcl hm hpk, hfrom _ rfl, hw _ _ _ hm])
  refine ⟨out, ⟨hc _, i, m, hmi, hout⟩, ?_⟩
  have hX : X c r subs ch L = (X c r subs ch (L - 1)).map (resultOf (c.env last.hostname r)) := by
    conv_lhs => rw [show L = L - 1 + 1 by omega, X, hm]
  rw [← X_last hop, hX]
  exact hperm.trans (hp.map _)

theorem completed (hcl : Closed hosts L c.topo) (hL : 0 < L) (hop : Opens c r L subs) (hcpu : ∀ h, 0 < (c.env h r).nCPU)
    (htc : ∀ h, 0 < (c.env h r).taskCap) (hoc : ∀ h, 0 < (c.env h r).outCap) (hconn : Connected c hosts) {evs : List Event} {s : State}
    (hi : RInv c r subs True evs s) (ho : Orderly c.topo r evs) (hc : ∀ h, (s.servers h).crashed = false) (hrest : AtRest c s)
    {ch : Nat} (hall : ∀ first, c.topo.mixAt 0 ch = some first → (clientOnions evs r first.name).Perm ((onChain subs ch).map (·.onion)))
    {last : LogicalMix} (hm : c.topo.mixAt (L - 1) ch = some last) (hs : onChain subs ch ≠ []) :
    ∃ out, Returns s last.hostname r last.name out ∧ out.Perm ((onChain subs ch).map (·.msg)) := by
  obtain ⟨A, a⟩ := hi.v
  exact completed_of hcl hL hop hcpu htc hoc hconn hi a ho hc hrest hall (fun l mix _ o => by rw [net_of_rest hc hrest]; rfl) hm hs

end Resmix.System
