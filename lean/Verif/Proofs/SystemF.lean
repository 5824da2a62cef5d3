import Verif.Proofs.SystemC
set_option autoImplicit false
/-
Consequences of the accounting for rounds whose clients keep to the protocol: round objects do not crash, and at rest everything was
passed on (C87, C88).
-/
namespace Resmix.System
open Resmix.Mixer (Messages MixOutput callOf onionsFor onionsOf resultOf workloadOf)
open Resmix.Onion (Addresses Peels groupOnionsByHostname groupOnionsByMixName)
open Resmix.Topology (Closed)
open Resmix.Sender

variable {c : Config} {r : Nat} {subs : List Submission} {hosts : List Str} {L : Nat}

/-- The onions before a layer open there. -/
theorem X_opens (ho : Opens c r L subs) {ch l : Nat} {m : LogicalMix} (hl : l < L) (hm : c.topo.mixAt l ch = some m) {o : Bytes}
    (h : o ∈ X c r subs ch l) : ∃ o', (c.env m.hostname r).decrypt o = .ok o' := by
  have := X_peels ho ch l (by omega)
  obtain ⟨x, hx⟩ : ∃ x, Peels c.topo (fun h o => (c.env h r).decrypt o) L ch x l o := by
    obtain ⟨i, hi⟩ := List.getElem?_of_mem h
    obtain ⟨hlt1, hlt2⟩ := List.getElem?_eq_some_iff.1 hi
    have hlt' : i < (onChain subs ch).length := by rw [← this.length_eq]; exact hlt1
    have hx := List.Forall₂.get this hlt1 hlt'
    simp only [List.get_eq_getElem, hlt2] at hx
    exact ⟨_, hx⟩
  cases hx with
  | done => omega
  | layer h1 h2 h3 h4 h5 =>
    rw [hm] at h2; cases h2
    exact ⟨_, h4⟩

/-- What was handed to a mix is part of what should be. -/
theorem delivered_sub {k : Prop} {evs : List Event} {mx : Str → Option Mixer.State} {wt : Str → List Messages} {net : List Request}
    {A : Str → List Mixer.Action} (a : AInv c r subs k evs mx wt net A) {l ch : Nat} {mix : LogicalMix} (hm : c.topo.mixAt l ch = some mix) :
    (Mixer.delivered (A mix.hostname) mix.name).Subperm (X c r subs ch l) := by
  refine subperm_of_count fun o => ?_
  rw [delivered_cnt]
  have h1 := a.v.acct l ch mix hm o
  have h2 := a.v.bnd l ch o
  omega

/-- The requests that reached a round object are good. -/
theorem good_of_inv (hcl : Closed hosts L c.topo) (hop : Opens c r L subs) {k : Prop} {evs : List Event} {mx : Str → Option Mixer.State}
    {wt : Str → List Messages} {net : List Request} {A : Str → List Mixer.Action} (a : AInv c r subs k evs mx wt net A)
    (ho : Orderly c.topo r evs) {h : Str} {w : GoMap Str Int} {order : GoMap Str (Nat × Nat)} (hord : order.Perm c.topo.mixes)
    (hw : ∀ l i mix, c.topo.mixAt l i = some mix → workloadOf w mix.name = (onChain subs i).length) :
    Mixer.GoodRequests (c.env h r) (Server.ownMixes c.topo h order) w (A h) := by
  have hE := a.e ho
  have hcall : ∀ b ∈ A h, ∀ ms, b = .call ms → ∀ m ∈ ms, m ∈ calls (A h) := by
    rintro b hb ms rfl m hm
    exact List.mem_flatMap.2 ⟨_, hb, hm⟩
  refine ⟨?_, ?_, ?_, hE.close h⟩
  · intro b hb ms hbm m hm
    obtain ⟨l, ch, mix, hmx, hr, hh, _⟩ := hE.tagA h m (hcall b hb ms hbm m hm)
    exact ⟨mix, (Server.mem_ownMixes hcl hord).2 ⟨(mixAt_layer hcl hmx).2.2, hh⟩, hr.symm⟩
  · intro b hb ms hbm m hm o hoo
    have hmc := hcall b hb ms hbm m hm
    obtain ⟨l, ch, mix, hmx, hr, hh, _⟩ := hE.tagA h m hmc
    subst hh
    have hin : o ∈ Mixer.delivered (A mix.hostname) mix.name := by
      rw [Mixer.delivered_eq]
      unfold onionsFor
      exact List.mem_flatMap.2 ⟨m, List.mem_filter.2 ⟨hmc, by simp [hr]⟩, hoo⟩
    obtain ⟨o', ho'⟩ := X_opens hop (mixAt_layer hcl hmx).2.1 hmx ((delivered_sub a hmx).subset hin)
    rw [ho']; simp
  · intro mix hmix
    obtain ⟨hmem, hh⟩ := (Server.mem_ownMixes hcl hord).1 hmix
    obtain ⟨l, ch, hat⟩ := mixAt_of_mem hcl hmem
    subst hh
    rw [hw _ _ _ hat, ← X_length (c := c) (r := r) (subs := subs) ch l]
    exact (delivered_sub a hat).length_le

/-- Round objects of such rounds do not crash. -/
theorem mixer_safe (hcl : Closed hosts L c.topo) (hop : Opens c r L subs) {k : Prop} {evs : List Event} {s : State} (hi : RInv c r subs k evs s)
    (ho : Orderly c.topo r evs) {h : Str} {i : Nat} {m : Mixer.State} (hm : (s.servers h).objs[i]? = some (r, m)) : m.crashed = false := by
  obtain ⟨A, a⟩ := hi.v
  obtain ⟨w, order, m0, hord, h0, hx, hw, hexp⟩ := a.v.mixer h m (mixerOf_eq (hi.si h) hm)
  exact Mixer.C12_good_requests_are_safe_partial h0 hx (good_of_inv hcl hop a ho hord hw)

/-- Where a crash of a server comes from. -/
theorem server_crash {cfg : Server.Config} {srv srv' : Server.State} {a : Server.Action} {resp : Server.Resp} (hs : Server.step cfg srv a = some (srv', resp))
    (hc : srv'.crashed = true) : (∃ (i r : Nat) (m : Mixer.State), srv'.objs[i]? = some (r, m) ∧ m.crashed = true) ∨
      ∃ r ls order, a = .newRound r ls order ∧ resp = .fail .panic := by
  unfold Server.step at hs
  split at hs
  · cases hs
  next hcr =>
  have hcr : srv.crashed = false := by simpa using hcr
  have hset : ∀ (i r : Nat) (m m' : Mixer.State), srv.objs[i]? = some (r, m) → (srv.setObj i r m').crashed = true →
      ∃ (i' r' : Nat) (m2 : Mixer.State), (srv.setObj i r m').objs[i']? = some (r', m2) ∧ m2.crashed = true := by
    intro i r m m' hi hcc
    refine ⟨i, r, m', ?_, ?_⟩
    · simp [Server.State.setObj, (List.getElem?_eq_some_iff.1 hi).1]
    · simpa [Server.State.setObj, hcr] using hcc
  cases a with
  | newRound r ls order =>
    simp only at hs
    split at hs
    · next srv1 hn =>
      cases hs
      obtain ⟨_, _, _, _, _, _, _, _, rfl⟩ := Server.newRound_eq hn
      rw [hcr] at hc; cases hc
    · cases hs; exact .inr ⟨_, _, _, rfl, rfl⟩
    · cases hs; rw [hcr] at hc; cases hc
  | endRound r =>
    simp only at hs
    split at hs
    · cases hs; rw [hcr] at hc; cases hc
    · split at hs
      · cases hs
      · next hm =>
        split at hs
        · cases hs
        · cases hs
          obtain ⟨i, r, m, h1, h2⟩ := hset _ _ _ _ hm hc
          exact .inl ⟨i, r, m, h1, h2⟩
  | addMessages r ms =>
    simp only at hs
    split at hs <;> cases hs <;> (rw [hcr] at hc; cases hc)
  | getMessages r mix =>
    simp only at hs
    split at hs <;> cases hs <;> (rw [hcr] at hc; cases hc)
  | enter k =>
    simp only at hs
    split at hs
    · cases hs
    · split at hs
      · cases hs
      · next hm =>
        split at hs
        · cases hs
        · cases hs
          obtain ⟨i, r, m, h1, h2⟩ := hset _ _ _ _ hm hc
          exact .inl ⟨i, r, m, h1, h2⟩
  | work i b =>
    simp only at hs
    split at hs
    · cases hs
    · next r m hm =>
      cases b <;> simp only at hs
      case call => cases hs
      case close => cases hs
      all_goals
        split at hs
        · cases hs
        · cases hs
          obtain ⟨i, r, m, h1, h2⟩ := hset _ _ _ _ hm hc
          exact .inl ⟨i, r, m, h1, h2⟩

theorem no_crash (hL : 0 < L) (hc : Topology.createCascade hosts L = .ok c.topo) (hconn : Connected c hosts) {conn : Str → Bool} {evs : List Event}
    {s : State} (hrun : Run c (init conn) evs s) (hall : AllOrderly c L evs) : ∀ h, (s.servers h).crashed = false := by
  have hcl := Topology.closed_of_create hc
  induction hrun with
  | nil => intro h; rfl
  | snoc hrun hst ih =>
    next evs s s' e =>
    have hall0 : AllOrderly c L evs := fun r hr => by
      obtain ⟨subs, h1, h2, h3⟩ := hall r hr
      exact ⟨subs, h1, h2.prefix_, h3.prefix_⟩
    have ih := ih hall0
    -- no round object of the new state has crashed
    have hobj : ∀ (h : Str) (i r : Nat) (m : Mixer.State), (s'.servers h).objs[i]? = some (r, m) → m.crashed = false := by
      intro h i r m hm
      have hr : r < 2 ^ 32 := by
        obtain ⟨subs, h1, h2, h3⟩ := hall 0 (by omega)
        exact ((rinv_run hL hc h1 (by omega) (hrun.snoc hst) h2).si h).small _ (List.mem_of_getElem? hm)
      obtain ⟨subs, h1, h2, h3⟩ := hall r hr
      exact mixer_safe hcl h1 (rinv_run hL hc h1 hr (hrun.snoc hst) h2) h3 hm
    have hserver : ∀ (h : Str) (a : Server.Action) (srv : Server.State) (resp : Server.Resp), Server.step (c.server h) (s.servers h) a = some (srv, resp) →
        (∀ r ls order, a = .newRound r ls order → resp ≠ .fail .panic) → (s'.servers h).objs = srv.objs → srv.crashed = false := by
      intro h a srv resp hs hn ho
      by_contra hcc
      simp only [Bool.not_eq_false] at hcc
      rcases server_crash hs hcc with ⟨i, r, m, h1, h2⟩ | ⟨r, ls, order, h1, h2⟩
      · rw [hobj h i r m (by rw [ho]; exact h1)] at h2; cases h2
      · exact hn r ls order h1 h2
    cases hst with
    | client ha hs =>
      next h a srv resp =>
      intro h'
      by_cases hh : h' = h
      · subst hh
        rw [set_self]
        refine hserver _ _ _ _ hs ?_ (by rw [set_self])
        rintro r ls order rfl hp
        obtain ⟨subs, h1, h2, h3⟩ := hall r ha.1
        obtain ⟨hfit, _⟩ := h2.loads h' ls order (by simp)
        have h6 := Server.C06_newRound_propagates_workload hL hc (c.server h') rfl (s.servers h') (ih h') r ls hfit order ha.2
        by_cases hq : (s.servers h').connections = true ∧ ∀ i first, c.topo.mixAt 0 i = some first → (ls.lookup first.name).isSome
        · obtain ⟨_, _, h7, _⟩ := h6.1 hq
          rw [hs] at h7; cases h7; cases hp
        · obtain ⟨_, h7⟩ := h6.2 hq
          rw [hs] at h7; cases h7; cases hp
      · rw [set_ne _ _ hh]; exact ih h'
    | work ha hs =>
      next h a srv resp =>
      intro h'
      by_cases hh : h' = h
      · subst hh
        rw [set_self]
        refine hserver _ _ _ _ hs ?_ (by rw [set_self])
        rintro r ls order rfl; exact absurd ha id
      · rw [set_ne _ _ hh]; exact ih h'
    | forward hm ho hs hb =>
      next h i r m out rest srv resp rqs =>
      intro h'
      show ((s.setServer h srv).servers h').crashed = false
      by_cases hh : h' = h
      · subst hh
        rw [set_self]
        exact hserver _ _ _ _ hs (by intro _ _ _ hh; cases hh) (by show ((s.setServer h' srv).servers h').objs = _; rw [set_self])
      · rw [set_ne _ _ hh]; exact ih h'
    | panic hm ho hs hb =>
      next h i r m out rest srv resp rqs =>
      exfalso
      have hr : r < 2 ^ 32 := by
        obtain ⟨subs, h1, h2, h3⟩ := hall0 0 (by omega)
        exact ((rinv_run hL hc h1 (by omega) hrun h2).si h).small _ (List.mem_of_getElem? hm)
      obtain ⟨subs, h1, h2, h3⟩ := hall0 r hr
      have hi := rinv_run hL hc h1 hr hrun h2
      obtain ⟨A, a⟩ := hi.v
      have hcm : m.crashed = false := (hi.si h).live (ih h) _ (List.mem_of_getElem? hm)
      obtain ⟨l, ch, u, mm, hu, huh, hun, hmm, haddr⟩ := batch_known hcl h1 a.v (h := h) (mixerOf_eq (hi.si h) hm) hcm ho
      obtain ⟨first, hf, hfne⟩ := first_layer hcl hu
      exact no_panic hb (s := c.sender h r) hf hfne haddr (hconn _ (huh ▸ host_mem hcl hu) _ (host_mem hcl hmm))
    | deliver hk hs =>
      next k rq srv resp =>
      intro h'
      show ((s.setServer rq.host srv).servers h').crashed = false
      by_cases hh : h' = rq.host
      · rw [hh, set_self]
        exact hserver _ _ _ _ hs (by intro _ _ _ hh; cases hh) (by show ((s.setServer rq.host srv).servers rq.host).objs = _; rw [set_self])
      · rw [set_ne _ _ hh]; exact ih h'
    | drop hk => exact ih

/-! ### At rest -/

theorem sendHosts_total (s : MessageSender) (out : MixOutput) : ∀ p : GoMap Str (List Bytes), ∃ res, SendHosts s out p res
  | [] => ⟨_, rfl⟩
  | (host, onions) :: rest => by
    obtain ⟨res, hr⟩ := sendHosts_total s out rest
    cases hg : groupOnionsByMixName onions s.topo with
    | error e => exact ⟨.error e, .error e, by unfold CreateRequest; rw [hg], rfl⟩
    | ok g =>
      by_cases hc : host ∈ s.connections
      · refine ⟨res.map (createRequest s out host g :: ·), .ok (createRequest s out host g), ?_, ?_⟩
        · unfold CreateRequest; rw [hg]; exact ⟨g, List.Perm.refl _, rfl⟩
        · simp only [hc, if_true]; exact ⟨res, hr, rfl⟩
      · refine ⟨.error .panic, .ok (createRequest s out host g), ?_, ?_⟩
        · unfold CreateRequest; rw [hg]; exact ⟨g, List.Perm.refl _, rfl⟩
        · simp only [hc, if_false]

theorem sendBatch_total (s : MessageSender) (out : MixOutput) : ∃ res, SendBatch s out res := by
  unfold SendBatch
  cases hg : groupOnionsByHostname out.onions s.topo with
  | error e => exact ⟨_, rfl⟩
  | ok g =>
    obtain ⟨res, hr⟩ := sendHosts_total s out g
    exact ⟨res, g, List.Perm.refl _, hr⟩

theorem server_work {cfg : Server.Config} {srv : Server.State} (hc : srv.crashed = false) {i r : Nat} {m m' : Mixer.State} {b : Mixer.Action}
    (hm : srv.objs[i]? = some (r, m)) (hb : b.internal) (hst : Mixer.step (cfg.env r) m b = some m') :
    ∃ srv' resp, Server.step cfg srv (.work i b) = some (srv', resp) := by
  unfold Server.step
  rw [if_neg (by simp [hc])]
  simp only [hm]
  cases b with
  | call ms => exact absurd hb id
  | close => exact absurd hb id
  | _ => simp only [hst]; exact ⟨_, _, rfl⟩

/-- A round object of a state at rest cannot make a step. -/
theorem stuck_of_rest (hcl : Closed hosts L c.topo) (hop : Opens c r L subs) (hconn : Connected c hosts) {k : Prop} {evs : List Event} {s : State}
    (hi : RInv c r subs k evs s) {h : Str} (hc : (s.servers h).crashed = false) (hrest : AtRest c s) {i : Nat} {m : Mixer.State}
    (hm : (s.servers h).objs[i]? = some (r, m)) : ∀ b, b.internal → Mixer.step (c.env h r) m b = none := by
  intro b hb
  cases hst : Mixer.step (c.env h r) m b with
  | none => rfl
  | some m' =>
    exfalso
    obtain ⟨srv', resp, hs⟩ := server_work (cfg := c.server h) hc hm hb hst
    by_cases hrb : b = .recv
    · subst hrb
      obtain ⟨out, q, hq, _⟩ := (Mixer.step_output hst).2 rfl
      obtain ⟨A, a⟩ := hi.v
      have hcm : m.crashed = false := (hi.si h).live hc _ (List.mem_of_getElem? hm)
      obtain ⟨l, ch, u, mm, hu, huh, hun, hmm, haddr⟩ := batch_known hcl hop a.v (h := h) (mixerOf_eq (hi.si h) hm) hcm hq
      obtain ⟨first, hf, hfne⟩ := first_layer hcl hu
      obtain ⟨res, hres⟩ := sendBatch_total (c.sender h r) out
      obtain ⟨rqs, hok, _⟩ := C23_each_onion_once (c.sender h r) out first hf hfne
        (fun o ho => ⟨mm, haddr o ho, hconn _ (huh ▸ host_mem hcl hu) _ (host_mem hcl hmm)⟩) res hres
      subst hok
      rcases hrest _ _ (Step.forward hm hq hs hres) with ⟨_, _, h⟩ | ⟨_, h⟩ <;> cases h
    · rcases hrest _ _ (Step.work (show Internal (.work i b) from hrb) hs) with ⟨_, _, h⟩ | ⟨_, h⟩ <;> cases h

theorem net_of_rest {s : State} (hc : ∀ h, (s.servers h).crashed = false) (hrest : AtRest c s) : s.net = [] := by
  by_contra hne
  obtain ⟨rq, rest, hnet⟩ := List.exists_cons_of_ne_nil hne
  have hk : s.net[0]? = some rq := by rw [hnet]; rfl
  obtain ⟨srv, resp, hs⟩ : ∃ srv resp, Server.step (c.server rq.host) (s.servers rq.host) (.addMessages rq.round rq.messages) = some (srv, resp) := by
    unfold Server.step
    rw [if_neg (by simp [hc])]
    simp only
    split
    · exact ⟨_, _, rfl⟩
    · exact ⟨_, _, rfl⟩
  rcases hrest _ _ (Step.deliver hk hs) with ⟨_, _, h⟩ | ⟨_, h⟩ <;> cases h

theorem wait_of_rest {s : State} {h : Str} (hsi : SI r (s.servers h)) (hc : (s.servers h).crashed = false) (hrest : AtRest c s)
    (hidle : ∀ (i : Nat) (m : Mixer.State), (s.servers h).objs[i]? = some (r, m) → m.holder = none) : waitB r (s.servers h) = [] := by
  by_contra hne
  obtain ⟨M, hM⟩ := List.exists_mem_of_ne_nil _ hne
  unfold waitB at hM
  obtain ⟨e, he, hMe⟩ := List.mem_flatMap.1 hM
  split at hMe
  · next hr =>
    obtain ⟨k, hk⟩ := List.getElem?_of_mem he
    obtain ⟨⟨r', m⟩, hm, hrr⟩ := Option.map_eq_some_iff.1 hr
    simp only at hrr
    subst hrr
    have hcm : m.crashed = false := hsi.live hc _ (List.mem_of_getElem? hm)
    have hh := hidle _ _ hm
    have hst : Mixer.step (c.env h r') m (.call e.2) = some { m with holder := some ⟨none, e.2⟩ } := by
      unfold Mixer.step
      simp [hcm, hh]
    obtain ⟨srv', resp, hs⟩ : ∃ srv' resp, Server.step (c.server h) (s.servers h) (.enter k) = some (srv', resp) := by
      unfold Server.step
      rw [if_neg (by simp [hc])]
      obtain ⟨i, ms⟩ := e
      simp only [hk, hm]
      have : Mixer.step ((c.server h).env r') m (.call ms) = some { m with holder := some ⟨none, ms⟩ } := hst
      simp only [this]
      exact ⟨_, _, rfl⟩
    rcases hrest _ _ (Step.work (show Internal (.enter k) from trivial) hs) with ⟨_, _, h⟩ | ⟨_, h⟩ <;> cases h
  · cases hMe

/-- The sender a mix waits for is the one of `expect`. -/
theorem expects (hcl : Closed hosts L c.topo) {w : GoMap Str Int} {l ch : Nat} {mix : LogicalMix} (hm : c.topo.mixAt l ch = some mix) {pk : Str × Str}
    (he : Mixer.ExpectsOnly c.topo w mix pk) : pk = expect c.topo ch l := by
  obtain ⟨hl, hi, rfl⟩ := hcl.mixAt_some hm
  cases l with
  | zero =>
    rcases he with ⟨_, rfl⟩ | ⟨p, pm, hp, hg, _⟩
    · rfl
    · simp only [Topology.closedMix, if_true] at hp
      injection hp with hp
      exact absurd hp.symm hg
  | succ l =>
    have hpm := hcl.mixAt_eq l ch (by omega) hi
    have hname : (Topology.closedMix hosts L l ⟨ch, hi⟩).name = mixNameOf l ((ch + l) % hosts.length) := rfl
    rcases he with ⟨hp, _⟩ | ⟨p, pm, hp, hg, hget, rfl, _⟩
    · simp only [Topology.closedMix, Nat.add_eq_zero_iff, one_ne_zero, and_false, if_false, Nat.add_sub_cancel, List.cons.injEq, and_true] at hp
      exact absurd hp (mixNameOf_ne_genesis _ _)
    · simp only [Topology.closedMix, Nat.add_eq_zero_iff, one_ne_zero, and_false, if_false, Nat.add_sub_cancel, List.cons.injEq, and_true] at hp
      subst hp
      have := hcl.getMix_name l ⟨ch, hi⟩ (by omega)
      rw [show (Topology.newMix hosts l ⟨ch, hi⟩).name = mixNameOf l ((ch + l) % hosts.length) from rfl, hget] at this
      cases this
      unfold expect
      simp only [Topology.mixAt] at hpm ⊢
      rw [hpm]
      rfl

end Resmix.System
