import Verif.Proofs.SystemE
set_option autoImplicit false
/-
Every execution of the system keeps the accounting invariant of a round whose clients behave (C64).
-/
namespace Resmix.System
open Resmix.Mixer (Messages MixOutput callOf onionsFor onionsOf resultOf workloadOf)
open Resmix.Onion (Addresses Peels)
open Resmix.Topology (Closed)
open Resmix.Sender (Request)

variable {c : Config} {r : Nat} {subs : List Submission} {hosts : List Str} {L : Nat}

/-- The batches of round `r` in flight. -/
def netB (r : Nat) (net : List Request) : List Messages := net.flatMap fun rq => if rq.round = r then rq.messages else []

theorem netB_append (a b : List Request) : netB r (a ++ b) = netB r a ++ netB r b := by simp [netB]

theorem netB_erase {net : List Request} {k : Nat} {rq : Request} (h : net[k]? = some rq) :
    (netB r net).Perm ((if rq.round = r then rq.messages else []) ++ netB r (net.eraseIdx k)) := by
  have := (Mixer.perm_eraseIdx net k _ h).flatMap_right fun rq : Request => if rq.round = r then rq.messages else []
  simpa [netB] using this

theorem netB_other {rqs : List Request} (h : ∀ rq ∈ rqs, rq.round ≠ r) : netB r rqs = [] := by
  unfold netB
  rw [List.flatMap_eq_nil_iff]
  intro rq hrq
  rw [if_neg (h rq hrq)]

theorem netB_same {rqs : List Request} (h : ∀ rq ∈ rqs, rq.round = r) : netB r rqs = rqs.flatMap (·.messages) := by
  unfold netB
  exact List.flatMap_congr fun rq hrq => by rw [if_pos (h rq hrq)]

theorem Clients.prefix_ {t : Topology} {evs : List Event} {e : Event} (h : Clients t subs r (evs ++ [e])) : Clients t subs r evs where
  once := by
    intro h'
    have := h.once h'
    rw [List.filter_append, List.length_append] at this
    omega
  loads := fun h' ls order hm => h.loads h' ls order (List.mem_append_left _ hm)
  first := fun h' ms hm => h.first h' ms (List.mem_append_left _ hm)
  onions := by
    intro ch f hf
    have := h.onions ch f hf
    rw [clientOnions_snoc] at this
    exact (List.sublist_append_left _ _).subperm.trans this

/-- The accounting of a round: bounds always, the form of all batches if the clients keep to it, equality if nothing was lost (`k`). -/
structure AInv (c : Config) (r : Nat) (subs : List Submission) (k : Prop) (evs : List Event) (mx : Str → Option Mixer.State)
    (wt : Str → List Messages) (net : List Request) (A : Str → List Mixer.Action) : Prop where
  v : VInv c r subs evs mx wt (netB r net) A
  e : Orderly c.topo r evs → EInv c r wt net A
  q : k → Orderly c.topo r evs → AcctEq c r evs mx wt (netB r net) A

/-- The invariant of a run. -/
structure RInv (c : Config) (r : Nat) (subs : List Submission) (k : Prop) (evs : List Event) (s : State) : Prop where
  si : ∀ h, SI r (s.servers h)
  opened : ∀ h, (mixerOf r (s.servers h)).isSome → ∃ e ∈ evs, isOpening h r e = true
  v : ∃ A, AInv c r subs k evs (fun h => mixerOf r (s.servers h)) (fun h => waitB r (s.servers h)) s.net A

theorem AInv.mixed (hcl : Closed hosts L c.topo) {k k' : Prop} {evs : List Event} {mx mx' : Str → Option Mixer.State} {wt wt' : Str → List Messages}
    {net : List Request} {A : Str → List Mixer.Action} (v : AInv c r subs k evs mx wt net A) (hk : k' → k) (e : Event)
    (he : ∀ n, sentBy r n e = [])
    (h : Str) {m m' : Mixer.State} {b : Mixer.Action} (hm : mx h = some m) (hst : Mixer.step (c.env h r) m b = some m')
    (hm' : mx' h = some m') (hmo : ∀ h', h' ≠ h → mx' h' = mx h') (hwt : (wt h).Perm (callOf b ++ wt' h)) (hwo : ∀ h', h' ≠ h → wt' h' = wt h')
    (hb : b ≠ .recv) (hcb : b = .close → ¬ Orderly c.topo r (evs ++ [e]))
    (hcl0 : ∀ ch first, c.topo.mixAt 0 ch = some first → (clientOnions (evs ++ [e]) r first.name).Subperm ((onChain subs ch).map (·.onion))) :
    AInv c r subs k' (evs ++ [e]) mx' wt' net (fun h' => if h' = h then A h ++ [b] else A h') where
  v := v.v.mixed hcl e he h hm hst hm' hmo hwt hwo (.inl ⟨hb, rfl⟩) hcl0
  e := fun ho => (v.e ho.prefix_).mixed h hwt hwo (fun hb => hcb hb ho) (v.e ho.prefix_).tagN
  q := fun hk' ho => (v.q (hk hk') ho.prefix_).mixed hcl e he h hm hst hm' hmo hwt hwo (.inl ⟨hb, rfl⟩)

theorem AInv.still (hcl : Closed hosts L c.topo) {k k' : Prop} {evs : List Event} {mx : Str → Option Mixer.State} {wt wt' : Str → List Messages}
    {net : List Request} {A : Str → List Mixer.Action} (v : AInv c r subs k evs mx wt net A) (hk : k' → k) (e : Event)
    (he : ∀ n, sentBy r n e = []) (hwt : wt' = wt)
    (hcl0 : ∀ ch first, c.topo.mixAt 0 ch = some first → (clientOnions (evs ++ [e]) r first.name).Subperm ((onChain subs ch).map (·.onion))) :
    AInv c r subs k' (evs ++ [e]) mx wt' net A where
  v := v.v.move hcl e he [] (by simp) [] (.inl (by rw [hwt])) (fun _ _ => by rw [hwt]) (hcl0 := hcl0)
  e := fun ho => hwt ▸ v.e ho.prefix_
  q := fun hk' ho => (v.q (hk hk') ho.prefix_).move hcl e he [] (by simp) [] (by rw [hwt]; simp) (fun _ _ => by rw [hwt]) (by simp)

theorem host_mem (hcl : Closed hosts L c.topo) {l ch : Nat} {m : LogicalMix} (h : c.topo.mixAt l ch = some m) : m.hostname ∈ hosts := by
  obtain ⟨hl, hi, rfl⟩ := hcl.mixAt_some h
  exact List.getElem_mem _

theorem set_self (s : State) (h : Str) (srv : Server.State) : (s.setServer h srv).servers h = srv := by simp [State.setServer]
theorem set_ne (s : State) {h h' : Str} (srv : Server.State) (hh : h' ≠ h) : (s.setServer h srv).servers h' = s.servers h' := by simp [State.setServer, hh]

theorem si_set {s : State} (hs : ∀ h, SI r (s.servers h)) {h : Str} {srv : Server.State} (h1 : SI r srv) : ∀ h', SI r ((s.setServer h srv).servers h') := by
  intro h'
  by_cases hh : h' = h
  · subst hh; rw [set_self]; exact h1
  · rw [set_ne _ _ hh]; exact hs h'

theorem rinv_init {k : Prop} (hcl : Closed hosts L c.topo) (conn : Str → Bool) : RInv c r subs k [] (init conn) := by
  refine ⟨fun h => si_init r _, ?_, fun _ => [], ?_, ?_, ?_⟩
  · intro h hs; simp [init, Server.init, mixerOf] at hs
  · have hmx : ∀ h, mixerOf r ((init conn).servers h) = none := fun h => by simp [init, Server.init, mixerOf]
    have hup : ∀ ch l, upSent c r [] (fun h => mixerOf r ((init conn).servers h)) ch l = [] := by
      intro ch l
      cases l with
      | zero => simp only [upSent]; split <;> rfl
      | succ l => simp only [upSent, hmx, sentOf]; split <;> rfl
    have huc : ∀ ch l, upChan c (fun h => mixerOf r ((init conn).servers h)) ch l = [] := by
      intro ch l
      cases l with
      | zero => rfl
      | succ l => simp only [upChan, hmx, chanOf]; split <;> rfl
    refine ⟨fun _ _ => rfl, fun h m hm => ?_, ?_, ?_, ?_⟩
    · simp only [hmx] at hm; cases hm
    · intro l ch mix _ _
      refine ⟨?_, ?_, ?_⟩ <;> simp [calls, init, Server.init, waitB, netB]
    · intro l ch mix _ o
      rw [hup, huc]
      simp [calls, init, Server.init, waitB, netB, cnt, onionsFor]
    · intro l ch o
      rw [hup]; simp
  · intro _
    refine ⟨?_, ?_, ?_, ?_⟩ <;> simp [calls, init, Server.init, waitB]
  · intro _ _ l ch mix hm o
    have hmx : ∀ h, mixerOf r ((init conn).servers h) = none := fun h => by simp [init, Server.init, mixerOf]
    have hup : upSent c r [] (fun h => mixerOf r ((init conn).servers h)) ch l = [] := by
      cases l with
      | zero => simp only [upSent]; split <;> rfl
      | succ l => simp only [upSent, hmx, sentOf]; split <;> rfl
    have huc : upChan c (fun h => mixerOf r ((init conn).servers h)) ch l = [] := by
      cases l with
      | zero => rfl
      | succ l => simp only [upChan, hmx, chanOf]; split <;> rfl
    rw [hup, huc]
    simp [calls, init, Server.init, waitB, netB, cnt, onionsFor]

/-- The batch a sender worker takes from a live round object is one of a mix of that host that is not in the last layer; all its onions
address the next mix of the chain. -/
theorem batch_known (hcl : Closed hosts L c.topo) (hop : Opens c r L subs) {evs : List Event} {mx : Str → Option Mixer.State}
    {wt : Str → List Messages} {nt : List Messages} {A : Str → List Mixer.Action} (v : VInv c r subs evs mx wt nt A) {h : Str} {m : Mixer.State}
    (hm : mx h = some m) (hc : m.crashed = false) {out : MixOutput} {q : List MixOutput} (ho : m.output = out :: q) :
    ∃ l ch u m1, c.topo.mixAt l ch = some u ∧ u.hostname = h ∧ out.logicalSender = u.name ∧ c.topo.mixAt (l + 1) ch = some m1 ∧
      ∀ o ∈ out.onions, Addresses c.topo o m1 := by
  obtain ⟨w, order, m0, hord, h0, hx, hw, hexp⟩ := v.mixer h m hm
  have hspec := Mixer.newMixers_spec h0
  have hsub : ∀ (acts : List Mixer.Action) (s : Mixer.State), Mixer.exec (c.env h r) m0 acts = some s → ∀ b ∈ s.output, b ∈ s.sent := by
    intro acts
    induction acts using List.reverseRecOn with
    | nil => intro s hs b hb; cases hs; rw [hspec.2.2.2.2.2.2.1] at hb; cases hb
    | append_singleton acts a ih =>
      intro s hs b hb
      obtain ⟨s1, h1, h2⟩ := Mixer.exec_snoc hs
      obtain ⟨e1, e2⟩ := Mixer.step_output h2
      by_cases ha : a = .recv
      · obtain ⟨b', q', hq, rfl⟩ := e2 ha
        exact ih s1 h1 b (by rw [hq]; exact List.mem_cons_of_mem _ hb)
      · obtain ⟨extra, h3, h4, _⟩ := e1 ha
        rw [h4]; rw [h3] at hb
        rcases List.mem_append.1 hb with hb | hb
        · exact List.mem_append_left _ (ih s1 h1 b hb)
        · exact List.mem_append_right _ hb
  have hsent : out ∈ m.sent := hsub _ _ hx out (by rw [ho]; simp)
  obtain ⟨ms, hms, _⟩ := Mixer.exec_sent_known hx hc hspec.2.2.2.2.2.2.2.2.2 out hsent
  obtain ⟨ms0, hms0, _⟩ := Mixer.exec_some hx hc (Mixer.init_added h0) hspec.2.2.2.2.1 hms
  obtain ⟨u, hu, hun, _⟩ := hspec.1 _ _ hms0
  obtain ⟨hmem, huh⟩ := (Server.mem_ownMixes hcl hord).1 hu
  obtain ⟨l, ch, hat⟩ := mixAt_of_mem hcl hmem
  subst huh
  have hD : ∀ o, cnt u.name o (calls (A u.hostname)) ≤ (X c r subs ch l).count o := by
    intro o
    have h1 := v.acct l ch u hat o
    have h2 := v.bnd l ch o
    omega
  obtain ⟨hlast, hbd⟩ := mixer_sent hcl hat (v.mixer _ _ hm) hc hD (fun hs => (v.ne l ch u hat hs).1 _)
  have hne : l + 1 ≠ L := by
    intro hl
    have hmo : out ∈ m.sent.filter fun b => b.logicalSender = u.name := by
      rw [List.mem_filter]; exact ⟨hsent, by simp [hun]⟩
    -- the last layer never sends
    obtain ⟨pk, hpk⟩ := hexp u hu
    have hL : c.topo.layers.length = L := by rw [hcl.layers]; simp
    have := (Mixer.C10_forwards_once_partial h0 (Server.ownMixes_nodup hcl hord) hx hc hu hpk).2.1
      (by rw [(mixAt_layer hcl hat).1, hL, hl]) out hsent
    exact this hun.symm
  have hlt : l + 1 < L := by have := (mixAt_layer hcl hat).2.1; omega
  obtain ⟨hl', hi, _⟩ := hcl.mixAt_some hat
  refine ⟨l, ch, u, _, hat, rfl, hun.symm, hcl.mixAt_eq (l + 1) ch hlt hi, ?_⟩
  intro o hoo
  refine X_addresses hop hlt (hcl.mixAt_eq (l + 1) ch hlt hi) ?_
  have : o ∈ onionsOf m.sent u.name := by
    simp only [onionsOf, List.mem_flatMap, List.mem_filter, decide_eq_true_eq]
    exact ⟨out, ⟨hsent, hun.symm⟩, hoo⟩
  have h1 := List.count_pos_iff.2 this
  have h2 := hbd o
  exact List.count_pos_iff.1 (by omega)

theorem first_layer (hcl : Closed hosts L c.topo) {l ch : Nat} {m : LogicalMix} (h : c.topo.mixAt l ch = some m) :
    ∃ first, c.topo.layers[0]? = some first ∧ first ≠ [] := by
  obtain ⟨hl, hi, _⟩ := hcl.mixAt_some h
  obtain ⟨rest, hr⟩ := Server.layers_cons hcl (by omega : 0 < L)
  refine ⟨_, by rw [hr]; rfl, ?_⟩
  intro he
  have := congrArg List.length he
  simp only [List.length_map, List.length_finRange, List.length_nil] at this
  omega

/-- The sender's step, whether or not it panics half-way; `srv'` is the server after the step. -/
theorem rinv_forward (hcl : Closed hosts L c.topo) (hop : Opens c r L subs) (hr : r < 2 ^ 32) {k k' : Prop} {evs : List Event} {s : State}
    (hi : RInv c r subs k evs s) (hkk : k' → k) (hkc : k → Connected c hosts)
    {h : Str} {i r' : Nat} {m : Mixer.State} {out : MixOutput} {rest : List MixOutput} {srv srv' : Server.State} {resp : Server.Resp}
    {rqs : List Request} (hm : (s.servers h).objs[i]? = some (r', m)) (ho : m.output = out :: rest)
    (hs : Server.step (c.server h) (s.servers h) (.work i .recv) = some (srv, resp)) (hb : Emits (c.sender h r') out rqs)
    (e1 : mixerOf r srv' = mixerOf r srv) (e2 : waitB r srv' = waitB r srv) (e3 : SI r srv → SI r srv')
    (hfull : k' → ∀ first m1, c.topo.layers[0]? = some first → first ≠ [] → (∀ o ∈ out.onions, Addresses c.topo o m1) →
      m1.hostname ∈ c.connected h → ((rqs.flatMap (·.messages)).flatMap (·.messages)).Perm out.onions)
    (hcls : Clients c.topo subs r (evs ++ [.forward h i])) :
    RInv c r subs k' (evs ++ [.forward h i]) { s.setServer h srv' with net := s.net ++ rqs } := by
  obtain ⟨A, av⟩ := hi.v
  have v := av.v
  obtain ⟨hsi, heff⟩ := server_effect (hi.si h) hs (by intro _ _ _ hh; cases hh) (by intro _ _ hh; cases hh)
  have hsent : ∀ n, sentBy r n (.forward h i) = [] := fun n => rfl
  have hcr : (s.servers h).crashed = false := by
    by_contra hc
    simp only [Bool.not_eq_false] at hc
    unfold Server.step at hs
    rw [if_pos hc] at hs
    cases hs
  have hop' : ∀ h', (mixerOf r ((s.setServer h srv').servers h')).isSome → ∃ e ∈ evs ++ [.forward h i], isOpening h' r e = true := by
    intro h' hso
    have : (mixerOf r (s.servers h')).isSome := by
      by_cases hh : h' = h
      · subst hh
        rw [set_self, e1] at hso
        cases heff with
        | quiet q1 q2 q3 => rwa [q1] at hso
        | mixed m1 m2 m3 m4 m5 m6 => rw [m1]; rfl
      · rwa [set_ne _ _ hh] at hso
    obtain ⟨e, he, hee⟩ := hi.opened h' this
    exact ⟨e, List.mem_append_left _ he, hee⟩
  refine ⟨si_set hi.si (e3 hsi), hop', ?_⟩
  show ∃ A, AInv c r subs k' (evs ++ [.forward h i]) (fun h' => mixerOf r ((s.setServer h srv').servers h'))
    (fun h' => waitB r ((s.setServer h srv').servers h')) (s.net ++ rqs) A
  cases heff with
  | quiet q1 q2 q3 =>
    have hrr : r' ≠ r := by rintro rfl; exact q3 i m .recv rfl hm
    have hsm := (hi.si h).small _ (List.mem_of_getElem? hm)
    simp only at hsm
    have hoth : ∀ rq ∈ rqs, rq.round ≠ r := by
      intro rq hrq
      rw [emits_round hb rq hrq]
      show r' % 2 ^ 32 ≠ r
      rw [Nat.mod_eq_of_lt hsm]; exact hrr
    have hnet : netB r (s.net ++ rqs) = netB r s.net := by
      rw [netB_append, netB_other hoth, List.append_nil]
    have hmx : (fun h' => mixerOf r ((s.setServer h srv').servers h')) = fun h' => mixerOf r (s.servers h') := by
      funext h'
      by_cases hh : h' = h
      · subst hh; rw [set_self, e1, q1]
      · rw [set_ne _ _ hh]
    have hwt : (fun h' => waitB r ((s.setServer h srv').servers h')) = fun h' => waitB r (s.servers h') := by
      funext h'
      by_cases hh : h' = h
      · subst hh; rw [set_self, e2, q2]
      · rw [set_ne _ _ hh]
    rw [hmx, hwt]
    have av' := av.still hcl hkk (.forward h i) hsent rfl hcls.onions
    refine ⟨A, ?_, ?_, ?_⟩
    · rw [hnet]; exact av'.v
    · intro ho
      obtain ⟨t1, t2, t3, t4⟩ := av'.e ho
      refine ⟨t1, t2, ?_, t4⟩
      intro rq hrq hrr'
      rcases List.mem_append.1 hrq with hrq | hrq
      · exact t3 rq hrq hrr'
      · exact absurd hrr' (hoth rq hrq)
    · intro hk' ho; rw [hnet]; exact av'.q hk' ho
  | mixed m1 m2 m3 m4 m5 m6 m7 m8 =>
    next m0 m' b =>
    obtain rfl : b = .recv := m5 _ _ rfl
    obtain ⟨b0, q0, hq0, rfl⟩ := (Mixer.step_output m2).2 rfl
    -- the effect was on round r
    by_cases hrr : r' = r
    · subst hrr
      rw [mixerOf_eq (hi.si h) hm] at m1
      cases m1
      have hcm : m.crashed = false := (hi.si h).live hcr _ (List.mem_of_getElem? hm)
      obtain ⟨l, ch, u, mm, hu, huh, hun, hmm, haddr⟩ := batch_known hcl hop v (h := h) (mixerOf_eq (hi.si h) hm) hcm ho
      obtain ⟨first, hf, hfne⟩ := first_layer hcl hu
      obtain ⟨g1, g2, g3⟩ := emits_spec hb (s := c.sender h r') hf hfne haddr
      have hnet : netB r' (s.net ++ rqs) = netB r' s.net ++ rqs.flatMap (·.messages) := by
        rw [netB_append, netB_same (rqs := rqs)]
        intro rq hrq
        rw [emits_round hb rq hrq]
        exact Nat.mod_eq_of_lt hr
      refine ⟨fun h' => if h' = h then A h ++ [.recv] else A h', ?_, ?_, ?_⟩
      · rw [hnet]
        refine v.mixed hcl _ hsent h (b := .recv) (mixerOf_eq (hi.si h) hm) m2 (by rw [set_self, e1]; exact m3)
          (fun h' hh => by rw [set_ne _ _ hh]) (by rw [set_self, e2]; exact m4) (fun h' hh => by rw [set_ne _ _ hh]) (.inr ?_) hcls.onions
        exact ⟨out, rest, _, l, ch, u, mm, ho, rfl, rfl, hun, hu, hmm, fun M hM => ⟨(g2 M hM).1, (g2 M hM).2.1⟩, g3, huh⟩
      · intro ho'
        refine (av.e ho'.prefix_).mixed h (by rw [set_self, e2]; exact m4) (fun h' hh => by rw [set_ne _ _ hh]) nofun ?_
        intro rq hrq hrr' M hM
        rcases List.mem_append.1 hrq with hrq | hrq
        · exact (av.e ho'.prefix_).tagN rq hrq hrr' M hM
        · obtain ⟨q1, _, q3, q4⟩ := g2 M (List.mem_flatMap.2 ⟨rq, hrq, hM⟩)
          refine ⟨l + 1, ch, mm, hmm, q1, (g1 rq hrq).2.symm, ?_⟩
          rw [q3, q4]
          simp only [expect, hu, huh, hun]
          rfl
      · intro hk' ho'
        rw [hnet]
        refine (av.q (hkk hk') ho'.prefix_).mixed hcl _ hsent h (b := .recv) (mixerOf_eq (hi.si h) hm) m2 (by rw [set_self, e1]; exact m3)
          (fun h' hh => by rw [set_ne _ _ hh]) (by rw [set_self, e2]; exact m4) (fun h' hh => by rw [set_ne _ _ hh]) (.inr ?_)
        refine ⟨out, rest, _, l, ch, u, mm, ho, rfl, rfl, hun, hu, hmm, fun M hM => (g2 M hM).1, ?_, huh⟩
        exact hfull hk' first mm hf hfne haddr (hkc (hkk hk') _ (huh ▸ host_mem hcl hu) _ (host_mem hcl hmm))
    · -- impossible: the step was on another round object
      exfalso
      have hst : mixerOf r srv = mixerOf r (s.servers h) := by
        unfold Server.step at hs
        rw [if_neg (by simp [hcr])] at hs
        simp only [hm] at hs
        split at hs
        · cases hs
        · next mm' _ => cases hs; exact (setObj_mixerOf (hi.si h) hsi hm rfl).2 hrr
      rw [m1, m3] at hst
      simp only [Option.some.injEq] at hst
      -- an output queue is not its own tail
      have := congrArg (fun m : Mixer.State => m.output.length) hst
      simp [hq0] at this

theorem rinv_step (hcl : Closed hosts L c.topo) (hL : 0 < L) (hc : Topology.createCascade hosts L = .ok c.topo) (hop : Opens c r L subs) (hr : r < 2 ^ 32)
    {k k' : Prop} {evs : List Event} {s s' : State} {e : Event} (hi : RInv c r subs k evs s) (hst : Step c s e s') (hkk : k' → k ∧ Keeps r s e)
    (hkc : k → Connected c hosts) (hcls : Clients c.topo subs r (evs ++ [e])) : RInv c r subs k' (evs ++ [e]) s' := by
  obtain ⟨A, av⟩ := hi.v
  have v := av.v
  have hk1 : k' → k := fun h => (hkk h).1
  have hopen : ∀ h, (mixerOf r (s.servers h)).isSome → ∃ e' ∈ evs ++ [e], isOpening h r e' = true := by
    intro h hs
    obtain ⟨e', h1, h2⟩ := hi.opened h hs
    exact ⟨e', List.mem_append_left _ h1, h2⟩
  cases hst with
  | client ha hs =>
    next h a srv resp =>
    have honce : ∀ ls order, a = .newRound r ls order → mixerOf r (s.servers h) = none := by
      rintro ls order rfl
      by_contra hne
      obtain ⟨e', h1, h2⟩ := hi.opened h (Option.isSome_iff_ne_none.2 hne)
      have hone := hcls.once h
      rw [List.filter_append, List.length_append] at hone
      have hp : 0 < (evs.filter (isOpening h r)).length := List.length_pos_iff.2 (List.ne_nil_of_mem (List.mem_filter.2 ⟨h1, h2⟩))
      have hq : ([Event.client h (.newRound r ls order)].filter (isOpening h r)).length = 1 := by simp [isOpening]
      omega
    obtain ⟨hsi, heff⟩ := server_effect (hi.si h) hs (by rintro r' ls order rfl; exact ha.1) honce
    refine ⟨si_set hi.si hsi, ?_, ?_⟩
    · intro h' hso
      by_cases hh : h' = h
      · subst hh
        rw [set_self] at hso
        cases heff with
        | quiet q1 q2 q3 => rw [q1] at hso; exact hopen _ hso
        | opened => exact ⟨_, by simp; right; rfl, by simp [isOpening]⟩
        | queued q1 q2 => rw [q1] at hso; exact hopen _ hso
        | mixed m1 => exact hopen _ (by rw [m1]; rfl)
      · rw [set_ne _ _ hh] at hso; exact hopen _ hso
    · show ∃ A, AInv c r subs k' (evs ++ [.client h a]) (fun h' => mixerOf r ((s.setServer h srv).servers h'))
        (fun h' => waitB r ((s.setServer h srv).servers h')) s.net A
      have hwtq : waitB r srv = waitB r (s.servers h) →
          (fun h' => waitB r ((s.setServer h srv).servers h')) = fun h' => waitB r (s.servers h') := by
        intro q1; funext h'
        by_cases hh : h' = h
        · subst hh; rw [set_self, q1]
        · rw [set_ne _ _ hh]
      have hmxq : mixerOf r srv = mixerOf r (s.servers h) →
          (fun h' => mixerOf r ((s.setServer h srv).servers h')) = fun h' => mixerOf r (s.servers h') := by
        intro q1; funext h'
        by_cases hh : h' = h
        · subst hh; rw [set_self, q1]
        · rw [set_ne _ _ hh]
      by_cases hadd : ∃ ms, a = .addMessages r ms
      · obtain ⟨ms, rfl⟩ := hadd
        have hq : mixerOf r srv = mixerOf r (s.servers h) ∧ (waitB r srv = waitB r (s.servers h) ∨ waitB r srv = waitB r (s.servers h) ++ ms) := by
          cases heff with
          | quiet q1 q2 q3 => exact ⟨q1, .inl q2⟩
          | queued q1 q2 => exact ⟨q1, .inr q2⟩
          | mixed m1 m2 m3 m4 m5 m6 m7 m8 => exact absurd rfl (m7 _ _)
        rw [hmxq hq.1]
        refine ⟨A, v.client hcl h ms (by rw [set_self]; exact hq.2) (fun h' hh => by rw [set_ne _ _ hh]) hcls, ?_, ?_⟩
        · intro ho
          exact (av.e ho.prefix_).move h ms (by rw [set_self]; exact hq.2) (fun h' hh => by rw [set_ne _ _ hh]) (ho.tag (by simp)) (fun _ h => h)
        · intro hk' ho
          have hopn : (s.servers h).rounds.lookup r ≠ none := (hkk hk').2 rfl
          exact (av.q (hk1 hk') ho.prefix_).client hcl h ms (by rw [set_self]; exact (queued_of_open (hi.si h) hs hopn).2)
            (fun h' hh => by rw [set_ne _ _ hh]) ho
      · have hsent : ∀ n, sentBy r n (.client h a) = [] := by
          intro n
          cases a <;> simp only [sentBy]
          case addMessages r' ms =>
            rw [if_neg]; rintro rfl; exact hadd ⟨ms, rfl⟩
        cases heff with
        | quiet q1 q2 q3 =>
          rw [hmxq q1]
          exact ⟨A, av.still hcl hk1 _ hsent (hwtq q2) hcls.onions⟩
        | queued q1 q2 => exact absurd ⟨_, rfl⟩ hadd
        | mixed m1 m2 m3 m4 m5 m6 m7 m8 =>
          next m m' b =>
          refine ⟨_, av.mixed hcl hk1 _ hsent h m1 m2 (by rw [set_self]; exact m3) (fun h' hh => by rw [set_ne _ _ hh]) (by rw [set_self]; exact m4)
            (fun h' hh => by rw [set_ne _ _ hh]) ?_ ?_ hcls.onions⟩
          · intro hb
            obtain ⟨i, rfl⟩ := m6 hb
            exact ha
          · intro hb ho
            obtain rfl := m8 hb
            exact ho.noEnd h (by simp)
        | opened hconn hm1 hprop hnew hw =>
          next ls order w m =>
          obtain ⟨hfit, hlook⟩ := hcls.loads h ls order (by simp)
          have hcr : (s.servers h).crashed = false := by
            by_contra hcc
            simp only [Bool.not_eq_false] at hcc
            unfold Server.step at hs
            rw [if_pos hcc] at hs
            cases hs
          obtain ⟨w', m', hs', hnew', hown, hnd, hexp, hload⟩ := (Server.C06_newRound_propagates_workload hL hc (c.server h) rfl (s.servers h) hcr r ls hfit
            order ha.2).1 ⟨hconn, fun i first hf => by rw [hlook i first hf]; rfl⟩
          have hsrv : srv = { s.servers h with objs := (s.servers h).objs ++ [(r, m')], rounds := (s.servers h).rounds.insert r (s.servers h).objs.length } := by
            rw [hs'] at hs; cases hs; rfl
          have hmm : mixerOf r srv = some m' := mixerOf_eq hsi (i := (s.servers h).objs.length) (by rw [hsrv]; simp)
          have hwt : (fun h' => waitB r ((s.setServer h srv).servers h')) = fun h' => waitB r (s.servers h') := by
            funext h'
            by_cases hh : h' = h
            · subst hh; rw [set_self, hw]
            · rw [set_ne _ _ hh]
          rw [hwt]
          have hspec := Mixer.newMixers_spec hnew'
          refine ⟨A, v.opened hcl _ hsent h (honce _ _ rfl) (by rw [set_self]; exact hmm) (fun h' hh => by rw [set_ne _ _ hh]) ?_
            hspec.2.2.2.2.2.2.2.2.1 hspec.2.2.2.2.2.2.1 hspec.2.2.2.2.2.2.2.2.2 hcls.onions, fun ho => av.e ho.prefix_, fun hk' ho =>
            (av.q (hk1 hk') ho.prefix_).opened _ hsent h (honce _ _ rfl) (by rw [set_self]; exact hmm) (fun h' hh => by rw [set_ne _ _ hh])
              hspec.2.2.2.2.2.2.1 hspec.2.2.2.2.2.2.2.2.2⟩
          refine ⟨w', order, m', ha.2, hnew', rfl, ?_, hexp⟩
          intro l i mix hmix
          obtain ⟨hl, hii, _⟩ := hcl.mixAt_some hmix
          obtain ⟨load, h1, h2⟩ := hload l i mix _ hmix (hcl.mixAt_eq 0 i hL hii)
          rw [h2]
          rw [hlook i _ (hcl.mixAt_eq 0 i hL hii)] at h1
          cases h1; rfl
  | work ha hs =>
    next h a srv resp =>
    have hnn : ∀ r' ls order, a ≠ .newRound r' ls order := by rintro r' ls order rfl; exact ha
    obtain ⟨hsi, heff⟩ := server_effect (hi.si h) hs (fun r' ls order hh => absurd hh (hnn _ _ _)) (fun ls order hh => absurd hh (hnn _ _ _))
    have hsent : ∀ n, sentBy r n (.work h a) = [] := fun n => rfl
    refine ⟨si_set hi.si hsi, ?_, ?_⟩
    · intro h' hso
      by_cases hh : h' = h
      · subst hh
        rw [set_self] at hso
        cases heff with
        | quiet q1 q2 q3 => rw [q1] at hso; exact hopen _ hso
        | opened => exact absurd rfl (hnn _ _ _)
        | queued q1 q2 => rw [q1] at hso; exact hopen _ hso
        | mixed m1 => exact hopen _ (by rw [m1]; rfl)
      · rw [set_ne _ _ hh] at hso; exact hopen _ hso
    · show ∃ A, AInv c r subs k' (evs ++ [.work h a]) (fun h' => mixerOf r ((s.setServer h srv).servers h'))
        (fun h' => waitB r ((s.setServer h srv).servers h')) s.net A
      cases heff with
      | quiet q1 q2 q3 =>
        have : (fun h' => mixerOf r ((s.setServer h srv).servers h')) = fun h' => mixerOf r (s.servers h') := by
          funext h'
          by_cases hh : h' = h
          · subst hh; rw [set_self, q1]
          · rw [set_ne _ _ hh]
        rw [this]
        refine ⟨A, av.still hcl hk1 _ hsent ?_ hcls.onions⟩
        funext h'
        by_cases hh : h' = h
        · subst hh; rw [set_self, q2]
        · rw [set_ne _ _ hh]
      | opened => exact absurd rfl (hnn _ _ _)
      | queued q1 q2 => exact absurd ha id
      | mixed m1 m2 m3 m4 m5 m6 m7 m8 =>
        refine ⟨_, av.mixed hcl hk1 _ hsent h m1 m2 (by rw [set_self]; exact m3) (fun h' hh => by rw [set_ne _ _ hh]) (by rw [set_self]; exact m4)
          (fun h' hh => by rw [set_ne _ _ hh]) ?_ ?_ hcls.onions⟩
        · intro hb
          obtain ⟨i, rfl⟩ := m6 hb
          exact ha rfl
        · intro hb
          obtain rfl := m8 hb
          exact absurd ha id
  | forward hm ho hs hb =>
    exact rinv_forward hcl hop hr hi hk1 hkc hm ho hs (emits_of_batch hb) rfl rfl id (fun _ f m1 hf hne hw hc => full_of_batch hb hf hne hw hc) hcls
  | panic hm ho hs hb =>
    exact rinv_forward hcl hop hr hi hk1 hkc hm ho hs (emits_of_panic hb) rfl rfl (fun h => ⟨h.uniq, h.bound, h.wait, h.small, fun hc => absurd hc (by simp)⟩)
      (fun _ f m1 hf hne hw hc => (no_panic hb hf hne hw hc).elim) hcls
  | deliver hk hs =>
    next n rq srv resp =>
    have hsent : ∀ n', sentBy r n' (.deliver n) = [] := fun n' => rfl
    obtain ⟨hsi, heff⟩ := server_effect (hi.si rq.host) hs (by intro _ _ _ hh; cases hh) (by intro _ _ hh; cases hh)
    have hq : mixerOf r srv = mixerOf r (s.servers rq.host) ∧ (waitB r srv = waitB r (s.servers rq.host) ∨
        waitB r srv = waitB r (s.servers rq.host) ++ (if rq.round = r then rq.messages else [])) := by
      revert heff
      generalize ha : Server.Action.addMessages rq.round rq.messages = a
      intro heff
      cases heff with
      | quiet q1 q2 q3 => exact ⟨q1, .inl q2⟩
      | queued q1 q2 =>
        injection ha with h1 h2
        rw [if_pos h1, h2]
        exact ⟨q1, .inr q2⟩
      | opened => cases ha
      | mixed m1 m2 m3 m4 m5 m6 m7 m8 => exact absurd ha.symm (m7 _ _)
    refine ⟨si_set hi.si hsi, ?_, ?_⟩
    · intro h' hso
      have hso : (mixerOf r ((s.setServer rq.host srv).servers h')).isSome := hso
      by_cases hh : h' = rq.host
      · subst hh; rw [set_self, hq.1] at hso; exact hopen _ hso
      · rw [set_ne _ _ hh] at hso; exact hopen _ hso
    · show ∃ A, AInv c r subs k' (evs ++ [.deliver n]) (fun h' => mixerOf r ((s.setServer rq.host srv).servers h'))
        (fun h' => waitB r ((s.setServer rq.host srv).servers h')) (s.net.eraseIdx n) A
      have : (fun h' => mixerOf r ((s.setServer rq.host srv).servers h')) = fun h' => mixerOf r (s.servers h') := by
        funext h'
        by_cases hh : h' = rq.host
        · subst hh; rw [set_self, hq.1]
        · rw [set_ne _ _ hh]
      rw [this]
      have htag : EInv c r (fun h => waitB r (s.servers h)) s.net A → ∀ M ∈ (if rq.round = r then rq.messages else []), Tag c.topo rq.host M := by
        intro hE M hM
        split at hM
        · next hrr => exact hE.tagN rq (List.mem_of_getElem? hk) hrr M hM
        · cases hM
      refine ⟨A, v.move hcl _ hsent _ (netB_erase hk) rq.host (by rw [set_self]; exact hq.2) (fun h' hh => by rw [set_ne _ _ hh]) (hcl0 := hcls.onions), ?_, ?_⟩
      · intro ho
        exact (av.e ho.prefix_).move rq.host _ (by rw [set_self]; exact hq.2) (fun h' hh => by rw [set_ne _ _ hh]) (htag (av.e ho.prefix_))
          (fun _ h => List.mem_of_mem_eraseIdx h)
      · intro hk' ho
        refine (av.q (hk1 hk') ho.prefix_).move hcl _ hsent _ (netB_erase hk) rq.host ?_ (fun h' hh => by rw [set_ne _ _ hh]) (htag (av.e ho.prefix_))
        rw [set_self]
        by_cases hrr : rq.round = r
        · rw [if_pos hrr]
          have hopn := (hkk hk').2 rq hk hrr
          rw [hrr] at hs
          exact (queued_of_open (hi.si _) hs hopn).2
        · rw [if_neg hrr, List.append_nil]
          rcases hq.2 with h | h
          · exact h
          · rw [h, if_neg hrr, List.append_nil]
  | drop hk =>
    next n rq =>
    refine ⟨hi.si, hopen, A, v.move hcl _ (fun n => rfl) _ (netB_erase hk) [] (.inl rfl) (fun _ _ => rfl) (hcl0 := hcls.onions), ?_, ?_⟩
    · intro ho
      exact (av.e ho.prefix_).move [] [] (.inl rfl) (fun _ _ => rfl) (by simp) (fun _ h => List.mem_of_mem_eraseIdx h)
    · intro hk' ho
      have hne : rq.round ≠ r := (hkk hk').2 rq hk
      have hp := netB_erase (r := r) hk
      rw [if_neg hne] at hp
      exact (av.q (hk1 hk') ho.prefix_).move hcl _ (fun n => rfl) [] hp [] (by simp) (fun _ _ => rfl) (by simp)

theorem rinv_run (hL : 0 < L) (hc : Topology.createCascade hosts L = .ok c.topo) (hop : Opens c r L subs) (hr : r < 2 ^ 32)
    {conn : Str → Bool} {evs : List Event} {s : State} (hrun : Run c (init conn) evs s) (hcls : Clients c.topo subs r evs) :
    RInv c r subs False evs s := by
  have hcl := Topology.closed_of_create hc
  induction hrun with
  | nil => exact rinv_init hcl conn
  | snoc _ hst ih => exact rinv_step hcl hL hc hop hr (ih hcls.prefix_) hst False.elim False.elim hcls

theorem rinv_lossless (hL : 0 < L) (hc : Topology.createCascade hosts L = .ok c.topo) (hop : Opens c r L subs) (hr : r < 2 ^ 32)
    (hconn : Connected c hosts) {conn : Str → Bool} {evs : List Event} {s : State} (hrun : LosslessRun c r (init conn) evs s)
    (hcls : Clients c.topo subs r evs) : RInv c r subs True evs s := by
  have hcl := Topology.closed_of_create hc
  induction hrun with
  | nil => exact rinv_init hcl conn
  | snoc _ hk hst ih => exact rinv_step hcl hL hc hop hr (ih hcls.prefix_) hst (fun _ => ⟨trivial, hk⟩) (fun _ => hconn) hcls

theorem LosslessRun.run {s0 : State} {evs : List Event} {s : State} (h : LosslessRun c r s0 evs s) : Run c s0 evs s := by
  induction h with
  | nil => exact .nil
  | snoc _ _ hst ih => exact ih.snoc hst

end Resmix.System
