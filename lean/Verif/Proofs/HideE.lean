import Verif.Proofs.HideD
import Verif.Props.System
set_option autoImplicit false
/-
Anonymity in the whole system: every execution is followed by one under other keys.
-/
namespace Resmix.System
open Resmix.Mixer (Messages MixOutput Like LikeDead LooksSame SameButWords opened workloadOf resultOf)
open Resmix.Topology (Closed)

variable {H : Str → Prop} {r : Nat} {c c' : Config} {subs : List Submission} {hosts : List Str} {L : Nat}

/-- At every mix of a host of `H`, the new key opens the onions of the chain to the same contents up to their order. -/
def KeyOk (H : Str → Prop) (r : Nat) (c c' : Config) (subs : List Submission) : Prop :=
  ∀ l ch mix, c.topo.mixAt l ch = some mix → H mix.hostname →
    (∀ o ∈ X c r subs ch l, (c'.env mix.hostname r).decrypt o = .error .panic ↔ (c.env mix.hostname r).decrypt o = .error .panic) ∧
    ((X c r subs ch l).map (opened (c'.env mix.hostname r))).Perm ((X c r subs ch l).map (opened (c.env mix.hostname r))) ∧
    (onChain subs ch).length ≤ 2 ^ 32

/-- The condition for following a step holds in every reachable state. -/
theorem cond_of (hcl : Closed hosts L c.topo) (hko : KeyOk H r c c' subs) {k : Prop} {evs : List Event} {s : State}
    (hi : RInv c r subs k evs s) (h : Str) : Cond H r c c' h (s.servers h) := by
  intro hH i m hm hc
  obtain ⟨hsi, _, A, ⟨v, _, _⟩⟩ := hi
  have hmx := mixerOf_eq (hsi h) hm
  obtain ⟨w, order, m0, hord, h0, hx, hw, hexp⟩ := v.mixer h m hmx
  have hspec := Mixer.newMixers_spec h0
  intro n ms hn
  obtain ⟨ms0, hn0, hlen, _, _, hd⟩ := Mixer.exec_some hx hc (Mixer.init_added h0) hspec.2.2.2.2.1 hn
  obtain ⟨u, hu, rfl, hnew⟩ := hspec.1 _ _ hn0
  have hout : ms0.outputs.length = workloadOf w u.name := (Mixer.newMixState_spec hnew).2.1
  obtain ⟨hmem, rfl⟩ := (Server.mem_ownMixes hcl hord).1 hu
  obtain ⟨l, ch, hat⟩ := mixAt_of_mem hcl hmem
  have hD : (Mixer.delivered (A u.hostname) u.name).Subperm (X c r subs ch l) := subperm_of_count fun o => by
    rw [delivered_cnt]
    have h1 := v.acct _ _ _ hat o
    have h2 := v.bnd l ch o
    omega
  have hXl := X_length (c := c) (r := r) (subs := subs) ch l
  rw [hout, hw _ _ _ hat] at hlen
  obtain ⟨k1, k2, k3⟩ := hko l ch u hat hH
  have hsub : ms.added.Subperm (X c r subs ch l) := by
    refine List.Subperm.trans ?_ hD
    rw [← hd]; exact (List.sublist_append_left _ _).subperm
  refine ⟨by rw [hlen, ← hXl]; exact hsub.length_le, fun o ho => k1 o (hsub.subset ho), fun hf => ?_⟩
  have hp := hsub.perm_of_length_le (by rw [hf, hlen, hXl])
  exact ⟨((hp.map _).trans k2).trans (hp.map _).symm, by rw [hlen]; exact k3⟩

/-- Two states of the system. -/
structure SysRel (H : Str → Prop) (r : Nat) (c c' : Config) (s s' : State) : Prop where
  net : s'.net = s.net
  srv : ∀ h, SrvRel H r c c' h (s.servers h) (s'.servers h)

theorem objRel_looks {h : Str} {p p' : Nat × Mixer.State} (ho : ObjRel H r c c' h p p') : p'.1 = p.1 ∧ LooksSame p.2 p'.2 := by
  obtain ⟨h1, h2⟩ := ho
  refine ⟨h1, ?_⟩
  rcases h2 with ⟨_, h2⟩ | ⟨_, _, ⟨_, h2, h3, _⟩ | h2⟩
  · rw [h2]; exact ⟨rfl, rfl, fun _ => rfl, rfl, rfl, rfl, rfl, rfl, rfl⟩
  · exact Mixer.looksSame_of_like h2 h3
  · exact Mixer.looksSame_of_dead h2

theorem SysRel.view {s s' : State} (hr : SysRel H r c c' s s') : SameView H s s' where
  net := hr.net
  others h hH := by
    have h1 := hr.srv h
    have : (s'.servers h).objs = (s.servers h).objs := by
      have h2 := h1.objs
      symm
      rw [← List.forall₂_eq_eq_eq]
      refine h2.imp ?_
      rintro ⟨r1, m1⟩ ⟨r2, m2⟩ ⟨e1, e2⟩
      rcases e2 with ⟨_, e2⟩ | ⟨e2, _⟩
      · dsimp only at e1 e2; rw [e1, e2]
      · exact absurd e2 hH
    obtain ⟨a1, a2, a3, a4, _⟩ := h1
    cases hs : s.servers h
    cases hs' : s'.servers h
    rw [hs, hs'] at this a1 a2 a3 a4
    simp only at this a1 a2 a3 a4
    subst this a1 a2 a3 a4
    rfl
  connections h := (hr.srv h).connections
  rounds h := (hr.srv h).rounds
  waiting h := (hr.srv h).waiting
  crashed h := (hr.srv h).crashed
  objs h := (hr.srv h).objs.imp fun _ _ ho => objRel_looks ho

theorem sysRel_init (conn : Str → Bool) : SysRel H r c c' (init conn) (init conn) :=
  ⟨rfl, fun _ => ⟨rfl, rfl, rfl, rfl, by simp [init, Server.init]⟩⟩

theorem SysRel.set {s s' : State} (hr : SysRel H r c c' s s') {h : Str} {srv srv' : Server.State} (h1 : SrvRel H r c c' h srv srv')
    (net : List Sender.Request) : SysRel H r c c' { s.setServer h srv with net := net } { s'.setServer h srv' with net := net } := by
  refine ⟨rfl, fun h' => ?_⟩
  by_cases hh : h' = h
  · subst hh
    simpa [State.setServer] using h1
  · simpa [State.setServer, hh] using hr.srv h'

theorem sender_eq (hk : Rekeyed H r c c') (h : Str) (r' : Nat) : c'.sender h r' = c.sender h r' := by
  unfold Config.sender; rw [hk.topo, hk.connected]

/-- One step of the system. -/
theorem sys_step (hk : Rekeyed H r c c') {s s' s1 : State} {e : Event} (hr : SysRel H r c c' s s') (hc : ∀ h, Cond H r c c' h (s.servers h))
    (hst : Step c s e s1) : ∃ e' s1', SameEvent H e e' ∧ Step c' s' e' s1' ∧ SysRel H r c c' s1 s1' := by
  have hnet : ∀ (h : Str) (srv : Server.State), s'.setServer h srv = { s'.setServer h srv with net := s.net } := fun h srv => by
    rw [← hr.net]; rfl
  cases hst with
  | @client h a srv resp ha hs =>
    obtain ⟨a', srv', h1, h2, h3⟩ := server_sim hk (hr.srv h) (hc h) hs
    have : a' = a := by
      cases h1 with
      | same => rfl
      | words => simp [ClientCall] at ha
    subst this
    refine ⟨_, _, .same _, .client (by rw [hk.topo]; exact ha) h2, ?_⟩
    have := hr.set h3 s.net
    rw [hnet]; exact this
  | @work h a srv resp ha hs =>
    obtain ⟨a', srv', h1, h2, h3⟩ := server_sim hk (hr.srv h) (hc h) hs
    have hrel := hr.set h3 s.net
    rw [← hnet] at hrel
    cases h1 with
    | same => exact ⟨_, _, .same _, .work ha h2, hrel⟩
    | words i j w w' hH => exact ⟨_, _, .words h i j w w' hH, .work (by simp [Internal]) h2, hrel⟩
  | @forward h i r' m out rest srv resp rqs hm ho hs hb =>
    obtain ⟨a', srv', h1, h2, h3⟩ := server_sim hk (hr.srv h) (hc h) hs
    cases h1
    obtain ⟨⟨r'', m'⟩, hi', hob⟩ := (hr.srv h).get hm
    obtain ⟨hl1, hl2⟩ := objRel_looks hob
    dsimp only at hl1 hl2
    subst hl1
    refine ⟨_, _, .same _, .forward hi' (by rw [hl2.output]; exact ho) h2 (by rw [sender_eq hk]; exact hb), ?_⟩
    rw [hr.net]
    exact hr.set h3 _
  | @panic h i r' m out rest srv resp rqs hm ho hs hb =>
    obtain ⟨a', srv', h1, h2, h3⟩ := server_sim hk (hr.srv h) (hc h) hs
    cases h1
    obtain ⟨⟨r'', m'⟩, hi', hob⟩ := (hr.srv h).get hm
    obtain ⟨hl1, hl2⟩ := objRel_looks hob
    dsimp only at hl1 hl2
    subst hl1
    refine ⟨_, _, .same _, .panic hi' (by rw [hl2.output]; exact ho) h2 (by rw [sender_eq hk]; exact hb), ?_⟩
    rw [hr.net]
    exact hr.set (srv := { srv with crashed := true }) (srv' := { srv' with crashed := true }) ⟨h3.connections, h3.rounds, h3.waiting, rfl, h3.objs⟩ _
  | @deliver k rq srv resp hkk hs =>
    obtain ⟨a', srv', h1, h2, h3⟩ := server_sim hk (hr.srv rq.host) (hc rq.host) hs
    cases h1
    refine ⟨_, _, .same _, .deliver (by rw [hr.net]; exact hkk) h2, ?_⟩
    rw [hr.net]
    exact hr.set h3 _
  | @drop k rq hkk =>
    refine ⟨_, _, .same _, .drop (rq := rq) (by rw [hr.net]; exact hkk), ?_⟩
    exact ⟨by rw [hr.net], hr.srv⟩

theorem trace_run {s0 s : State} {tr : List (Event × State)} (h : Trace c s0 tr s) : Run c s0 (tr.map (·.1)) s := by
  induction h with
  | nil => exact .nil
  | snoc _ hst ih => rw [List.map_append]; exact ih.snoc hst

theorem run_trace {s0 s : State} {evs : List Event} (h : Run c s0 evs s) : ∃ tr, Trace c s0 tr s ∧ tr.map (·.1) = evs := by
  induction h with
  | nil => exact ⟨[], .nil, rfl⟩
  | snoc _ hst ih =>
    obtain ⟨tr, h1, h2⟩ := ih
    exact ⟨_, h1.snoc hst, by rw [List.map_append, h2]; rfl⟩

/-- A whole execution. -/
theorem sys_sim (hL : 0 < L) (ht : Topology.createCascade hosts L = .ok c.topo) (hop : Opens c r L subs) (hr : r < 2 ^ 32) (hk : Rekeyed H r c c')
    (hko : KeyOk H r c c' subs) {conn : Str → Bool} {tr : List (Event × State)} {s : State} (htr : Trace c (init conn) tr s)
    (hcls : Clients c.topo subs r (tr.map (·.1))) :
    ∃ tr' s', Trace c' (init conn) tr' s' ∧ List.Forall₂ (fun p p' => SameEvent H p.1 p'.1 ∧ SameView H p.2 p'.2) tr tr' ∧ SysRel H r c c' s s' := by
  have hcl := Topology.closed_of_create ht
  induction htr with
  | nil => exact ⟨[], _, .nil, .nil, sysRel_init conn⟩
  | @snoc tr s s1 e htr hst ih =>
    rw [List.map_append] at hcls
    have hcls1 := hcls.prefix_
    obtain ⟨tr', s', h1, h2, h3⟩ := ih hcls1
    have hi := rinv_run hL ht hop hr (trace_run htr) hcls1
    obtain ⟨e', s1', h4, h5, h6⟩ := sys_step hk h3 (cond_of hcl hko hi) hst
    exact ⟨_, _, h1.snoc h5, List.rel_append h2 (.cons ⟨h4, h6.view⟩ .nil), h6⟩

/-- Two executions that look the same return the same. -/
theorem returns_same {s s' : State} (hv : SameView H s s') {h : Str} {r' : Nat} {n : Str} {out : List Bytes} :
    Returns s h r' n out ↔ Returns s' h r' n out := by
  have hf := hv.objs h
  constructor
  · rintro ⟨h1, i, m, h2, h3⟩
    obtain ⟨hlt, he⟩ := List.getElem?_eq_some_iff.1 h2
    have hlt' : i < (s'.servers h).objs.length := by rw [← hf.length_eq]; exact hlt
    have hp := List.Forall₂.get hf hlt hlt'
    simp only [List.get_eq_getElem, he] at hp
    refine ⟨by rw [hv.crashed]; exact h1, i, ((s'.servers h).objs[i]).2, ?_, by rw [hp.2.answers]; exact h3⟩
    rw [List.getElem?_eq_getElem hlt', ← hp.1]
  · rintro ⟨h1, i, m, h2, h3⟩
    obtain ⟨hlt', he⟩ := List.getElem?_eq_some_iff.1 h2
    have hlt : i < (s.servers h).objs.length := by rw [hf.length_eq]; exact hlt'
    have hp := List.Forall₂.get hf hlt hlt'
    simp only [List.get_eq_getElem, he] at hp
    refine ⟨by rw [← hv.crashed]; exact h1, i, ((s.servers h).objs[i]).2, ?_, by rw [← hp.2.answers]; exact h3⟩
    rw [List.getElem?_eq_getElem hlt, hp.1]

/-- The clients make the same calls. -/
theorem clients_same {t : Topology} {subs' : List Submission} {evs evs' : List Event} (hf : List.Forall₂ (SameEvent H) evs evs')
    (ho : ∀ ch, (onChain subs' ch).map (·.onion) = (onChain subs ch).map (·.onion)) (h : Clients t subs r evs) : Clients t subs' r evs' := by
  have hlen : ∀ ch, (onChain subs' ch).length = (onChain subs ch).length := fun ch => by simpa using congrArg List.length (ho ch)
  have hmem : ∀ h' a, Event.client h' a ∈ evs' → Event.client h' a ∈ evs := by
    clear h
    induction hf with
    | nil => intro h' a hm; cases hm
    | cons h1 _ ih =>
      intro h' a hm
      rcases List.mem_cons.1 hm with hm | hm
      · subst hm; cases h1; exact List.mem_cons_self
      · exact List.mem_cons_of_mem _ (ih h' a hm)
  have hclient : ∀ n, clientOnions evs' r n = clientOnions evs r n := by
    intro n
    clear h hmem
    induction hf with
    | nil => rfl
    | cons h1 _ ih =>
      simp only [clientOnions, List.flatMap_cons] at ih ⊢
      rw [ih]
      congr 1
      cases h1 <;> rfl
  have hopen : ∀ h', evs'.filter (isOpening h' r) = evs.filter (isOpening h' r) := by
    intro h'
    clear h hmem hclient
    induction hf with
    | nil => rfl
    | cons h1 _ ih =>
      cases h1 with
      | same => simp only [List.filter_cons, ih]
      | words => simpa [isOpening] using ih
  refine ⟨fun h' => by rw [hopen]; exact h.once h', fun h' ls order hm => ?_, fun h' ms hm m hmm => ?_, fun ch f hf' => ?_⟩
  · obtain ⟨h1, h2⟩ := h.loads h' ls order (hmem _ _ hm)
    exact ⟨h1, fun ch f hf => by rw [hlen]; exact h2 ch f hf⟩
  · obtain ⟨ch, f, h1, h2, h3⟩ := h.first h' ms (hmem _ _ hm) m hmm
    exact ⟨ch, f, h1, h2, fun he => by
      have := hlen ch
      rw [h3 he] at this
      exact List.length_eq_zero_iff.1 this⟩
  · rw [hclient, ho]; exact h.onions ch f hf'

end Resmix.System
