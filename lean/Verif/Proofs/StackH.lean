import Verif.Proofs.StackG
set_option autoImplicit false
/-
When call ids are used properly: which round object made a call.
-/
namespace Resmix.Rrpc.DirectSystem
variable {ζ μ : Type} {cfg : Config ζ μ} {s s' : State ζ μ} {e : Event ζ μ}

/-- Calls keep their ids, and what callers have received they keep. -/
def Keep (l l' : List (DirectClient.Call Outcome)) : Prop := l'.length = l.length ∧ ∀ (j : Nat) (x' : DirectClient.Call Outcome), l'[j]? = some x' →
  ∃ x : DirectClient.Call Outcome, l[j]? = some x ∧ x'.uuid = x.uuid ∧ (x'.got = none → x.got = none)

theorem Keep.refl (l : List (DirectClient.Call Outcome)) : Keep l l := ⟨rfl, fun _ x h => ⟨x, h, rfl, id⟩⟩

theorem keep_set (l : List (DirectClient.Call Outcome)) {i : Nat} {c c' : DirectClient.Call Outcome} (hc : l[i]? = some c) (h1 : c'.uuid = c.uuid ∧ (c'.got = none → c.got = none)) :
    Keep l (l.set i c') := by
  refine ⟨by simp, ?_⟩
  intro j x hx
  by_cases hj : j = i
  · subst hj
    have hi := (List.getElem?_eq_some_iff.1 hc).1
    simp [hi] at hx
    subst hx
    exact ⟨c, hc, h1⟩
  · rw [List.getElem?_set_ne (Ne.symm hj)] at hx
    exact ⟨x, hx, rfl, id⟩

theorem keep_client {ttl : Nat} {c c' : DirectClient.State Outcome} {ev : DirectClient.Ev Outcome}
    (h : DirectClient.step ttl c ev = some c') (hev : ∀ u now, ev ≠ .call u now) : Keep c.calls c'.calls := by
  unfold DirectClient.step at h
  split at h
  · cases h
  cases ev with
  | call u now => exact absurd rfl (hev u now)
  | _ =>
    simp only [DirectClient.deliver] at h
    repeat' split at h
    all_goals first
      | cases h; done
      | (injection h with h; subst h; first | exact Keep.refl _ | (apply keep_set <;> first | assumption | simp))

theorem keep_step (hev : ∀ u now m a, e ≠ .call u now m a) (h : step cfg s e = some s') : Keep s.client.calls s'.client.calls := by
  have loc : ∀ ev : DirectClient.Ev Outcome, (∀ u now, ev ≠ .call u now) → local' cfg s ev = some s' → Keep s.client.calls s'.client.calls := by
    intro ev hv h
    unfold local' at h
    split at h
    · cases h
    · rename_i c hc
      injection h with h; subst h
      exact keep_client hc hv
  cases e with
  | call u now m a => exact absurd rfl (hev u now m a)
  | await i => exact loc _ (by simp) h
  | readClosed i => exact loc _ (by simp) h
  | reportFail => exact loc _ (by simp) h
  | dispatch => exact loc _ (by simp) h
  | close => exact loc _ (by simp) h
  | visit u now => exact loc _ (by simp) h
  | notify => exact loc _ (by simp) h
  | delete => exact loc _ (by simp) h
  | sendFails =>
    simp only [step] at h
    split at h
    · exact loc _ (by simp) h
    · cases h
  | send =>
    simp only [step] at h
    repeat' split at h
    all_goals first
      | cases h; done
      | exact loc _ (by simp) h
      | (injection h with h; subst h; exact keep_client (by assumption) (by simp))
  | _ =>
    simp only [step] at h
    repeat' split at h
    all_goals first
      | cases h; done
      | (injection h with h; subst h; first | exact Keep.refl _ | exact keep_client (by assumption) (by simp))

end Resmix.Rrpc.DirectSystem

namespace Resmix.Mixer
variable {env : Env}

/-- What the sender has taken. -/
def Took (m : State) (n : Str) : Prop := ∃ tk : List MixOutput, m.sent = tk ++ m.output ∧ n ∈ tk.map (·.logicalSender)

theorem taken_step {m m' : State} {b : Action} (h : step env m b = some m') (ht : ∃ tk : List MixOutput, m.sent = tk ++ m.output) :
    ∃ tk : List MixOutput, m'.sent = tk ++ m'.output := by
  obtain ⟨tk, ht⟩ := ht
  obtain ⟨e1, e2⟩ := step_output h
  by_cases hb : b = .recv
  · obtain ⟨o, q, h1, rfl⟩ := e2 hb
    exact ⟨tk ++ [o], by simp [ht, h1]⟩
  · obtain ⟨x, h1, h2, -⟩ := e1 hb
    exact ⟨tk, by rw [h1, h2, ht, List.append_assoc]⟩

theorem took_step {m m' : State} {b : Action} {n : Str} (h : step env m b = some m') (ht : Took m n) : Took m' n := by
  obtain ⟨tk, ht, hn⟩ := ht
  obtain ⟨e1, e2⟩ := step_output h
  by_cases hb : b = .recv
  · obtain ⟨o, q, h1, rfl⟩ := e2 hb
    exact ⟨tk ++ [o], by simp [ht, h1], by rw [List.map_append]; exact List.mem_append_left _ hn⟩
  · obtain ⟨x, h1, h2, -⟩ := e1 hb
    exact ⟨tk, by rw [h1, h2, ht, List.append_assoc], hn⟩

theorem exec_taken {topo : Topology} {mixes : List LogicalMix} {w : GoMap Str Int} {m0 m : State} {acts : List Action} (h0 : newMixers topo mixes w = .ok m0)
    (hx : exec env m0 acts = some m) : ∃ tk : List MixOutput, m.sent = tk ++ m.output := by
  have hspec := newMixers_spec h0
  induction acts using List.reverseRecOn generalizing m with
  | nil => cases hx; exact ⟨[], by rw [hspec.2.2.2.2.2.2.1, hspec.2.2.2.2.2.2.2.2.2]; rfl⟩
  | append_singleton acts a ih =>
    obtain ⟨s1, h1, h2⟩ := exec_snoc hx
    exact taken_step h2 (ih h1)

end Resmix.Mixer

namespace Resmix.System
open Resmix.Mixer (Messages MixOutput onionsOf)
open Resmix.Topology (Closed)
variable {c : Config} {r : Nat} {subs : List Submission} {hosts : List Str} {L : Nat}

/-- A mix sends one batch with onions. -/
theorem sent_once (hcl : Closed hosts L c.topo) (hop : Opens c r L subs) {evs : List Event} {mx : Str → Option Mixer.State}
    {wt : Str → List Messages} {nt : List Messages} {A : Str → List Mixer.Action} (v : VInv c r subs evs mx wt nt A) {h : Str} {m : Mixer.State}
    (hm : mx h = some m) (hc : m.crashed = false) {out : MixOutput} {q : List MixOutput} (ho : m.output = out :: q) (hne : out.onions ≠ []) :
    (m.sent.filter fun b => b.logicalSender = out.logicalSender).length ≤ 1 := by
  obtain ⟨w, order, m0, hord, h0, hx, hw, hexp⟩ := v.mixer h m hm
  obtain ⟨l, ch, u, m1, hat, huh, hun, hat1, -⟩ := batch_known hcl hop v hm hc ho
  subst huh
  have hD : ∀ o, cnt u.name o (calls (A u.hostname)) ≤ (X c r subs ch l).count o := by
    intro o
    have h1 := v.acct l ch u hat o
    have h2 := v.bnd l ch o
    omega
  have hsent : out ∈ m.sent := by
    obtain ⟨tk, htk⟩ := Mixer.exec_taken h0 hx
    rw [htk, ho]; simp
  obtain ⟨hlast, hbd⟩ := mixer_sent hcl hat (v.mixer _ _ hm) hc hD (fun hs => (v.ne l ch u hat hs).1 _)
  obtain ⟨o, hoo⟩ := List.exists_mem_of_ne_nil _ hne
  have hpos : onChain subs ch ≠ [] := by
    have h1 : o ∈ onionsOf m.sent u.name := by
      simp only [onionsOf, List.mem_flatMap, List.mem_filter, decide_eq_true_eq]
      exact ⟨out, ⟨hsent, hun⟩, hoo⟩
    have h2 := List.count_pos_iff.2 h1
    have h3 := hbd o
    have h4 : o ∈ X c r subs ch (l + 1) := List.count_pos_iff.1 (by omega)
    have h5 := List.length_pos_of_mem h4
    rw [X_length] at h5
    exact List.length_pos_iff.1 h5
  have hmem : u ∈ Server.ownMixes c.topo u.hostname order := (Server.mem_ownMixes hcl hord).2 ⟨(mixAt_layer hcl hat).2.2, rfl⟩
  obtain ⟨pk, hpk⟩ := hexp u hmem
  have hLl : c.topo.layers.length = L := by rw [hcl.layers]; simp
  obtain ⟨-, -, h3⟩ := Mixer.C10_forwards_once_partial h0 (Server.ownMixes_nodup hcl hord) hx hc hmem hpk
  have hl1 : u.layer + 1 ≠ c.topo.layers.length := by
    rw [(mixAt_layer hcl hat).1, hLl]
    have := (mixAt_layer hcl hat1).2.1
    omega
  have hwl := hw l ch u hat
  obtain ⟨h4, -⟩ := h3 hl1 (noEmpty_of ((v.ne l ch u hat hpos).1 _)) (by rw [hwl]; exact List.length_pos_iff.2 hpos) (by
    rw [hwl, ← X_length (c := c) (r := r) (subs := subs) ch l]
    exact (subperm_of_count fun o => by rw [delivered_cnt]; exact hD o).length_le)
  rw [hun]
  exact h4

end Resmix.System

namespace Resmix.Stack
open Resmix.Mixer (Messages MixOutput Took)
open Resmix.Sender
open Resmix.Rrpc.DirectSystem (Outcome Keep keep_step frame_call)
variable {ζ μ : Type} {c : Config ζ μ} {s s' : State ζ μ} {e : Event ζ μ}

/-- Round objects stay, and with them what was taken from them. -/
def Evolve (srv srv' : Server.State) : Prop := ∀ (i r : Nat) (m : Mixer.State), srv.objs[i]? = some (r, m) →
  ∃ m', srv'.objs[i]? = some (r, m') ∧ ∀ n, Took m n → Took m' n

theorem Evolve.refl (srv : Server.State) : Evolve srv srv := fun _ _ m h => ⟨m, h, fun _ => id⟩

theorem evolve_objs {srv srv' : Server.State} (h : srv'.objs = srv.objs) : Evolve srv srv' := fun _ _ m hm => ⟨m, by rw [h]; exact hm, fun _ => id⟩

theorem evolve_set {srv srv' : Server.State} {i r : Nat} {m m' : Mixer.State} {env : Mixer.Env} {b : Mixer.Action} (hm : srv.objs[i]? = some (r, m))
    (hs : Mixer.step env m b = some m') (h : srv'.objs = srv.objs.set i (r, m')) : Evolve srv srv' := by
  intro j r' m1 hj
  by_cases he : j = i
  · subst he
    rw [hm] at hj; cases hj
    have hi := (List.getElem?_eq_some_iff.1 hm).1
    exact ⟨m', by simp [h, hi], fun n hn => Mixer.took_step hs hn⟩
  · exact ⟨m1, by rw [h, List.getElem?_set_ne (Ne.symm he)]; exact hj, fun _ => id⟩

theorem evolve {cfg : Server.Config} {srv srv' : Server.State} {a : Server.Action} {resp : Server.Resp} (hs : Server.step cfg srv a = some (srv', resp)) :
    Evolve srv srv' := by
  unfold Server.step at hs
  split at hs
  · cases hs
  cases a with
  | newRound r loads order =>
    simp only at hs
    split at hs
    · rename_i s1 h1
      cases hs
      unfold Server.newRound at h1
      repeat' split at h1
      all_goals first
        | cases h1; done
        | (injection h1 with h1; subst h1
           intro i r' m hm
           exact ⟨m, by simp only; rw [List.getElem?_append_left (List.getElem?_eq_some_iff.1 hm).1]; exact hm, fun _ => id⟩)
    · cases hs; exact evolve_objs rfl
    · cases hs; exact Evolve.refl _
  | _ =>
    simp only at hs
    repeat' split at hs
    all_goals first
      | cases hs; done
      | (cases hs; exact evolve_objs rfl)
      | (cases hs; exact evolve_set (by assumption) (by assumption) rfl)

/-- Which round object made which call: `own h h' j` made call `j` on the connection of `h` to `h'`. -/
structure Makers (s : State ζ μ) (own : Str → Str → Nat → Nat) : Prop where
  call : ∀ (h h' : Str) (j : Nat) (x : Rrpc.DirectClient.Call Outcome), (s.conns h h').client.calls[j]? = some x →
    ∃ n r m, x.uuid = uuidOf h h' n ∧ (58 : UInt8) ∉ n ∧ (s.servers h).objs[own h h' j]? = some (r, m) ∧ Took m n
  todo : ∀ (h : Str) (i : Nat), ∀ rq ∈ (s.worker h i).todo, ∃ n r m, rq.uuid = uuidOf h rq.host n ∧ (58 : UInt8) ∉ n ∧ (s.servers h).objs[i]? = some (r, m) ∧ Took m n
  hosts : ∀ (h : Str) (i : Nat), ((s.worker h i).todo.map (·.host)).Nodup
  apart : ∀ (h : Str) (i : Nat), ∀ rq ∈ (s.worker h i).todo, ∀ (j : Nat) (x : Rrpc.DirectClient.Call Outcome), (s.conns h rq.host).client.calls[j]? = some x →
    own h rq.host j = i → x.uuid ≠ rq.uuid
  busy : ∀ (h h' : Str) (j : Nat) (x : Rrpc.DirectClient.Call Outcome), (s.conns h h').client.calls[j]? = some x → x.got = none →
    (s.worker h (own h h' j)).stage.call = some (h', j)
  stage : ∀ (h : Str) (i : Nat) (h' : Str) (j : Nat), (s.worker h i).stage.call = some (h', j) → own h h' j = i ∧ j < (s.conns h h').client.calls.length

theorem makers_init (conn : Str → Bool) : Makers (init conn : State ζ μ) fun _ _ _ => 0 where
  call := fun h h' j x hx => by simp [init, Rrpc.DirectSystem.init, Rrpc.DirectClient.init] at hx
  todo := fun h i rq hr => by cases hr
  hosts := fun h i => by simp [init]
  apart := fun h i rq hr => by cases hr
  busy := fun h h' j x hx => by simp [init, Rrpc.DirectSystem.init, Rrpc.DirectClient.init] at hx
  stage := fun h i h' j hs => by cases hs

/-- A step that makes no calls. -/
theorem Makers.same {own : Str → Str → Nat → Nat} (k : Makers s own) (h1 : ∀ h, Evolve (s.servers h) (s'.servers h))
    (h2 : ∀ h h', Keep (s.conns h h').client.calls (s'.conns h h').client.calls) (h3 : ∀ h i, (s'.worker h i).todo = (s.worker h i).todo)
    (h4 : ∀ h i, (s'.worker h i).stage.call = (s.worker h i).stage.call) : Makers s' own where
  call := fun h h' j x' hx' => by
    obtain ⟨x, e1, e2, -⟩ := (h2 h h').2 j x' hx'
    obtain ⟨n, r, m, e3, e4, e5, e6⟩ := k.call h h' j x e1
    obtain ⟨m', e7, e8⟩ := h1 h _ _ _ e5
    exact ⟨n, r, m', by rw [e2, e3], e4, e7, e8 n e6⟩
  todo := fun h i rq hr => by
    rw [h3] at hr
    obtain ⟨n, r, m, e3, e4, e5, e6⟩ := k.todo h i rq hr
    obtain ⟨m', e7, e8⟩ := h1 h _ _ _ e5
    exact ⟨n, r, m', e3, e4, e7, e8 n e6⟩
  hosts := fun h i => by rw [h3]; exact k.hosts h i
  apart := fun h i rq hr j x' hx' ho => by
    rw [h3] at hr
    obtain ⟨x, e1, e2, -⟩ := (h2 h _).2 j x' hx'
    rw [e2]
    exact k.apart h i rq hr j x e1 ho
  busy := fun h h' j x' hx' hg => by
    obtain ⟨x, e1, -, e3⟩ := (h2 h h').2 j x' hx'
    rw [h4]
    exact k.busy h h' j x e1 (e3 hg)
  stage := fun h i h' j hs => by
    rw [h4] at hs
    obtain ⟨e1, e2⟩ := k.stage h i h' j hs
    exact ⟨e1, by rw [(h2 h h').1]; exact e2⟩

theorem evolve_setServer {h : Str} {srv : Server.State} (he : Evolve (s.servers h) srv) : ∀ h', Evolve (s.servers h') ((s.setServer h srv).servers h') := by
  intro h'
  by_cases hh : h' = h
  · subst hh; simpa [State.setServer] using he
  · simpa [State.setServer, hh] using Evolve.refl _

theorem keep_upd2 {h0 h1 : Str} {t : Rrpc.DirectSystem.State ζ μ} (hk : Keep (s.conns h0 h1).client.calls t.client.calls) :
    ∀ h h', Keep (s.conns h h').client.calls (upd2 s.conns h0 h1 t h h').client.calls := by
  intro h h'
  by_cases hh : h = h0 ∧ h' = h1
  · obtain ⟨rfl, rfl⟩ := hh; simpa [upd2] using hk
  · simpa [upd2, hh] using Keep.refl _


section
variable {hosts : List Str} {L : Nat} {conn : Str → Bool} {evs : List (Event ζ μ)} {evs' : List System.Event} {a : System.State} {T : List (Loc × Request)}

/-- What a sender does with a batch. -/
theorem Track.batch (hL : 0 < L) (hc : Topology.createCascade hosts L = .ok c.sys.topo) (hconn : System.Connected c.sys hosts)
    (t : Track c conn evs s evs' a T) (hall : System.AllOrderly c.sys L (clientCalls evs)) {h : Str} {i r : Nat} {m : Mixer.State} {out : MixOutput}
    {rest : List MixOutput} {rqs : List Request} (hm : (s.servers h).objs[i]? = some (r, m)) (ho : m.output = out :: rest)
    (hb : SendBatch (c.sys.sender h r) out (.ok rqs)) :
    (rqs.map (·.host)).Nodup ∧ (∀ rq ∈ rqs, rq.uuid = uuidOf h rq.host out.logicalSender) ∧ (58 : UInt8) ∉ out.logicalSender ∧
    (rqs ≠ [] → ¬ Took m out.logicalSender) ∧ ∃ tk : List MixOutput, m.sent = tk ++ m.output := by
  have hcl := Topology.closed_of_create hc
  have hord := t.orderly hall
  have hm' : (a.servers h).objs[i]? = some (r, m) := by rw [t.sim.servers]; exact hm
  have hr : r < 2 ^ 32 := by
    obtain ⟨subs, h1, h2, h3⟩ := hord 0 (by omega)
    exact ((System.rinv_run hL hc h1 (by omega) t.run h2).si h).small _ (List.mem_of_getElem? hm')
  obtain ⟨subs, h1, h2, h3⟩ := hord r hr
  have hi := System.rinv_run hL hc h1 hr t.run h2
  have hcm : m.crashed = false := (hi.si h).live (by rw [t.sim.servers]; exact t.alive hL hc hconn hall h) _ (List.mem_of_getElem? hm')
  obtain ⟨A, av⟩ := hi.v
  have hmx := System.mixerOf_eq (hi.si h) hm'
  obtain ⟨w0, order, m0, hord0, h0, hx, -, -⟩ := av.v.mixer h m hmx
  obtain ⟨l, ch, u, m1, hat, huh, hun, hat1, hadr⟩ := System.batch_known hcl h1 av.v hmx hcm ho
  obtain ⟨first, hf, hne⟩ := System.first_layer hcl hat
  obtain ⟨rqs', e1, -, e3, e4⟩ := C23_each_onion_once (c.sys.sender h r) out first hf hne
    (fun o hoo => ⟨m1, hadr o hoo, hconn h (huh ▸ System.host_mem hcl hat) _ (System.host_mem hcl hat1)⟩) _ hb
  cases e1
  refine ⟨e3, fun rq hrq => (e4 rq hrq).uuid, ?_, ?_, Mixer.exec_taken h0 hx⟩
  · obtain ⟨l', i', -, hu⟩ := hcl.mem_flatten.1 (System.mixAt_layer hcl hat).2.2
    rw [hun, hu]
    exact colon_not_mem_name _ _
  · intro hne' htk
    have hon : out.onions ≠ [] := by
      intro hnil
      unfold SendBatch at hb
      rw [hnil] at hb
      have hg : Onion.groupOnionsByHostname [] (c.sys.sender h r).topo = .ok [] := by
        show Onion.groupOnionsByHostname [] c.sys.topo = .ok []
        unfold Onion.groupOnionsByHostname Onion.groupBy
        rw [show c.sys.topo.layers[0]? = some first from hf]
        rfl
      rw [hg] at hb
      obtain ⟨order, hp, hs⟩ := hb
      rw [List.perm_nil.1 hp, SendHosts] at hs
      injection hs with hs
      exact hne' hs
    have hle := System.sent_once hcl h1 av.v hmx hcm ho hon
    obtain ⟨tk, h5, h6⟩ := htk
    rw [h5, ho, List.filter_append, List.length_append] at hle
    obtain ⟨b, hb1, hb2⟩ := List.mem_map.1 h6
    have h7 : 0 < (tk.filter fun b => b.logicalSender = out.logicalSender).length :=
      List.length_pos_of_mem (List.mem_filter.2 ⟨hb1, by simp [hb2]⟩)
    have h8 : 0 < ((out :: rest).filter fun b => b.logicalSender = out.logicalSender).length :=
      List.length_pos_of_mem (List.mem_filter.2 ⟨List.mem_cons_self, by simp⟩)
    omega


theorem makers_step (hL : 0 < L) (hc : Topology.createCascade hosts L = .ok c.sys.topo) (hconn : System.Connected c.sys hosts)
    (t : Track c conn evs s evs' a T) (hall : System.AllOrderly c.sys L (clientCalls evs)) {own : Str → Str → Nat → Nat} (k : Makers s own) (hst : Step c s e s') :
    ∃ own', Makers s' own' := by
  have kr : ∀ h h', Keep (s.conns h h').client.calls (s.conns h h').client.calls := fun _ _ => Keep.refl _
  cases hst with
  | client ha hs => exact ⟨own, k.same (evolve_setServer (evolve hs)) kr (fun _ _ => rfl) (fun _ _ => rfl)⟩
  | enter hw ho hs => exact ⟨own, k.same (evolve_setServer (evolve hs)) kr (fun _ _ => rfl) (fun _ _ => rfl)⟩
  | work hb hm hs hm' hin => exact ⟨own, k.same (evolve_setServer (evolve hs)) kr (fun _ _ => rfl) (fun _ _ => rfl)⟩
  | leave hb hm hs hm' hin hout => exact ⟨own, k.same (evolve_setServer (evolve hs)) kr (fun _ _ => rfl) (fun _ _ => rfl)⟩
  | take hw hm ho hs hb =>
    rename_i h i r m out rest srv resp rqs
    obtain ⟨b1, b2, b3, b4, tk, b5⟩ := t.batch hL hc hconn hall hm ho hb
    have k0 : Makers (s.setServer h srv) own := k.same (evolve_setServer (evolve hs)) kr (fun _ _ => rfl) (fun _ _ => rfl)
    have hw' : ∀ h0 i0, h0 ≠ h ∨ i0 ≠ i → upd2 s.worker h i ⟨rqs, false, .idle⟩ h0 i0 = s.worker h0 i0 := by
      intro h0 i0 hne
      have : ¬ (h0 = h ∧ i0 = i) := by tauto
      simp [upd2, this]
    have hws : upd2 s.worker h i ⟨rqs, false, .idle⟩ h i = ⟨rqs, false, .idle⟩ := by simp [upd2]
    have hnew : ∃ m', srv.objs[i]? = some (r, m') ∧ Took m' out.logicalSender := by
      obtain ⟨-, r1, m1, m', e1, e2, e3⟩ := srv_work hs
      rw [hm] at e1; cases e1
      refine ⟨m', by rw [e3, if_pos rfl], ?_⟩
      obtain ⟨o, q, e4, e5⟩ := (Mixer.step_output e2).2 rfl
      rw [ho] at e4; cases e4
      subst e5
      exact ⟨tk ++ [out], by simp [b5, ho], by simp⟩
    refine ⟨own, { call := k0.call, todo := ?_, hosts := ?_, apart := ?_, busy := ?_, stage := ?_ }⟩
    · intro h0 i0 rq hrq
      by_cases he : h0 = h ∧ i0 = i
      · obtain ⟨rfl, rfl⟩ := he
        dsimp only at hrq
        rw [hws] at hrq
        obtain ⟨m', e1, e2⟩ := hnew
        exact ⟨out.logicalSender, r, m', b2 rq hrq, b3, by simpa [State.setServer] using e1, e2⟩
      · dsimp only at hrq
        rw [hw' h0 i0 (by tauto)] at hrq
        exact k0.todo h0 i0 rq hrq
    · intro h0 i0
      dsimp only
      by_cases he : h0 = h ∧ i0 = i
      · obtain ⟨rfl, rfl⟩ := he
        rw [hws]; exact b1
      · rw [hw' h0 i0 (by tauto)]; exact k.hosts h0 i0
    · intro h0 i0 rq hrq j x hx hown
      dsimp only at hrq hx
      by_cases he : h0 = h ∧ i0 = i
      · obtain ⟨rfl, rfl⟩ := he
        rw [hws] at hrq
        obtain ⟨n, r1, m1, e1, e2, e3, e4⟩ := k.call h0 rq.host j x hx
        rw [hown, hm] at e3
        cases e3
        intro hu
        rw [e1, b2 rq hrq] at hu
        obtain ⟨-, -, hn⟩ := uuid_inj e2 b3 hu
        subst hn
        exact b4 (List.ne_nil_of_mem hrq) e4
      · rw [hw' h0 i0 (by tauto)] at hrq
        exact k.apart h0 i0 rq hrq j x hx hown
    · intro h0 h' j x hx hg
      have hbz := k.busy h0 h' j x hx hg
      dsimp only
      by_cases he : h0 = h ∧ own h0 h' j = i
      · obtain ⟨rfl, he⟩ := he
        rw [he, hw] at hbz; cases hbz
      · rw [hw' h0 _ (by tauto)]; exact hbz
    · intro h0 i0 h' j hs'
      dsimp only at hs'
      by_cases he : h0 = h ∧ i0 = i
      · obtain ⟨rfl, rfl⟩ := he
        rw [hws] at hs'; cases hs'
      · rw [hw' h0 i0 (by tauto)] at hs'
        exact k.stage h0 i0 h' j hs'
  | takeBad hw hm ho hs hb => exact (t.noPanic hL hc hconn hall _ _ _ _ _ _ _ _ _ hm ho hs hb).elim
  | panic hcr hw => exact ⟨own, k.same (evolve_setServer (evolve_objs rfl)) kr (fun _ _ => rfl) (fun _ _ => rfl)⟩
  | call hcr hw hs =>
    rename_i h i now rq rest d t1
    obtain ⟨A, hI⟩ := (t.wf.links h).conn rq.host
    obtain ⟨-, hcalls, -, -, -⟩ := frame_call hI hs
    have hcalls' : ∀ h0 h' (j : Nat) (x : Rrpc.DirectClient.Call Outcome), (upd2 s.conns h rq.host t1 h0 h').client.calls[j]? = some x →
        (s.conns h0 h').client.calls[j]? = some x ∨
        (h0 = h ∧ h' = rq.host ∧ j = (s.conns h0 h').client.calls.length ∧ x.uuid = rq.uuid ∧ x.got = none) := by
      intro h0 h' j x hx
      by_cases he : h0 = h ∧ h' = rq.host
      · obtain ⟨rfl, rfl⟩ := he
        rw [show upd2 s.conns h0 rq.host t1 h0 rq.host = t1 by simp [upd2], hcalls] at hx
        by_cases hj : j < (s.conns h0 rq.host).client.calls.length
        · rw [List.getElem?_append_left hj] at hx; exact .inl hx
        · rw [List.getElem?_append_right (by omega)] at hx
          have hj0 : j - (s.conns h0 rq.host).client.calls.length = 0 := by
            by_contra hne
            rw [List.getElem?_eq_none (by simp; omega)] at hx; cases hx
          rw [hj0] at hx
          simp at hx
          subst hx
          exact .inr ⟨rfl, rfl, by omega, rfl, rfl⟩
      · simp [upd2, he] at hx; exact .inl hx
    have hlen : ∀ h0 h', (s.conns h0 h').client.calls.length ≤ (upd2 s.conns h rq.host t1 h0 h').client.calls.length := by
      intro h0 h'
      by_cases he : h0 = h ∧ h' = rq.host
      · obtain ⟨rfl, rfl⟩ := he
        simp [upd2, hcalls]
      · simp [upd2, he]
    let own' : Str → Str → Nat → Nat := fun h0 h' j => if h0 = h ∧ h' = rq.host ∧ j = (s.conns h rq.host).client.calls.length then i else own h0 h' j
    have hold : ∀ h0 h' (j : Nat), j < (s.conns h0 h').client.calls.length → own' h0 h' j = own h0 h' j := by
      intro h0 h' j hj
      have : ¬ (h0 = h ∧ h' = rq.host ∧ j = (s.conns h rq.host).client.calls.length) := by
        rintro ⟨rfl, rfl, rfl⟩; omega
      simp only [own', if_neg this]
    have hnew : own' h rq.host (s.conns h rq.host).client.calls.length = i := by simp [own']
    have hw' : ∀ h0 i0 (v : Worker), h0 ≠ h ∨ i0 ≠ i → upd2 s.worker h i v h0 i0 = s.worker h0 i0 := by
      intro h0 i0 v hne
      have : ¬ (h0 = h ∧ i0 = i) := by tauto
      simp [upd2, this]
    have hws : ∀ v, upd2 s.worker h i v h i = v := by intro v; simp [upd2]
    have hbound : ∀ h0 h' (j : Nat) (x : Rrpc.DirectClient.Call Outcome), (s.conns h0 h').client.calls[j]? = some x → j < (s.conns h0 h').client.calls.length :=
      fun _ _ _ _ hx => (List.getElem?_eq_some_iff.1 hx).1
    have hhosts := k.hosts h i
    rw [hw] at hhosts
    simp only [List.map_cons, List.nodup_cons] at hhosts
    refine ⟨own', { call := ?_, todo := ?_, hosts := ?_, apart := ?_, busy := ?_, stage := ?_ }⟩
    · intro h0 h' j x hx
      rcases hcalls' h0 h' j x hx with hx | ⟨rfl, rfl, rfl, hu, -⟩
      · rw [hold h0 h' j (hbound _ _ _ _ hx)]; exact k.call h0 h' j x hx
      · rw [hnew, hu]
        exact k.todo h0 i rq (by rw [hw]; exact List.mem_cons_self)
    · intro h0 i0 rq' hrq
      dsimp only at hrq
      by_cases he : h0 = h ∧ i0 = i
      · obtain ⟨rfl, rfl⟩ := he
        rw [hws] at hrq
        exact k.todo h0 i0 rq' (by rw [hw]; exact List.mem_cons_of_mem _ hrq)
      · rw [hw' h0 i0 _ (by tauto)] at hrq
        exact k.todo h0 i0 rq' hrq
    · intro h0 i0
      dsimp only
      by_cases he : h0 = h ∧ i0 = i
      · obtain ⟨rfl, rfl⟩ := he
        rw [hws]; exact hhosts.2
      · rw [hw' h0 i0 _ (by tauto)]; exact k.hosts h0 i0
    · intro h0 i0 rq' hrq j x hx hown
      dsimp only at hrq
      rcases hcalls' h0 rq'.host j x hx with hx1 | ⟨rfl, h2, rfl, hu, -⟩
      · rw [hold h0 _ j (hbound _ _ _ _ hx1)] at hown
        by_cases he : h0 = h ∧ i0 = i
        · obtain ⟨rfl, rfl⟩ := he
          rw [hws] at hrq
          exact k.apart h0 i0 rq' (by rw [hw]; exact List.mem_cons_of_mem _ hrq) j x hx1 hown
        · rw [hw' h0 i0 _ (by tauto)] at hrq
          exact k.apart h0 i0 rq' hrq j x hx1 hown
      · rw [h2, hnew] at hown
        subst hown
        rw [hws] at hrq
        exact (hhosts.1 (h2 ▸ List.mem_map_of_mem (f := (·.host)) hrq)).elim
    · intro h0 h' j x hx hg
      dsimp only
      rcases hcalls' h0 h' j x hx with hx | ⟨rfl, rfl, rfl, hu, -⟩
      · rw [hold h0 h' j (hbound _ _ _ _ hx)]
        have hb := k.busy h0 h' j x hx hg
        by_cases he : h0 = h ∧ own h0 h' j = i
        · obtain ⟨rfl, he⟩ := he
          rw [he, hw] at hb; cases hb
        · rw [hw' h0 _ _ (by tauto)]; exact hb
      · rw [hnew, hws]; rfl
    · intro h0 i0 h' j hs'
      dsimp only at hs'
      by_cases he : h0 = h ∧ i0 = i
      · obtain ⟨rfl, rfl⟩ := he
        rw [hws] at hs'
        simp only [Stage.call, Option.some.injEq, Prod.mk.injEq] at hs'
        obtain ⟨rfl, rfl⟩ := hs'
        refine ⟨hnew, ?_⟩
        simp [upd2, hcalls]
      · rw [hw' h0 i0 _ (by tauto)] at hs'
        obtain ⟨e1, e2⟩ := k.stage h0 i0 h' j hs'
        exact ⟨by rw [hold h0 h' j e2]; exact e1, lt_of_lt_of_le e2 (hlen h0 h')⟩
  | enqueue hcr hw hs =>
    rename_i h h' i j todo d t1
    refine ⟨own, k.same (fun _ => Evolve.refl _) (keep_upd2 (keep_step (by simp) hs)) ?_ ?_⟩ <;>
    · intro h0 i0
      by_cases he : h0 = h ∧ i0 = i
      · obtain ⟨rfl, rfl⟩ := he; simp [upd2, hw, Stage.call]
      · simp [upd2, he]
  | await hcr hw hs =>
    rename_i h h' i j todo d t1
    refine ⟨own, k.same (fun _ => Evolve.refl _) (keep_upd2 (keep_step (by simp) hs)) ?_ ?_⟩ <;>
    · intro h0 i0
      by_cases he : h0 = h ∧ i0 = i
      · obtain ⟨rfl, rfl⟩ := he; simp [upd2, hw, Stage.call]
      · simp [upd2, he]
  | ret hcr hw hx hg =>
    rename_i h h' i j todo d x
    have hw' : ∀ h0 i0 (v : Worker), h0 ≠ h ∨ i0 ≠ i → upd2 s.worker h i v h0 i0 = s.worker h0 i0 := by
      intro h0 i0 v hne
      have : ¬ (h0 = h ∧ i0 = i) := by tauto
      simp [upd2, this]
    have hws : ∀ v, upd2 s.worker h i v h i = v := by intro v; simp [upd2]
    have htodo : ∀ h0 i0, (upd2 s.worker h i ⟨todo, d, .idle⟩ h0 i0).todo = (s.worker h0 i0).todo := by
      intro h0 i0
      by_cases he : h0 = h ∧ i0 = i
      · obtain ⟨rfl, rfl⟩ := he; rw [hws, hw]
      · rw [hw' h0 i0 _ (by tauto)]
    refine ⟨own, { call := k.call, todo := ?_, hosts := ?_, apart := ?_, busy := ?_, stage := ?_ }⟩
    · intro h0 i0; dsimp only; rw [htodo]; exact k.todo h0 i0
    · intro h0 i0; dsimp only; rw [htodo]; exact k.hosts h0 i0
    · intro h0 i0; dsimp only; rw [htodo]; exact k.apart h0 i0
    · intro h0 h1 j0 x0 hx0 hg0
      dsimp only at hx0 ⊢
      have hb := k.busy h0 h1 j0 x0 hx0 hg0
      by_cases he : h0 = h ∧ own h0 h1 j0 = i
      · obtain ⟨rfl, he⟩ := he
        rw [he, hw] at hb
        simp only [Stage.call, Option.some.injEq, Prod.mk.injEq] at hb
        obtain ⟨rfl, rfl⟩ := hb
        rw [hx] at hx0; cases hx0
        exact (hg hg0).elim
      · rw [hw' h0 _ _ (by tauto)]; exact hb
    · intro h0 i0 h1 j0 hs'
      dsimp only at hs'
      by_cases he : h0 = h ∧ i0 = i
      · obtain ⟨rfl, rfl⟩ := he
        rw [hws] at hs'; cases hs'
      · rw [hw' h0 i0 _ (by tauto)] at hs'
        exact k.stage h0 i0 h1 j0 hs'
  | conn he hcr hs =>
    rename_i h h' ev t1
    refine ⟨own, k.same (evolve_setServer (evolve_objs rfl)) (keep_upd2 (keep_step ?_ hs)) (fun _ _ => rfl) (fun _ _ => rfl)⟩
    rintro u now m a rfl
    cases he
  | start hq hn hv hd hs => exact ⟨own, k.same (evolve_setServer (evolve hs)) kr (fun _ _ => rfl) (fun _ _ => rfl)⟩
  | startBad hcr hq hn hv hd => exact ⟨own, k.same (fun _ => Evolve.refl _) kr (fun _ _ => rfl) (fun _ _ => rfl)⟩
  | serve hcr hn hs => exact ⟨own, k.same (fun _ => Evolve.refl _) (keep_upd2 (keep_step (by simp) hs)) (fun _ _ => rfl) (fun _ _ => rfl)⟩
  | reject hcr hq hn hv hs => exact ⟨own, k.same (fun _ => Evolve.refl _) (keep_upd2 (keep_step (by simp) hs)) (fun _ _ => rfl) (fun _ _ => rfl)⟩

/-- If the senders of two rounds do not call the same host at the same time, ids are used properly. -/
theorem proper_of_alone {own : Str → Str → Nat → Nat} (k : Makers s own) (ha : Alone c s e) : Proper c s e := by
  cases e with
  | call h i now =>
    intro rq rest d hw x hx hu hg
    obtain ⟨j, hj⟩ := List.getElem?_of_mem hx
    have hb := k.busy h rq.host j x hj hg
    by_cases he : own h rq.host j = i
    · exact k.apart h i rq (by rw [hw]; exact List.mem_cons_self) j x hj he hu
    · obtain ⟨h1, h2, h3⟩ := ha rq rest d hw _ he j
      cases hs : (s.worker h (own h rq.host j)).stage with
      | idle => rw [hs] at hb; cases hb
      | made h' j' => rw [hs] at hb h1; cases hb; exact h1 rfl
      | queued h' j' => rw [hs] at hb h2; cases hb; exact h2 rfl
      | waiting h' j' => rw [hs] at hb h3; cases hb; exact h3 rfl
  | conn h h' ev => cases ev <;> first | trivial | exact ha
  | _ => trivial

/-- If only one round is opened, the senders are alone. -/
theorem alone_of_only (hL : 0 < L) (hc : Topology.createCascade hosts L = .ok c.sys.topo) (t : Track c conn evs s evs' a T)
    (hall : System.AllOrderly c.sys L (clientCalls evs)) {own : Str → Str → Nat → Nat} (k : Makers s own) {r : Nat} (ho : OnlyRound r (clientCalls evs))
    (ha : Calm c s e) : Alone c s e := by
  have hone : ∀ h (i i' r1 r2 : Nat) (m1 m2 : Mixer.State), (s.servers h).objs[i]? = some (r1, m1) → (s.servers h).objs[i']? = some (r2, m2) → i = i' := by
    intro h i i' r1 r2 m1 m2 h1 h2
    have hord := t.orderly hall
    rw [← t.sim.servers] at h1 h2
    have key : ∀ (i r1 : Nat) (m1 : Mixer.State), (a.servers h).objs[i]? = some (r1, m1) → r1 = r ∧ r1 < 2 ^ 32 := by
      intro i r1 m1 h1
      have hr : r1 < 2 ^ 32 := by
        obtain ⟨subs, e1, e2, e3⟩ := hord 0 (by omega)
        exact ((System.rinv_run hL hc e1 (by omega) t.run e2).si h).small _ (List.mem_of_getElem? h1)
      obtain ⟨subs, e1, e2, e3⟩ := hord r1 hr
      have hi := System.rinv_run hL hc e1 hr t.run e2
      obtain ⟨ev, e4, e5⟩ := hi.opened h (by rw [System.mixerOf_eq (hi.si h) h1]; rfl)
      refine ⟨?_, hr⟩
      cases ev with
      | client h0 b =>
        cases b with
        | newRound r0 loads order =>
          simp only [System.isOpening, Bool.and_eq_true, decide_eq_true_eq] at e5
          obtain ⟨rfl, rfl⟩ := e5
          refine ho h0 r0 loads order ?_
          rw [← t.clients]
          exact mem_clients.2 e4
        | _ => cases e5
      | _ => cases e5
    obtain ⟨rfl, hr⟩ := key i r1 m1 h1
    obtain ⟨rfl, -⟩ := key i' r2 m2 h2
    obtain ⟨subs, e1, e2, e3⟩ := hord r2 hr
    exact ((System.rinv_run hL hc e1 hr t.run e2).si h).uniq i i' m1 m2 h1 h2
  cases e with
  | call h i now =>
    intro rq rest d hw i' hi' j
    obtain ⟨n, r1, m1, -, -, h1, -⟩ := k.todo h i rq (by rw [hw]; exact List.mem_cons_self)
    have key : (s.worker h i').stage.call ≠ some (rq.host, j) := by
      intro hs
      obtain ⟨h2, h3⟩ := k.stage h i' rq.host j hs
      obtain ⟨n', r2, m2, -, -, h4, -⟩ := k.call h rq.host j _ (List.getElem?_eq_getElem h3)
      rw [h2] at h4
      exact hi' (hone h i' i r2 r1 m2 m1 h4 h1)
    refine ⟨?_, ?_, ?_⟩ <;> (intro hs; rw [hs] at key; exact key rfl)
  | conn h h' ev => cases ev <;> first | trivial | exact ha
  | _ => trivial

/-- An execution whose steps can be shown proper with the invariants at hand is proper. -/
theorem proper_run_with {P : State ζ μ → Event ζ μ → Prop} (hS : Serves c) (hL : 0 < L) (hc : Topology.createCascade hosts L = .ok c.sys.topo)
    (hconn : System.Connected c.sys hosts)
    (t : Track c conn evs s evs' a T) {own : Str → Str → Nat → Nat} (k : Makers s own) {es : List (Event ζ μ)} (hrun : RunWith c P s es s')
    (hall : System.AllOrderly c.sys L (clientCalls (evs ++ es)))
    (hP : ∀ es1 s1 evs1 a1 T1 own1 e, es1 <+: es → Track c conn (evs ++ es1) s1 evs1 a1 T1 → Makers s1 own1 → P s1 e → Proper c s1 e) :
    ProperRun c s es s' ∧ ∃ evs1 a1 T1 own1, Track c conn (evs ++ es) s' evs1 a1 T1 ∧ Makers s' own1 := by
  induction hrun with
  | nil => exact ⟨.nil, _, _, _, _, by simpa using t, k⟩
  | snoc hr hp hst ih =>
    rename_i es0 s0 s1 e
    rw [← List.append_assoc, clientCalls_append] at hall
    have hall0 := allOrderly_init hall
    obtain ⟨h1, evs1, a1, T1, own1, t1, k1⟩ := ih hall0 fun es1 s1 evs1 a1 T1 own1 e hpre => hP es1 s1 evs1 a1 T1 own1 e (hpre.trans (List.prefix_append _ _))
    have hpr := hP es0 s0 evs1 a1 T1 own1 e (List.prefix_append _ _) t1 k1 hp
    obtain ⟨es', a', T', t', -⟩ := t1.step hS hL hc hconn hall0 hpr hst
    obtain ⟨own', k'⟩ := makers_step hL hc hconn t1 hall0 k1 hst
    exact ⟨h1.snoc hpr hst, _, _, _, own', by rw [← List.append_assoc]; exact t', k'⟩

theorem mono_with {P Q : State ζ μ → Event ζ μ → Prop} (h : ∀ s e, P s e → Q s e) {s0 : State ζ μ} (hr : RunWith c P s0 evs s) : RunWith c Q s0 evs s := by
  induction hr with
  | nil => exact .nil
  | snoc _ hp hst ih => exact ih.snoc (h _ _ hp) hst

theorem clientCalls_prefix {l l' : List (Event ζ μ)} (h : l <+: l') : ∀ x ∈ clientCalls l, x ∈ clientCalls l' := by
  obtain ⟨t, rfl⟩ := h
  intro x hx
  rw [clientCalls_append]
  exact List.mem_append_left _ hx

end

end Resmix.Stack
