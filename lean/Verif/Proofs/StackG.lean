import Verif.Proofs.StackF
import Verif.Proofs.SystemG
set_option autoImplicit false
/-
When nothing is left to do.
-/
namespace Resmix.Stack
open Resmix.Mixer (Messages MixOutput)
open Resmix.Sender
open Resmix.Rrpc.DirectSystem (Good Outcome Ran)
variable {ζ μ : Type} {c : Config ζ μ} {s s' : State ζ μ} {e : Event ζ μ}

/-- Who is inside a round object can go on, perhaps after a worker of the object. -/
theorem holder_moves {env : Mixer.Env} {m : Mixer.State} (hI : Mixer.Inv env m) (hc : m.crashed = false) (hcpu : 0 < env.nCPU) (htc : 0 < env.taskCap)
    (hh : m.holder ≠ none) : ∃ b m', b.internal ∧ b ≠ .recv ∧ Mixer.step env m b = some m' := by
  by_cases ha : Mixer.addStep env m = none
  · have hq : m.queue ≠ [] := by
      rcases hx : m.holder with _ | ⟨_ | ⟨n, _ | ⟨t, ts⟩⟩, rest⟩
      · exact absurd hx hh
      · cases rest with
        | nil => simp [Mixer.addStep, hx] at ha
        | cons M rest =>
          simp only [Mixer.addStep, hx] at ha
          split at ha <;> cases ha
      · obtain ⟨ms, hms⟩ := Option.isSome_iff_exists.1 (hI.cur n [] rest hx).1
        simp only [Mixer.addStep, hx, hms] at ha
        split at ha <;> cases ha
      · simp only [Mixer.addStep, hx] at ha
        split at ha
        · cases ha
        · split at ha
          · cases ha
          · next h => intro hq; rw [hq] at h; exact h htc
    obtain ⟨t, q, hq⟩ := List.exists_cons_of_ne_nil hq
    by_cases hb : m.busy.length < env.nCPU
    · exact ⟨.take, { m with queue := q, busy := m.busy ++ [t] }, trivial, by simp, by simp [Mixer.step, hc, hq, hb]⟩
    · have hlt : 0 < m.busy.length := by omega
      have : ∃ m', Mixer.step env m (.finish 0) = some m' := by
        unfold Mixer.step
        rw [if_neg (by simp [hc])]
        simp only [List.getElem?_eq_getElem hlt]
        exact ⟨_, rfl⟩
      obtain ⟨m', hm'⟩ := this
      exact ⟨.finish 0, m', trivial, by simp, hm'⟩
  · obtain ⟨m', hm'⟩ := Option.ne_none_iff_exists'.1 ha
    exact ⟨.addStep, m', trivial, by simp, by simp [Mixer.step, hc, hm']⟩

/-- A step of a round object is a step of the system. -/
theorem comp_work {h : Str} {i : Nat} {b : Mixer.Action} {srv : Server.State} {resp : Server.Resp} (hb : b ≠ .recv)
    (hs : Server.step (c.sys.server h) (s.servers h) (.work i b) = some (srv, resp)) : ∃ s', Step c s (.work h i b) s' := by
  obtain ⟨-, r, m, m', h1, -, h2⟩ := srv_work hs
  have h3 : srv.objs[i]? = some (r, m') := by rw [h2, if_pos rfl]
  by_cases hm : m.holder = none
  · exact ⟨_, .work hb h1 hs h3 (.inl hm)⟩
  · by_cases hm' : m'.holder = none
    · exact ⟨_, .leave hb h1 hs h3 hm hm'⟩
    · exact ⟨_, .work hb h1 hs h3 (.inr hm')⟩

section
variable {hosts : List Str} {L : Nat} {conn : Str → Bool} {evs : List (Event ζ μ)} {evs' : List System.Event} {a : System.State} {T : List (Loc × Request)}

theorem rest_abs (hS : Serves c) (hL : 0 < L) (hc : Topology.createCascade hosts L = .ok c.sys.topo) (hconn : System.Connected c.sys hosts)
    (hcpu : ∀ h r, 0 < (c.sys.env h r).nCPU) (htask : ∀ h r, 0 < (c.sys.env h r).taskCap)
    (t : Track c conn evs s evs' a T) (hall : System.AllOrderly c.sys L (clientCalls evs)) (hrest : AtRest c s) : T = [] ∧ System.AtRest c.sys a := by
  have w := t.wf
  have alive := t.alive hL hc hconn hall
  have hord := t.orderly hall
  -- nobody is inside a round object
  have hhold : ∀ h (i r : Nat) (m : Mixer.State), (s.servers h).objs[i]? = some (r, m) → m.crashed = false ∧ m.holder = none := by
    intro h i r m hm
    have hm' : (a.servers h).objs[i]? = some (r, m) := by rw [t.sim.servers]; exact hm
    have hr : r < 2 ^ 32 := by
      obtain ⟨subs, h1, h2, h3⟩ := hord 0 (by omega)
      exact ((System.rinv_run hL hc h1 (by omega) t.run h2).si h).small _ (List.mem_of_getElem? hm')
    obtain ⟨subs, h1, h2, h3⟩ := hord r hr
    have hi := System.rinv_run hL hc h1 hr t.run h2
    have hcm : m.crashed = false := (hi.si h).live (by rw [t.sim.servers]; exact alive h) _ (List.mem_of_getElem? hm')
    refine ⟨hcm, ?_⟩
    obtain ⟨A, av⟩ := hi.v
    obtain ⟨w0, order, m0, hord0, h0, hx, hw, hexp⟩ := av.v.mixer h m (System.mixerOf_eq (hi.si h) hm')
    have hI := Mixer.exec_inv (Mixer.inv_init h0) hx hcm
    by_contra hne
    obtain ⟨b, m', h4, h5, h6⟩ := holder_moves hI hcm (hcpu h r) (htask h r) hne
    obtain ⟨srv, resp, hs⟩ := System.server_work (cfg := c.sys.server h) (alive h) hm h4 h6
    obtain ⟨s', hst⟩ := comp_work h5 hs
    exact hrest (.work h i b) _ rfl trivial hst
  -- nobody waits to enter
  have hwait : ∀ h, (s.servers h).waiting = [] := by
    intro h
    by_contra hne
    obtain ⟨⟨i, ms⟩, l, hl⟩ := List.exists_cons_of_ne_nil hne
    have hk : (s.servers h).waiting[0]? = some (i, ms) := by rw [hl]; rfl
    have hbound : i < (s.servers h).objs.length := by
      obtain ⟨subs, h1, h2, h3⟩ := hord 0 (by omega)
      have := ((System.rinv_run hL hc h1 (by omega) t.run h2).si h).wait (i, ms) (by rw [t.sim.servers, hl]; exact List.mem_cons_self)
      rw [t.sim.servers] at this; exact this
    obtain ⟨r, m, hm⟩ : ∃ r m, (s.servers h).objs[i]? = some (r, m) := ⟨_, _, List.getElem?_eq_getElem hbound⟩
    obtain ⟨hcm, hh⟩ := hhold h i r m hm
    obtain ⟨srv, resp, hs⟩ : ∃ srv resp, Server.step (c.sys.server h) (s.servers h) (.enter 0) = some (srv, resp) := by
      unfold Server.step
      rw [if_neg (by simp [alive h])]
      simp only [hk, hm]
      have : Mixer.step ((c.sys.server h).env r) m (.call ms) = some { m with holder := some ⟨none, ms⟩ } := by simp [Mixer.step, hcm, hh]
      simp only [this]
      exact ⟨_, _, rfl⟩
    have hlen := (w.hands h).len
    rw [hl] at hlen
    obtain ⟨o, ho⟩ : ∃ o, (s.owners h)[0]? = some o := ⟨_, List.getElem?_eq_getElem (by rw [hlen]; simp)⟩
    exact hrest (.enter h 0) _ rfl trivial (.enter hk ho hs)
  -- no handler works
  have hrun : ∀ h h', s.handling h h' ≠ some .running := by
    intro h h' hr
    rcases (w.hands h').running h hr with h1 | ⟨i, h1⟩
    · have := (w.hands h').len
      rw [hwait h'] at this
      rw [List.length_eq_zero_iff.1 this] at h1; cases h1
    · obtain ⟨r, m, h2, h3⟩ := (w.hands h').inside i (by rw [h1]; simp)
      exact h3 (hhold h' i r m h2).2
  -- all calls have returned
  have hans : ∀ h h', ∃ A, Rrpc.DirectSystem.Inv (c.link h h') (s.conns h h') A ∧ ∀ (j : Nat) (x : Rrpc.DirectClient.Call Outcome),
      (s.conns h h').client.calls[j]? = some x → j ∈ A ∧ x.got ≠ none := by
    intro h h'
    obtain ⟨A, hI⟩ := (w.links h).conn h'
    refine ⟨A, hI, ?_⟩
    have hin : ∀ ev : Rrpc.DirectSystem.Event ζ μ, Inner ev = true → Own (Event.conn h h' ev) = true → Proper c s (.conn h h' ev) →
        Rrpc.DirectSystem.step (c.link h h') (s.conns h h') ev = none := by
      intro ev h1 h2 h3
      by_contra hne
      obtain ⟨t', ht'⟩ := Option.ne_none_iff_exists'.1 hne
      exact hrest _ _ h2 h3 (.conn h1 (alive _) ht')
    refine hI.answered (hS.window h h') (hin _ rfl rfl trivial) (hin _ rfl rfl trivial) (hin _ rfl rfl trivial) ?_ (hin _ rfl rfl trivial) (hin _ rfl rfl trivial) ?_ ?_
    · intro hdown
      by_contra hne
      obtain ⟨⟨j, q⟩, hq⟩ := Option.ne_none_iff_exists'.1 hne
      cases hh : s.handling h h' with
      | none =>
        obtain ⟨x, d, o, f, h1, h2, h3, -, h4⟩ := Rrpc.DirectSystem.accepted hI hq c.ack []
        obtain ⟨r, ms, h5⟩ := ((w.links h).args h' d (List.mem_of_getElem? h2)).2
        obtain ⟨srv, resp, hs⟩ : ∃ srv resp, Server.step (c.sys.server h') (s.servers h') (.addMessages r ms) = some (srv, resp) := by
          unfold Server.step
          rw [if_neg (by simp [alive h'])]
          simp only
          split
          · exact ⟨_, _, rfl⟩
          · exact ⟨_, _, rfl⟩
        exact hrest (.start h h' []) _ rfl trivial (.start hq hh h4 h5 hs)
      | some y =>
        cases y with
        | running => exact hrun h h' hh
        | done res =>
          have hs : ∃ t', Rrpc.DirectSystem.step (c.link h h') (s.conns h h') (.serve (fun _ _ _ _ => res) []) = some t' := by
            simp only [Rrpc.DirectSystem.step, hq, hdown, List.length_nil, if_pos (hS.window h h')]
            exact ⟨_, rfl⟩
          obtain ⟨t', hs⟩ := hs
          exact hrest (.serve h h' []) _ rfl trivial (.serve (alive h') hh hs)
    · intro j
      by_contra hne
      obtain ⟨t', ht'⟩ := Option.ne_none_iff_exists'.1 hne
      have hj : j ∉ (s.conns h h').entered ∧ j < (s.conns h h').client.calls.length := by
        have h0 := ht'
        simp only [Rrpc.DirectSystem.step] at h0
        split at h0
        · cases h0
        · next hj =>
          refine ⟨hj, ?_⟩
          simp only [Rrpc.DirectClient.step, hI.alive, Bool.false_eq_true, if_false] at h0
          by_contra hlt
          simp [hlt] at h0
      obtain ⟨i, hi⟩ := (w.links h).made h' j hj.2 hj.1
      rcases hw : s.worker h i with ⟨todo, d, st⟩
      rw [hw] at hi
      dsimp only at hi
      subst hi
      exact hrest (.enqueue h i) _ rfl trivial (.enqueue (alive h) hw ht')
    · intro j x hx hent
      by_contra hne
      have hf : x.awaiting = false := by simpa using hne
      obtain ⟨i, hi⟩ := (w.links h).waits h' j x hx hf
      rcases hi with hi | hi
      · exact (w.links h).fresh i h' j hi hent
      · rcases hw : s.worker h i with ⟨todo, d, st⟩
        rw [hw] at hi
        dsimp only at hi
        subst hi
        have hs : ∃ t', Rrpc.DirectSystem.step (c.link h h') (s.conns h h') (.await j) = some t' := by
          simp only [Rrpc.DirectSystem.step, Rrpc.DirectSystem.local', Rrpc.DirectClient.step, hI.alive, Bool.false_eq_true, if_false, hx]
          exact ⟨_, rfl⟩
        obtain ⟨t', hs⟩ := hs
        exact hrest (.await h i) _ rfl trivial (.await (alive h) hw hs)
  -- the workers have nothing to do
  have hwork : ∀ h i, s.worker h i = ⟨[], false, .idle⟩ := by
    intro h i
    have hcalm := (w.links h).calm i
    rcases hw : s.worker h i with ⟨todo, d, st⟩
    rw [hw] at hcalm
    dsimp only at hcalm
    subst hcalm
    have hst : st = .idle := by
      cases hst : st with
      | idle => rfl
      | made h' j =>
        exfalso
        subst hst
        obtain ⟨A, hI, hA⟩ := hans h h'
        have hlt := (w.links h).stage i h' j (by rw [hw]; rfl)
        have := (hA j _ (List.getElem?_eq_getElem hlt)).1
        exact (w.links h).fresh i h' j (by rw [hw]) (hI.sub this)
      | queued h' j =>
        exfalso
        subst hst
        obtain ⟨A, hI, hA⟩ := hans h h'
        have hlt := (w.links h).stage i h' j (by rw [hw]; rfl)
        have hs : ∃ t', Rrpc.DirectSystem.step (c.link h h') (s.conns h h') (.await j) = some t' := by
          simp only [Rrpc.DirectSystem.step, Rrpc.DirectSystem.local', Rrpc.DirectClient.step, hI.alive, Bool.false_eq_true, if_false, List.getElem?_eq_getElem hlt]
          exact ⟨_, rfl⟩
        obtain ⟨t', hs⟩ := hs
        exact hrest (.await h i) _ rfl trivial (.await (alive h) hw hs)
      | waiting h' j =>
        exfalso
        subst hst
        obtain ⟨A, hI, hA⟩ := hans h h'
        have hlt := (w.links h).stage i h' j (by rw [hw]; rfl)
        exact hrest (.ret h i) _ rfl trivial (.ret (alive h) hw (List.getElem?_eq_getElem hlt) (hA j _ (List.getElem?_eq_getElem hlt)).2)
    subst hst
    cases todo with
    | nil => rfl
    | cons rq rest =>
      exfalso
      obtain ⟨A, hI, hA⟩ := hans h rq.host
      have hs : ∃ t', Rrpc.DirectSystem.step (c.link h rq.host) (s.conns h rq.host) (.call rq.uuid 0 rq.method (c.enc rq.round rq.messages)) = some t' := by
        simp only [Rrpc.DirectSystem.step, Rrpc.DirectClient.step, hI.alive, Bool.false_eq_true, if_false]
        exact ⟨_, rfl⟩
      obtain ⟨t', hs⟩ := hs
      refine hrest (.call h i 0) _ rfl ?_ (.call (alive h) hw hs)
      intro rq' rest' d' hw' x hx _
      rw [hw] at hw'
      simp only [Worker.mk.injEq, List.cons.injEq] at hw'
      obtain ⟨⟨rfl, -⟩, -⟩ := hw'
      obtain ⟨j, hj⟩ := List.getElem?_of_mem hx
      exact (hA j x hj).2
  -- nothing is in flight
  have hT : T = [] := by
    by_contra hne
    obtain ⟨⟨l, rq⟩, hx⟩ := List.exists_mem_of_ne_nil _ hne
    have hl := (t.sim.led.live l).1 (List.mem_map_of_mem (f := Prod.fst) hx)
    cases l with
    | todo h i k => simp [Live, hwork h i] at hl
    | call h h' j =>
      obtain ⟨hj, hns⟩ := hl
      obtain ⟨A, hI, hA⟩ := hans h h'
      rw [hI.len] at hj
      have := (hA j _ (List.getElem?_eq_getElem hj)).1
      exact hns (.inl (by rw [hI.ran]; simp [this]))
  refine ⟨hT, ?_⟩
  intro ev a2 hst
  have hsv := t.sim.servers
  cases hst with
  | client ha hs => exact .inl ⟨_, _, rfl⟩
  | drop hk => exact .inr ⟨_, rfl⟩
  | deliver hk hs => rw [t.sim.net, hT] at hk; simp at hk
  | work ha hs =>
    rename_i h act srv resp
    exfalso
    rw [hsv] at hs
    cases act with
    | enter k =>
      unfold Server.step at hs
      rw [if_neg (by simp [alive h])] at hs
      simp [hwait h] at hs
    | work i b =>
      obtain ⟨s', hst⟩ := comp_work ha hs
      exact hrest (.work h i b) _ rfl trivial hst
    | _ => exact ha
  | forward hm ho hs hb =>
    rename_i h i r m out rest srv resp rqs
    exfalso
    rw [hsv] at hm hs
    exact hrest (.take h i) _ rfl trivial (.take (hwork h i) hm ho hs hb)
  | panic hm ho hs hb =>
    rename_i h i r m out rest srv resp rqs
    exfalso
    rw [hsv] at hm hs
    exact t.noPanic hL hc hconn hall _ _ _ _ _ _ _ _ _ hm ho hs hb

end

end Resmix.Stack
