import Verif.Proofs.StackD
import Verif.Proofs.StackPot
import Verif.Proofs.SystemI
set_option autoImplicit false
/-
The system over its call layer behaves like the system of Model/System.
-/
namespace Resmix.Stack
open Resmix.Mixer (Messages MixOutput)
open Resmix.Sender
open Resmix.Rrpc (SvcErr)
open Resmix.Rrpc.DirectSystem (Good Kept Frame Outcome frame_inner frame_call frame_enqueue frame_await frame_serve accepted Ran)
variable {ζ μ : Type} {c : Config ζ μ} {s s' : State ζ μ} {e : Event ζ μ}

/-- The system of Model/System that corresponds. -/
structure Sim (c : Config ζ μ) (s : State ζ μ) (a : System.State) (T : List (Loc × Request)) : Prop where
  servers : a.servers = s.servers
  net : a.net = T.map Prod.snd
  led : Ledger c s T

/-- Steps that have a counterpart in Model/System. -/
def Abs : Event ζ μ → Bool
  | .client _ _ => true
  | .enter _ _ => true
  | .work _ _ _ => true
  | .take _ _ => true
  | .start _ _ _ => true
  | _ => false

def isStartE : Event ζ μ → Bool
  | .start _ _ _ => true
  | _ => false

/-- A client's call. -/
def isClient : System.Event → Bool
  | .client _ _ => true
  | _ => false

theorem set_servers {a : System.State} {h : Str} {srv : Server.State} (hs : a.servers = s.servers) : (a.setServer h srv).servers = (s.setServer h srv).servers := by
  funext h'; simp [System.State.setServer, State.setServer, hs]

/-- One step and its counterpart. -/
structure Stepped (c : Config ζ μ) (s : State ζ μ) (e : Event ζ μ) (s' : State ζ μ) (a : System.State) (T : List (Loc × Request)) (es : List System.Event)
    (a' : System.State) (T' : List (Loc × Request)) : Prop where
  sim : Sim c s' a' T'
  run : es = [] ∧ a' = a ∧ Abs e = false ∨ (Abs e = true ∧ ∃ ev, es = [ev] ∧ System.Step c.sys a ev a' ∧ (∀ r, Keeps c r s e → System.Keeps r a ev) ∧ ∀ k, ev ≠ .drop k)
  clients : es.filter isClient = clientCalls [e]
  count : open_ T' + (if isStartE e then 1 else 0) = open_ T + (if isCallE e then 1 else 0)

theorem sim_step (hS : Serves c) (w : Wf c s) (hnp : NoPanic c s) (hp : Proper c s e) (hst : Step c s e s') {a : System.State} {T : List (Loc × Request)}
    (m : Sim c s a T) : ∃ es a' T', Stepped c s e s' a T es a' T' := by
  cases hst with
  | client ha hs =>
    rename_i h b srv resp
    rw [← m.servers] at hs
    refine ⟨[.client h b], a.setServer h srv, T, ⟨set_servers m.servers, m.net, m.led.same (fun _ _ => rfl) (fun _ _ => rfl) (fun _ _ _ => Iff.rfl)⟩,
      .inr ⟨rfl, _, rfl, .client ha hs, fun r hk => ?_, fun k => by simp⟩, rfl, rfl⟩
    cases b <;> first | trivial | (intro hr; rw [m.servers]; exact hk hr)
  | enter hw ho hs =>
    rename_i h k i ms o srv resp
    rw [← m.servers] at hs
    exact ⟨[.work h (.enter k)], a.setServer h srv, T, ⟨set_servers m.servers, m.net, m.led.same (fun _ _ => rfl) (fun _ _ => rfl) (fun _ _ _ => Iff.rfl)⟩,
      .inr ⟨rfl, _, rfl, .work trivial hs, fun r hk => trivial, fun k => by simp⟩, rfl, rfl⟩
  | work hb hm hs hm' hin =>
    rename_i h i r b m1 m1' srv resp
    rw [← m.servers] at hs
    exact ⟨[.work h (.work i b)], a.setServer h srv, T, ⟨set_servers m.servers, m.net, m.led.same (fun _ _ => rfl) (fun _ _ => rfl) (fun _ _ _ => Iff.rfl)⟩,
      .inr ⟨rfl, _, rfl, .work hb hs, fun r hk => trivial, fun k => by simp⟩, rfl, rfl⟩
  | leave hb hm hs hm' hin hout =>
    rename_i h i r b m1 m1' srv resp
    rw [← m.servers] at hs
    refine ⟨[.work h (.work i b)], a.setServer h srv, T, ⟨set_servers m.servers, m.net, m.led.same (fun _ _ => rfl) (fun _ _ => rfl) (fun h0 h1 j => ?_)⟩,
      .inr ⟨rfl, _, rfl, .work hb hs, fun r hk => trivial, fun k => by simp⟩, rfl, rfl⟩
    have : release c s.handling h (s.inside h i) h0 h1 ≠ none ↔ s.handling h0 h1 ≠ none := by
      rcases hx : s.inside h i with _ | _ | h2
      · exact Iff.rfl
      · exact Iff.rfl
      · show upd2 s.handling h2 h _ h0 h1 ≠ none ↔ _
        by_cases he : h0 = h2 ∧ h1 = h
        · obtain ⟨rfl, rfl⟩ := he
          have := (w.hands h1).owned' h0 i hx
          rw [upd2_same, this]; simp
        · rw [upd2_ne _ _ he]
    exact or_congr Iff.rfl (and_congr Iff.rfl this)
  | take hw hm ho hs hb =>
    rename_i h i r m1 out rest srv resp rqs
    rw [← m.servers] at hs hm
    obtain ⟨T', l', h1, h2⟩ := m.led.take (s' := { s.setServer h srv with worker := upd2 s.worker h i ⟨rqs, false, .idle⟩ }) (h := h) (i := i) (rqs := rqs)
      (by rw [hw]) (by dsimp only; rw [upd2_same]) (fun h2 i2 hne => by dsimp only; rw [upd2_ne _ _ hne]) rfl rfl
    exact ⟨[.forward h i], { a.setServer h srv with net := a.net ++ rqs }, T', ⟨set_servers m.servers, by rw [h1, m.net], l'⟩,
      .inr ⟨rfl, _, rfl, .forward hm ho hs hb, fun r hk => trivial, fun k => by simp⟩, rfl, h2⟩
  | takeBad hw hm ho hs hb => exact absurd hb (hnp _ _ _ _ _ _ _ _ _ hm ho hs)
  | panic hc hw =>
    rename_i h i
    have := (w.links h).calm i
    rw [hw] at this; cases this
  | call hc hw hs =>
    rename_i h i now rq rest d t
    obtain ⟨A, hI⟩ := (w.links h).conn rq.host
    have hr := (w.links h).todo i rq (by rw [hw]; exact List.mem_cons_self)
    obtain ⟨f1, f2, f3, f4, f5⟩ := frame_call hI hs
    have hstart : ∀ h1 h2 j, Started { s with conns := upd2 s.conns h rq.host t, worker := upd2 s.worker h i ⟨rest, d, .made rq.host (s.conns h rq.host).client.calls.length⟩ } h1 h2 j ↔
        Started s h1 h2 j := by
      intro h1 h2 j
      by_cases he : h1 = h ∧ h2 = rq.host
      · obtain ⟨rfl, rfl⟩ := he
        simp only [Started, upd2_same, f3, f5]
      · simp only [Started, upd2_ne _ _ he]
    obtain ⟨T', l', h1, h2⟩ := m.led.call (s' := { s with conns := upd2 s.conns h rq.host t, worker := upd2 s.worker h i ⟨rest, d, .made rq.host (s.conns h rq.host).client.calls.length⟩ })
      (h := h) (i := i) (rq := rq) (rest := rest) (by rw [hw]) (by dsimp only; rw [upd2_same]) (fun h2 i2 hne => by dsimp only; rw [upd2_ne _ _ hne])
      (by dsimp only; rw [upd2_same]; exact f1) (fun h1 h2 hne => by dsimp only; rw [upd2_ne _ _ hne]) (hS.codec rq.round rq.messages hr.2) hstart (by
        rw [hI.len]
        rintro (hj | ⟨⟨q, hq⟩, -⟩)
        · exact absurd (hI.run_made hj) (by simp)
        · have := hI.bound _ (hI.serving_new hq).2; omega)
    exact ⟨[], a, T', ⟨m.servers, by rw [h1, m.net], l'⟩, .inl ⟨rfl, rfl, rfl⟩, rfl, h2⟩
  | enqueue hc hw hs =>
    rename_i h h' i j todo d t
    obtain ⟨A, hI⟩ := (w.links h).conn h'
    obtain ⟨f1, f2, f3, f4, f5⟩ := frame_enqueue hI hs
    refine ⟨[], a, T, ⟨m.servers, m.net, m.led.same (fun h1 i1 => ?_) (fun h1 h2 => ?_) (fun h1 h2 j => ?_)⟩, .inl ⟨rfl, rfl, rfl⟩, rfl, rfl⟩
    · by_cases he : h1 = h ∧ i1 = i
      · obtain ⟨rfl, rfl⟩ := he; simp only [upd2_same, hw]
      · simp only [upd2_ne _ _ he]
    · by_cases he : h1 = h ∧ h2 = h'
      · obtain ⟨rfl, rfl⟩ := he; simp only [upd2_same, f1]
      · simp only [upd2_ne _ _ he]
    · by_cases he : h1 = h ∧ h2 = h'
      · obtain ⟨rfl, rfl⟩ := he; simp only [Started, upd2_same, f3, f5]
      · simp only [Started, upd2_ne _ _ he]
  | await hc hw hs =>
    rename_i h h' i j todo d t
    obtain ⟨A, hI⟩ := (w.links h).conn h'
    obtain ⟨f1, f3, -, f5, -⟩ := frame_await hI hs
    refine ⟨[], a, T, ⟨m.servers, m.net, m.led.same (fun h1 i1 => ?_) (fun h1 h2 => ?_) (fun h1 h2 j => ?_)⟩, .inl ⟨rfl, rfl, rfl⟩, rfl, rfl⟩
    · by_cases he : h1 = h ∧ i1 = i
      · obtain ⟨rfl, rfl⟩ := he; simp only [upd2_same, hw]
      · simp only [upd2_ne _ _ he]
    · by_cases he : h1 = h ∧ h2 = h'
      · obtain ⟨rfl, rfl⟩ := he; simp only [upd2_same, f1]
      · simp only [upd2_ne _ _ he]
    · by_cases he : h1 = h ∧ h2 = h'
      · obtain ⟨rfl, rfl⟩ := he; simp only [Started, upd2_same, f3, f5]
      · simp only [Started, upd2_ne _ _ he]
  | ret hc hw hx hg =>
    rename_i h h' i j todo d x
    refine ⟨[], a, T, ⟨m.servers, m.net, m.led.same (fun h1 i1 => ?_) (fun h1 h2 => rfl) (fun h1 h2 j => Iff.rfl)⟩, .inl ⟨rfl, rfl, rfl⟩, rfl, rfl⟩
    by_cases he : h1 = h ∧ i1 = i
    · obtain ⟨rfl, rfl⟩ := he; simp only [upd2_same, hw]
    · simp only [upd2_ne _ _ he]
  | conn he hc hs =>
    rename_i h h' ev t
    obtain ⟨A, hI⟩ := (w.links h).conn h'
    have hg := good_conn hp he
    have f := frame_inner hI he hg hs
    obtain ⟨A', hI'⟩ := hI.stepped hg hs
    refine ⟨[], a, T, ⟨?_, m.net, m.led.same (fun h1 i1 => rfl) (fun h1 h2 => ?_) (fun h1 h2 j => ?_)⟩, .inl ⟨rfl, rfl, rfl⟩, rfl, rfl⟩
    · rw [m.servers]
      funext h1
      by_cases h2 : h1 = h
      · subst h2; simp [State.setServer, hI'.alive]
      · simp [State.setServer, h2]
    · by_cases he : h1 = h ∧ h2 = h'
      · obtain ⟨rfl, rfl⟩ := he; simp only [upd2_same, f.data]
      · simp only [upd2_ne _ _ he]
    · by_cases he : h1 = h ∧ h2 = h'
      · obtain ⟨rfl, rfl⟩ := he
        rcases f.serving with h3 | h3
        · simp only [Started, upd2_same, f.runs, h3]; rfl
        · have hn : s.handling h1 h2 = none := by
            by_contra hne; exact (w.hands h2).hand h1 hne h3
          have hn' : (s.setServer h1 { s.servers h1 with crashed := (s.servers h1).crashed || t.client.crashed }).handling h1 h2 = none := hn
          simp only [Started, upd2_same, f.runs, hn, hn', ne_eq, not_true, and_false]
      · simp only [Started, upd2_ne _ _ he]; rfl
  | start hq hn hv hd hs =>
    rename_i h h' cache j q o f u args r ms srv resp
    obtain ⟨A, hI⟩ := (w.links h).conn h'
    obtain ⟨x, d, o', f', h1, h2, h3, -, h4⟩ := accepted hI hq c.ack cache
    rw [h4] at hv
    simp only [List.cons.injEq, Prod.mk.injEq, and_true] at hv
    obtain rfl := hv.2.2.2
    have hlive : Live s (.call h h' j) := by
      refine ⟨(List.getElem?_eq_some_iff.1 h2).1, ?_⟩
      rintro (hj | ⟨-, hj⟩)
      · exact (hI.serving_new hq).1 hj
      · exact hj hn
    obtain ⟨k, rq, k1, ⟨k2, d', k3, k4⟩, k5, k6⟩ := m.led.start (s' := { s.setServer h' srv with
        owners := upd s.owners h' (admit (.addMessages r ms) resp (some h) (s.owners h'))
        handling := upd2 s.handling h h' (some (handlingOf c resp)) }) hlive rfl rfl (fun g1 g2 k => by
      by_cases he : g1 = h ∧ g2 = h'
      · obtain ⟨rfl, rfl⟩ := he
        have : (s.setServer g2 srv).conns = s.conns := rfl
        simp only [Started, upd2_same, this, hn, hq]
        simp [eq_comm]
      · simp only [Started, upd2_ne _ _ he]
        constructor
        · exact fun h => .inl h
        · rintro (h | ⟨h3, h4, -⟩)
          · exact h
          · exact absurd ⟨h3, h4⟩ he)
    rw [h2] at k3; cases k3
    rw [hd] at k4
    simp only [Option.some.injEq, Prod.mk.injEq] at k4
    obtain ⟨rfl, rfl⟩ := k4
    subst k2
    rw [← m.servers] at hs
    have hk : a.net[k]? = some rq := by rw [m.net, List.getElem?_map, k1]; rfl
    refine ⟨[.deliver k], { a.setServer rq.host srv with net := a.net.eraseIdx k }, T.eraseIdx k, ⟨set_servers m.servers, ?_, k5⟩,
      .inr ⟨rfl, _, rfl, .deliver hk hs, fun r hK => ?_, fun k => by simp⟩, rfl, k6⟩
    · show a.net.eraseIdx k = _
      rw [m.net, List.eraseIdx_map]
    · intro rq' hrq' hr
      rw [hk] at hrq'; cases hrq'
      subst hr
      rw [m.servers]
      exact hK j q rq.messages hq (by rw [h3]; exact hd)
  | startBad hc hq hn hv hd =>
    rename_i h h' cache j q o f u args
    obtain ⟨A, hI⟩ := (w.links h).conn h'
    obtain ⟨x, d, o', f', -, h2, -, -, h3⟩ := accepted hI hq c.ack cache
    rw [h3] at hv
    simp only [List.cons.injEq, Prod.mk.injEq, and_true] at hv
    obtain ⟨r, ms, h4⟩ := ((w.links h).args h' d (List.mem_of_getElem? h2)).2
    rw [hv.2.2.2, hd] at h4; cases h4
  | serve hc hn hs =>
    rename_i h h' cache res t
    obtain ⟨A, hI⟩ := (w.links h).conn h'
    have hg : Good (c.link h h') (s.conns h h') (.serve (fun _ _ _ _ => res) cache) := fun _ _ _ _ => (w.hands h').plain h res hn
    obtain ⟨f1, f2, f3, f4, j, q, x, f5, f6, f7⟩ := frame_serve hI hg hs
    refine ⟨[], a, T, ⟨m.servers, m.net, m.led.same (fun h1 i1 => rfl) (fun h1 h2 => ?_) (fun h1 h2 k => ?_)⟩, .inl ⟨rfl, rfl, rfl⟩, rfl, rfl⟩
    · by_cases he : h1 = h ∧ h2 = h'
      · obtain ⟨rfl, rfl⟩ := he; simp only [upd2_same, f1]
      · simp only [upd2_ne _ _ he]
    · by_cases he : h1 = h ∧ h2 = h'
      · obtain ⟨rfl, rfl⟩ := he
        simp only [Started, upd2_same, f6, f4, f5, hn, List.map_append, List.map_cons, List.map_nil, f7, List.mem_append, List.mem_singleton]
        simp [eq_comm]
      · simp only [Started, upd2_ne _ _ he]
  | reject hc hq hn hv hs =>
    rename_i h h' cache j q t
    obtain ⟨A, hI⟩ := (w.links h).conn h'
    obtain ⟨x, d, o', f', -, -, -, -, h3⟩ := accepted hI hq c.ack cache
    rw [h3] at hv; cases hv

end Resmix.Stack
