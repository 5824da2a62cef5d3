import Verif.Proofs.SystemG
import Mathlib.Algebra.BigOperators.Group.Finset.Basic
set_option autoImplicit false
/-
A measure of the work left in the whole system (C87): every step of the system itself uses up some of it.
-/
namespace Resmix.System
open Resmix.Mixer (Messages MixOutput callOf onionsFor onionsOf resultOf workloadOf)
open Resmix.Onion (Addresses Peels groupOnionsByHostname groupOnionsByMixName)
open Resmix.Topology (Closed)
open Resmix.Sender

variable {c : Config} {r : Nat} {subs : List Submission} {hosts : List Str} {L : Nat}

def onSize (bs : List MixOutput) : Nat := (bs.map fun b => b.onions.length).sum
def callCost (ms : List Messages) : Nat := 1 + (ms.map fun m => 6 + 3 * m.messages.length).sum
def objPot (m : Mixer.State) : Nat := Mixer.weight m + 12 * onSize m.output
def srvPot (srv : Server.State) : Nat := (srv.objs.map fun e => objPot e.2).sum + (srv.waiting.map fun e => 1 + callCost e.2).sum
def srvSent (srv : Server.State) : Nat := (srv.objs.map fun e => onSize e.2.sent).sum
def netPot (net : List Request) : Nat := (net.map fun rq => 2 + callCost rq.messages).sum

theorem onSize_append (a b : List MixOutput) : onSize (a ++ b) = onSize a + onSize b := by simp [onSize]

theorem objPot_work {env : Mixer.Env} {m m' : Mixer.State} {a : Mixer.Action} (hs : Mixer.step env m a = some m') (hc : m'.crashed = false)
    (ha : a.internal) (hr : a ≠ .recv) : objPot m' + 12 * onSize m.sent + 1 ≤ objPot m + 12 * onSize m'.sent := by
  have h1 := Mixer.weight_lt (Mixer.stepR_of_step hs hc) ha
  obtain ⟨extra, h2, h3, _⟩ := (Mixer.step_output hs).1 hr
  unfold objPot
  rw [h2, h3, onSize_append, onSize_append]
  omega

theorem objPot_recv {env : Mixer.Env} {m m' : Mixer.State} {out : MixOutput} {q : List MixOutput} (hs : Mixer.step env m .recv = some m')
    (ho : m.output = out :: q) : objPot m' + 12 * out.onions.length + 1 ≤ objPot m ∧ m'.sent = m.sent := by
  obtain ⟨b, q', h1, rfl⟩ := (Mixer.step_output hs).2 rfl
  rw [ho] at h1
  cases h1
  refine ⟨?_, rfl⟩
  simp only [objPot, Mixer.weight, ho, onSize, List.map_cons, List.sum_cons, List.length_cons]
  omega

theorem objPot_call {env : Mixer.Env} {m m' : Mixer.State} {ms : List Messages} (hs : Mixer.step env m (.call ms) = some m') :
    objPot m' = objPot m + callCost ms ∧ m'.sent = m.sent := by
  unfold Mixer.step at hs
  split at hs
  · cases hs
  · simp only at hs
    split at hs
    · cases hs
    · next hh =>
      cases hs
      have hh : m.holder = none := by simpa using hh
      refine ⟨?_, rfl⟩
      simp only [objPot, Mixer.weight, Mixer.holderWeight, callCost, hh]
      omega

theorem sum_setObj {srv : Server.State} {i r' : Nat} {m m' : Mixer.State} (hm : srv.objs[i]? = some (r', m)) (f : Nat × Mixer.State → Nat) :
    ((srv.setObj i r' m').objs.map f).sum + f (r', m) = (srv.objs.map f).sum + f (r', m') := by
  have := Mixer.sum_set f srv.objs i (r', m) (r', m') hm
  simp only [Server.State.setObj]
  omega

theorem rounds_setObj {srv : Server.State} {i r' : Nat} {m m' : Mixer.State} (hm : srv.objs[i]? = some (r', m)) :
    (srv.setObj i r' m').objs.map (·.1) = srv.objs.map (·.1) := by
  simp only [Server.State.setObj, List.map_set]
  refine List.ext_getElem? fun j => ?_
  rw [List.getElem?_set]
  split
  · next hij =>
    subst hij
    obtain ⟨hi, he⟩ := List.getElem?_eq_some_iff.1 hm
    simp [hi, he]
  · rfl

/-- The steps of a server's goroutines. -/
theorem srv_work {cfg : Server.Config} {srv srv' : Server.State} {a : Server.Action} {resp : Server.Resp} (hs : Server.step cfg srv a = some (srv', resp))
    (hc : srv'.crashed = false) (ha : Internal a) :
    srvPot srv' + 12 * srvSent srv + 1 ≤ srvPot srv + 12 * srvSent srv' ∧ srv'.objs.map (·.1) = srv.objs.map (·.1) ∧ srv'.rounds = srv.rounds ∧ srv.objs ≠ [] := by
  unfold Server.step at hs
  split at hs
  · cases hs
  cases a with
  | enter k =>
    simp only at hs
    split at hs
    · cases hs
    · next i ms hk =>
      split at hs
      · cases hs
      · next r' m hm =>
        split at hs
        · cases hs
        · next m' hst =>
          cases hs
          obtain ⟨h1, h2⟩ := objPot_call hst
          have h3 := sum_setObj (m' := m') hm fun e => objPot e.2
          have h4 := sum_setObj (m' := m') hm fun e => onSize e.2.sent
          have h5 := Mixer.sum_eraseIdx (fun e : Nat × List Messages => 1 + callCost e.2) srv.waiting k _ hk
          refine ⟨?_, rounds_setObj hm, rfl, by rintro h; rw [h] at hm; simp at hm⟩
          simp only [srvPot, srvSent, h1, h2] at *
          omega
  | work i b =>
    simp only at hs
    split at hs
    · cases hs
    · next r' m hm =>
      have key : ∀ m', b.internal → Mixer.step (cfg.env r') m b = some m' → srv' = srv.setObj i r' m' →
          srvPot srv' + 12 * srvSent srv + 1 ≤ srvPot srv + 12 * srvSent srv' ∧ srv'.objs.map (·.1) = srv.objs.map (·.1) ∧ srv'.rounds = srv.rounds ∧ srv.objs ≠ [] := by
        rintro m' hb hst rfl
        have hcm : m'.crashed = false := by
          simp only [Server.State.setObj, Bool.or_eq_false_iff] at hc; exact hc.2
        have h1 := objPot_work hst hcm hb ha
        have h3 := sum_setObj (m' := m') hm fun e => objPot e.2
        have h4 := sum_setObj (m' := m') hm fun e => onSize e.2.sent
        refine ⟨?_, rounds_setObj hm, rfl, by rintro h; rw [h] at hm; simp at hm⟩
        have : (srv.setObj i r' m').waiting = srv.waiting := rfl
        simp only [srvPot, srvSent, this] at *
        omega
      cases b <;> simp only at hs
      case call => cases hs
      case close => cases hs
      all_goals
        split at hs
        · cases hs
        · next m' hst => cases hs; exact key m' trivial hst rfl
  | newRound => exact absurd ha id
  | endRound => exact absurd ha id
  | addMessages => exact absurd ha id
  | getMessages => exact absurd ha id

theorem srv_recv {cfg : Server.Config} {srv srv' : Server.State} {i r' : Nat} {m : Mixer.State} {resp : Server.Resp} {out : MixOutput} {q : List MixOutput}
    (hs : Server.step cfg srv (.work i .recv) = some (srv', resp)) (hm : srv.objs[i]? = some (r', m)) (ho : m.output = out :: q) :
    srvPot srv' + 12 * out.onions.length + 1 ≤ srvPot srv ∧ srvSent srv' = srvSent srv ∧ srv'.objs.map (·.1) = srv.objs.map (·.1) ∧
      srv'.rounds = srv.rounds ∧ srv.objs ≠ [] := by
  unfold Server.step at hs
  split at hs
  · cases hs
  simp only [hm] at hs
  split at hs
  · cases hs
  · next m' hst =>
    cases hs
    obtain ⟨h1, h2⟩ := objPot_recv hst ho
    have h3 := sum_setObj (m' := m') hm fun e => objPot e.2
    have h4 := sum_setObj (m' := m') hm fun e => onSize e.2.sent
    have : (srv.setObj i r' m').waiting = srv.waiting := rfl
    refine ⟨?_, ?_, rounds_setObj hm, rfl, by rintro h; rw [h] at hm; simp at hm⟩
    · simp only [srvPot, this] at *
      omega
    · simp only [srvSent, h2] at *
      omega

theorem srv_add {cfg : Server.Config} {srv srv' : Server.State} {r' : Nat} {ms : List Messages} {resp : Server.Resp}
    (hs : Server.step cfg srv (.addMessages r' ms) = some (srv', resp)) :
    (srv' = srv ∨ srv.rounds.lookup r' ≠ none ∧ srvPot srv' = srvPot srv + 1 + callCost ms) ∧ srvSent srv' = srvSent srv ∧ srv'.objs = srv.objs ∧ srv'.rounds = srv.rounds := by
  unfold Server.step at hs
  split at hs
  · cases hs
  simp only at hs
  split at hs
  · cases hs; exact ⟨.inl rfl, rfl, rfl, rfl⟩
  · next i hi =>
    cases hs
    refine ⟨.inr ⟨by rw [hi]; simp, ?_⟩, rfl, rfl, rfl⟩
    simp only [srvPot, List.map_append, List.sum_append, List.map_cons, List.map_nil, List.sum_cons, List.sum_nil]
    omega

/-- The requests issued for a batch cost at most as much as its onions. -/
theorem rqs_cost {s : MessageSender} {out : MixOutput} {rqs : List Request} {first : List LogicalMix} (hf : s.topo.layers[0]? = some first) (hne : first ≠ [])
    {m1 : LogicalMix} (hw : ∀ o ∈ out.onions, Addresses s.topo o m1) (hconn : m1.hostname ∈ s.connections) (hb : SendBatch s out (.ok rqs)) :
    netPot rqs ≤ 12 * out.onions.length := by
  obtain ⟨rqs', h1, h2, h3, _⟩ := C23_each_onion_once s out first hf hne (fun o ho => ⟨m1, hw o ho, hconn⟩) _ hb
  cases h1
  have hspec := fun m1 hw => emits_spec (emits_of_batch hb) hf hne (m1 := m1) hw
  have hlen : rqs.length ≤ out.onions.length := by
    by_cases ho : out.onions = []
    · have hany : ∀ m1 : LogicalMix, ∀ rq ∈ rqs, rq.host = m1.hostname := fun m1 rq hrq => ((hspec m1 (by simp [ho])).1 rq hrq).2
      match rqs, hany with
      | [], _ => simp
      | rq :: _, hany =>
        have e1 := hany { m1 with hostname := [] } rq (by simp)
        have e2 := hany { m1 with hostname := [0] } rq (by simp)
        rw [e1] at e2
        cases e2
    · have h0 : 0 < out.onions.length := List.length_pos_iff.2 ho
      have hall := (hspec m1 hw).1
      match rqs, h3, hall with
      | [], _, _ => simp
      | [_], _, _ => simp only [List.length_cons, List.length_nil]; omega
      | a :: b :: _, h3, hall =>
        have e1 := (hall a (by simp)).2
        have e2 := (hall b (by simp)).2
        simp [e1, e2] at h3
  have hM := (hspec m1 hw).2.1
  have hcost : ∀ l : List Messages, (∀ M ∈ l, M.messages ≠ []) → (l.map fun m => 6 + 3 * m.messages.length).sum ≤ 9 * (l.flatMap (·.messages)).length := by
    intro l
    induction l with
    | nil => simp
    | cons M l ih =>
      intro hl
      have h1 := ih fun M' hM' => hl M' (by simp [hM'])
      have h2 := List.length_pos_iff.2 (hl M (by simp))
      simp only [List.map_cons, List.sum_cons, List.flatMap_cons, List.length_append]
      omega
  have hnet : ∀ l : List Request, (∀ M ∈ l.flatMap (·.messages), M.messages ≠ []) →
      netPot l ≤ 3 * l.length + 9 * (l.flatMap fun rq => rq.messages.flatMap fun ms => ms.messages).length := by
    intro l
    induction l with
    | nil => simp [netPot]
    | cons rq l ih =>
      intro hl
      have h1 := ih fun M hM => hl M (by rw [List.flatMap_cons]; exact List.mem_append_right _ hM)
      have h2 := hcost rq.messages fun M hM => hl M (by rw [List.flatMap_cons]; exact List.mem_append_left _ hM)
      simp only [netPot, callCost, List.map_cons, List.sum_cons, List.flatMap_cons, List.length_append, List.length_cons] at *
      omega
  have := hnet rqs fun M hM' => (hM M hM').2.1
  rw [h2.length_eq] at this
  omega

/-! ### The whole system -/

def pot (H : Finset Str) (s : State) : Nat := (∑ h ∈ H, srvPot (s.servers h)) + netPot s.net
def sentAll (H : Finset Str) (s : State) : Nat := ∑ h ∈ H, srvSent (s.servers h)

theorem sum_setServer {H : Finset Str} {h : Str} (hh : h ∈ H) (s : State) (srv : Server.State) (f : Server.State → Nat) :
    (∑ h' ∈ H, f ((s.setServer h srv).servers h')) + f (s.servers h) = (∑ h' ∈ H, f (s.servers h')) + f srv := by
  rw [← Finset.add_sum_erase _ _ hh, ← Finset.add_sum_erase (a := h) _ (fun h' => f (s.servers h')) hh, set_self]
  have : ∑ x ∈ H.erase h, f ((s.setServer h srv).servers x) = ∑ x ∈ H.erase h, f (s.servers x) :=
    Finset.sum_congr rfl fun x hx => by rw [set_ne _ _ (Finset.ne_of_mem_erase hx)]
  rw [this]
  omega

theorem setServer_same (s : State) (h : Str) : s.setServer h (s.servers h) = s := by
  unfold State.setServer
  congr 1
  funext h'
  split
  · next hh => rw [hh]
  · rfl

theorem netPot_append (a b : List Request) : netPot (a ++ b) = netPot a + netPot b := by simp [netPot]

theorem netPot_erase {net : List Request} {k : Nat} {rq : Request} (h : net[k]? = some rq) :
    netPot net = 2 + callCost rq.messages + netPot (net.eraseIdx k) := Mixer.sum_eraseIdx (fun rq : Request => 2 + callCost rq.messages) net k rq h

/-- The hosts of `H` are the only ones with round objects. -/
def Within (H : Finset Str) (s : State) : Prop := ∀ h, (s.servers h).objs ≠ [] → h ∈ H

/-- The rounds of the objects, and the open rounds, are the same. -/
def SameRounds (s s' : State) : Prop := ∀ h, (s'.servers h).objs.map (·.1) = (s.servers h).objs.map (·.1) ∧ (s'.servers h).rounds = (s.servers h).rounds

theorem SameRounds.refl (s : State) : SameRounds s s := fun _ => ⟨rfl, rfl⟩
theorem SameRounds.trans {s s' s'' : State} (h : SameRounds s s') (h' : SameRounds s' s'') : SameRounds s s'' :=
  fun x => ⟨(h' x).1.trans (h x).1, (h' x).2.trans (h x).2⟩
theorem SameRounds.within {H : Finset Str} {s s' : State} (h : SameRounds s s') (hw : Within H s) : Within H s' := by
  intro x hx
  refine hw x fun he => hx ?_
  have := (h x).1
  rw [he] at this
  simpa using this

theorem sameRounds_set {s : State} {h : Str} {srv : Server.State} (h1 : srv.objs.map (·.1) = (s.servers h).objs.map (·.1)) (h2 : srv.rounds = (s.servers h).rounds)
    (net : List Request) : SameRounds s { s.setServer h srv with net := net } := by
  intro x
  show ((s.setServer h srv).servers x).objs.map _ = _ ∧ ((s.setServer h srv).servers x).rounds = _
  by_cases hx : x = h
  · subst hx; rw [set_self]; exact ⟨h1, h2⟩
  · rw [set_ne _ _ hx]; exact ⟨rfl, rfl⟩

/-- One step of the system itself uses up work. -/
theorem pot_step {H : Finset Str} {s s' : State} {e : Event} (hst : Step c s e s') (he : Own e) (hw : Within H s) (hsi : ∀ h, SI r (s.servers h))
    (hcr : ∀ h, (s'.servers h).crashed = false)
    (hfwd : ∀ (h : Str) (i r' : Nat) (m : Mixer.State) (out : MixOutput) (rest : List MixOutput) (rqs : List Request), (s.servers h).objs[i]? = some (r', m) →
      m.output = out :: rest → SendBatch (c.sender h r') out (.ok rqs) → netPot rqs ≤ 12 * out.onions.length) :
    pot H s' + 12 * sentAll H s + 1 ≤ pot H s + 12 * sentAll H s' ∧ SameRounds s s' := by
  cases hst with
  | client ha hs => exact absurd rfl (he.1 _ _)
  | drop hk => exact absurd rfl (he.2 _)
  | work ha hs =>
    next h a srv resp =>
    have hc := hcr h
    rw [set_self] at hc
    obtain ⟨h1, h2, h3, h4⟩ := srv_work hs hc ha
    have h5 := sum_setServer (hw h h4) s srv srvPot
    have h6 := sum_setServer (hw h h4) s srv srvSent
    refine ⟨?_, sameRounds_set h2 h3 s.net⟩
    have : (s.setServer h srv).net = s.net := rfl
    simp only [pot, sentAll, this]
    omega
  | forward hm ho hs hb =>
    next h i r' m out rest srv resp rqs =>
    obtain ⟨h1, h1', h2, h3, h4⟩ := srv_recv hs hm ho
    have h5 := sum_setServer (hw h h4) s srv srvPot
    have h6 := sum_setServer (hw h h4) s srv srvSent
    have h7 := hfwd h i r' m out rest rqs hm ho hb
    refine ⟨?_, sameRounds_set h2 h3 _⟩
    show (∑ h' ∈ H, srvPot ((s.setServer h srv).servers h')) + netPot (s.net ++ rqs) + 12 * sentAll H s + 1 ≤
      pot H s + 12 * (∑ h' ∈ H, srvSent ((s.setServer h srv).servers h'))
    rw [netPot_append]
    simp only [pot, sentAll]
    omega
  | panic hm ho hs hb =>
    next h i r' m out rest srv resp rqs =>
    have := hcr h
    change ((s.setServer h { srv with crashed := true }).servers h).crashed = false at this
    rw [set_self] at this
    cases this
  | deliver hk hs =>
    next k rq srv resp =>
    obtain ⟨h1, h2, h3, h4⟩ := srv_add hs
    have h5 := netPot_erase hk
    refine ⟨?_, sameRounds_set (by rw [h3]) h4 _⟩
    show (∑ h' ∈ H, srvPot ((s.setServer rq.host srv).servers h')) + netPot (s.net.eraseIdx k) + 12 * sentAll H s + 1 ≤
      pot H s + 12 * (∑ h' ∈ H, srvSent ((s.setServer rq.host srv).servers h'))
    rcases h1 with rfl | ⟨h1, h6⟩
    · rw [setServer_same]
      simp only [pot, sentAll]
      omega
    · have hin : rq.host ∈ H := by
        obtain ⟨i, hi⟩ := Option.ne_none_iff_exists'.1 h1
        obtain ⟨m, hm⟩ := (hsi rq.host).bound _ _ hi
        exact hw _ (by rintro h; rw [h] at hm; simp at hm)
      have h7 := sum_setServer hin s srv srvPot
      have h8 := sum_setServer hin s srv srvSent
      simp only [pot, sentAll]
      omega

end Resmix.System
