import Verif.Spec.OpenFirst
import Verif.Proofs.SystemI
import Verif.Proofs.Lost
import Verif.Proofs.Stranger
import Verif.Props.Server
set_option autoImplicit false
/-
C145: nothing of a round happens anywhere before the first onion is sent, so a round opened everywhere first loses nothing.
-/
namespace Resmix.System
open Resmix.Mixer (Messages MixOutput)
open Resmix.Sender

/-- Nothing of round `r` goes on at the server. -/
def QuietS (r : Nat) (srv : Server.State) : Prop :=
  (∀ (i : Nat) (m : Mixer.State), srv.objs[i]? = some (r, m) → Mixer.Idle m) ∧
  ∀ e ∈ srv.waiting, ∀ m : Mixer.State, srv.objs[e.1]? ≠ some (r, m)

theorem setObj_other {r r' : Nat} {srv : Server.State} {i : Nat} {m m' : Mixer.State} (hi : srv.objs[i]? = some (r', m)) (hr : r' ≠ r)
    (j : Nat) (x : Mixer.State) : (srv.objs.set i (r', m'))[j]? = some (r, x) ↔ srv.objs[j]? = some (r, x) := by
  by_cases hj : i = j
  · subst hj
    rw [hi, List.getElem?_set_self (List.getElem?_eq_some_iff.1 hi).1]
    constructor
    · intro h; cases h; exact absurd rfl hr
    · intro h; cases h; exact absurd rfl hr
  · rw [List.getElem?_set_ne hj]

theorem QuietS.other {r r' : Nat} {srv : Server.State} (hq : QuietS r srv) {i : Nat} {m m' : Mixer.State} (hi : srv.objs[i]? = some (r', m))
    (hr : r' ≠ r) : QuietS r (srv.setObj i r' m') := by
  refine ⟨fun j x hx => hq.1 j x ((setObj_other hi hr j x).1 hx), fun e he x hx => hq.2 e he x ((setObj_other hi hr _ x).1 hx)⟩

theorem quietS_step {cfg : Server.Config} {r : Nat} {srv srv' : Server.State} {a : Server.Action} {resp : Server.Resp} (h : SI r srv) (hq : QuietS r srv)
    (hs : Server.step cfg srv a = some (srv', resp)) (ha : ∀ ms, a ≠ .addMessages r ms) (hne : a ≠ .endRound r) :
    QuietS r srv' ∧ (srv.rounds.lookup r ≠ none → srv'.rounds.lookup r ≠ none) := by
  unfold Server.step at hs
  split at hs
  · cases hs
  cases a with
  | newRound r' ls order =>
    simp only at hs
    split at hs
    · next s1 hn =>
      cases hs
      unfold Server.newRound at hn
      split at hn
      · cases hn
      split at hn
      · cases hn
      split at hn
      · cases hn
      split at hn
      · cases hn
      · next m hm =>
        cases hn
        obtain ⟨-, -, h1, h2, h3, h4, h5, -⟩ := Mixer.newMixers_spec hm
        refine ⟨⟨?_, ?_⟩, ?_⟩
        · intro i x hx
          rcases List.getElem?_append (l₁ := srv.objs) (l₂ := [(r', m)]) ▸ hx with hx
          split at hx
          · exact hq.1 i x hx
          · have := List.mem_of_getElem? hx
            simp only [List.mem_singleton, Prod.mk.injEq] at this
            obtain ⟨-, rfl⟩ := this
            exact ⟨h3, h1, h2, h4, h5⟩
        · intro e he x hx
          have hl := h.wait e he
          rw [List.getElem?_append_left hl] at hx
          exact hq.2 e he x hx
        · intro ho
          show GoMap.lookup (GoMap.insert srv.rounds r' srv.objs.length) r ≠ none
          by_cases hrr : r' = r
          · subst hrr; simp [GoMap.lookup_insert_self]
          · rwa [GoMap.lookup_insert_ne]; exact fun h => hrr h.symm
    · cases hs; exact ⟨hq, id⟩
    · cases hs; exact ⟨hq, id⟩
  | endRound r' =>
    simp only at hs
    split at hs
    · cases hs; exact ⟨hq, id⟩
    next i hi =>
    split at hs
    · cases hs
    next rr m hm =>
    split at hs
    · cases hs
    next m' hst =>
    cases hs
    obtain ⟨m2, hm2⟩ := h.bound _ _ hi
    rw [hm] at hm2
    cases hm2
    have hrr : r' ≠ r := fun h => hne (by rw [h])
    refine ⟨?_, ?_⟩
    · exact hq.other hm hrr
    · intro ho
      show GoMap.lookup (GoMap.erase srv.rounds r') r ≠ none
      rwa [GoMap.lookup_erase_ne]; exact fun h => hrr h.symm
  | addMessages r' ms =>
    simp only at hs
    split at hs
    · cases hs; exact ⟨hq, id⟩
    next i hi =>
    cases hs
    refine ⟨⟨hq.1, ?_⟩, id⟩
    intro e he x hx
    rcases List.mem_append.1 he with he | he
    · exact hq.2 e he x hx
    · rw [List.mem_singleton] at he
      subst he
      obtain ⟨m, hm⟩ := h.bound _ _ hi
      have hx : srv.objs[i]? = some (r, x) := hx
      rw [hm] at hx
      cases hx
      exact ha ms rfl
  | getMessages r' n =>
    simp only at hs
    split at hs <;> cases hs <;> exact ⟨hq, id⟩
  | enter k =>
    simp only at hs
    split at hs
    · cases hs
    next i ms hk =>
    split at hs
    · cases hs
    next r' m hm =>
    split at hs
    · cases hs
    next m' hst =>
    cases hs
    have hrr : r' ≠ r := by
      rintro rfl
      exact hq.2 _ (List.mem_of_getElem? hk) m hm
    have := hq.other (m' := m') hm hrr
    exact ⟨⟨this.1, fun e he => this.2 e (List.mem_of_mem_eraseIdx he)⟩, id⟩
  | work i b =>
    simp only at hs
    split at hs
    · cases hs
    next r' m hm =>
    have main : ∀ m', Mixer.step (cfg.env r') m b = some m' → (∀ ms, b ≠ .call ms) → b ≠ .close → QuietS r (srv.setObj i r' m') := by
      intro m' hst h1 h2
      have hrr : r' ≠ r := by
        rintro rfl
        have hid := hq.1 _ _ hm
        have hno : Mixer.step (cfg.env r') m b = none := by
          cases b with
          | call ms => exact absurd rfl (h1 ms)
          | close => exact absurd rfl h2
          | recv =>
            unfold Mixer.step
            split
            · rfl
            · simp [hid.2.2.2.2]
          | _ => exact Mixer.rest_of_idle hid _ (by trivial)
        rw [hno] at hst; cases hst
      exact hq.other hm hrr
    split at hs
    · cases hs
    · cases hs
    next h1 h2 =>
    split at hs
    · cases hs
    next m' hst =>
    cases hs
    exact ⟨main m' hst h1 h2, id⟩

theorem step_connections {cfg : Server.Config} {srv srv' : Server.State} {a : Server.Action} {resp : Server.Resp}
    (hs : Server.step cfg srv a = some (srv', resp)) : srv'.connections = srv.connections := by
  unfold Server.step at hs
  split at hs
  · cases hs
  cases a with
  | newRound r' ls order =>
    simp only at hs
    split at hs
    · next s1 hn => cases hs; unfold Server.newRound at hn; grind
    · cases hs; rfl
    · cases hs; rfl
  | _ => simp only at hs; grind [Server.State.setObj]

/-- Only EndRound closes a round. -/
theorem rounds_persist {cfg : Server.Config} {r : Nat} {srv srv' : Server.State} {a : Server.Action} {resp : Server.Resp}
    (hs : Server.step cfg srv a = some (srv', resp)) (hne : a ≠ .endRound r) (ho : srv.rounds.lookup r ≠ none) : srv'.rounds.lookup r ≠ none := by
  unfold Server.step at hs
  split at hs
  · cases hs
  cases a with
  | newRound r' ls order =>
    simp only at hs
    split at hs
    · next s1 hn => cases hs; unfold Server.newRound at hn; grind [GoMap.lookup_insert]
    · cases hs; exact ho
    · cases hs; exact ho
  | endRound r' =>
    have hrr : r ≠ r' := fun h => hne (by rw [h])
    simp only at hs; grind [Server.State.setObj, GoMap.lookup_erase]
  | _ => simp only at hs; grind [Server.State.setObj]

/-- What a step of the system is for one server. -/
theorem step_servers {c : Config} {s s' : State} {e : Event} (h : Step c s e s') (h' : Str) :
    s'.servers h' = s.servers h' ∨ ∃ a srv resp, Server.step (c.server h') (s.servers h') a = some (srv, resp) ∧
      (s'.servers h' = srv ∨ s'.servers h' = { srv with crashed := true }) ∧
      (e = .client h' a ∨ Internal a ∨ (∃ i, a = .work i .recv) ∨
        ∃ k rq, e = .deliver k ∧ s.net[k]? = some rq ∧ rq.host = h' ∧ a = .addMessages rq.round rq.messages) := by
  cases h with
  | @client h0 a srv resp ha hs =>
    by_cases hh : h' = h0
    · subst hh; exact .inr ⟨_, _, _, hs, .inl (set_self ..), .inl rfl⟩
    · exact .inl (set_ne _ _ hh)
  | @work h0 a srv resp ha hs =>
    by_cases hh : h' = h0
    · subst hh; exact .inr ⟨_, _, _, hs, .inl (set_self ..), .inr (.inl ha)⟩
    · exact .inl (set_ne _ _ hh)
  | @forward h0 i _ m out rest srv resp rqs hm ho hs hb =>
    by_cases hh : h' = h0
    · subst hh; exact .inr ⟨_, _, _, hs, .inl (set_self ..), .inr (.inr (.inl ⟨i, rfl⟩))⟩
    · exact .inl (set_ne _ _ hh)
  | @panic h0 i _ m out rest srv resp rqs hm ho hs hb =>
    by_cases hh : h' = h0
    · subst hh; exact .inr ⟨_, _, _, hs, .inr (set_self ..), .inr (.inr (.inl ⟨i, rfl⟩))⟩
    · exact .inl (set_ne _ _ hh)
  | @deliver k rq srv resp hk hs =>
    by_cases hh : h' = rq.host
    · subst hh; exact .inr ⟨_, _, _, hs, .inl (set_self ..), .inr (.inr (.inr ⟨k, rq, rfl, hk, rfl, rfl⟩))⟩
    · exact .inl (set_ne _ _ hh)
  | drop hk => exact .inl rfl

section
variable {c : Config} {r : Nat} {subs : List Submission} {hosts : List Str} {L : Nat}

theorem open_run (hL : 0 < L) (hc : Topology.createCascade hosts L = .ok c.topo) (hconn : Connected c hosts) {conn : Str → Bool}
    (hall0 : ∀ h ∈ hosts, conn h = true) {evs : List Event} {lost : List Request} {s : State}
    (hrun : LossyRun c r (Undropped r) (init conn) evs lost s) (hr : r < 2 ^ 32) (hall : AllOrderly c L evs) (hof : OpenFirst hosts r evs) :
    (LosslessRun c r (init conn) evs s ∧ lost = []) ∧ (∀ h ∈ hosts, (s.servers h).connections = true) ∧
    (∀ h ∈ hosts, (∃ ls order, .client h (.newRound r ls order) ∈ evs) → (s.servers h).rounds.lookup r ≠ none) ∧
    ((∀ h ms, .client h (.addMessages r ms) ∉ evs) → (∀ h, QuietS r (s.servers h)) ∧ ∀ rq ∈ s.net, rq.round ≠ r) := by
  have hcl := Topology.closed_of_create hc
  induction hrun with
  | nil =>
    refine ⟨⟨.nil, rfl⟩, hall0, fun h _ hm => (by obtain ⟨_, _, hm⟩ := hm; cases hm), fun _ => ⟨fun h => ⟨?_, ?_⟩, ?_⟩⟩ <;> simp [init, Server.init]
  | snoc hrun hP hst ih =>
    next evs lost s s' e =>
    have hallp : AllOrderly c L evs := fun r hr => by
      obtain ⟨subs, h1, h2, h3⟩ := hall r hr
      exact ⟨subs, h1, h2.prefix_, h3.prefix_⟩
    have hofp : OpenFirst hosts r evs := fun p q h ms he => hof p (q ++ [e]) h ms (by rw [he]; simp)
    obtain ⟨⟨hl, hlost⟩, hcs, hop, hqu⟩ := ih hallp hofp
    have hcr := no_crash hL hc hconn hl.run hallp
    obtain ⟨subs, hopens, hcls, hord⟩ := hall r hr
    have hi := rinv_run hL hc hopens hr hl.run hcls.prefix_
    have hnet := net_hosts hL hc hopens hr hl.run hcls.prefix_ hord.prefix_
    -- a request for the round is on its way: some client has sent onions, so the round is open everywhere
    have hused : (∃ h ms, .client h (.addMessages r ms) ∈ evs) → ∀ h ∈ hosts, (s.servers h).rounds.lookup r ≠ none := by
      rintro ⟨h, ms, hm⟩ h' hh'
      obtain ⟨p, q, hpq⟩ := List.append_of_mem hm
      obtain ⟨ls, order, ho⟩ := (hofp p q h ms hpq).2 h' hh'
      exact hop h' hh' ⟨ls, order, by rw [hpq]; simp [ho]⟩
    have hdel : ∀ rq ∈ s.net, rq.round = r → (s.servers rq.host).rounds.lookup r ≠ none := by
      intro rq hrq hrr
      refine hused ?_ _ (hnet rq hrq hrr)
      by_contra hno
      push Not at hno
      exact (hqu hno).2 rq hrq hrr
    have hkeep : Keeps r s e := by
      cases e with
      | client h a =>
        cases a with
        | addMessages r' ms =>
          rintro rfl
          obtain ⟨h1, h2⟩ := hof evs [] h ms rfl
          obtain ⟨ls, order, h3⟩ := h2 h h1
          exact hop h h1 ⟨ls, order, h3⟩
        | _ => trivial
      | deliver k => exact fun rq hrq hrr => hdel rq (List.mem_of_getElem? hrq) hrr
      | drop k => exact hP
      | _ => trivial
    have hlost' : lostBy r s e = [] := by
      cases e with
      | deliver k =>
        simp only [lostBy, List.filter_eq_nil_iff, Option.mem_toList]
        intro rq hrq
        simp only [Bool.and_eq_true, decide_eq_true_eq, not_and]
        exact fun hrr hn => hdel rq (List.mem_of_getElem? hrq) hrr hn
      | drop k =>
        simp only [lostBy, List.filter_eq_nil_iff, Option.mem_toList]
        intro rq hrq
        simpa using hP rq hrq
      | _ => rfl
    refine ⟨⟨hl.snoc hkeep hst, by rw [hlost, hlost']; rfl⟩, ?_, ?_, ?_⟩
    · intro h hh
      rcases step_servers hst h with h1 | ⟨a, srv, resp, h1, h2, -⟩
      · rw [h1]; exact hcs h hh
      · rcases h2 with h2 | h2 <;> rw [h2]
        · exact (step_connections h1).trans (hcs h hh)
        · exact (step_connections h1).trans (hcs h hh)
    · rintro h hh ⟨ls, order, hm⟩
      have hkeepo : (s.servers h).rounds.lookup r ≠ none → (s'.servers h).rounds.lookup r ≠ none := by
        intro ho
        rcases step_servers hst h with h1 | ⟨a, srv, resp, h1, h2, h3⟩
        · rwa [h1]
        · have hne : a ≠ .endRound r := by
            rintro rfl
            rcases h3 with h3 | h3 | ⟨i, h3⟩ | ⟨k, rq, -, -, -, h3⟩
            · exact hord.noEnd h (by rw [← h3]; simp)
            · exact h3
            · cases h3
            · cases h3
          have := rounds_persist (r := r) h1 hne ho
          rcases h2 with h2 | h2 <;> rw [h2] <;> exact this
      rcases List.mem_append.1 hm with hm | hm
      · exact hkeepo (hop h hh ⟨ls, order, hm⟩)
      · rw [List.mem_singleton] at hm
        subst hm
        cases hst with
        | client ha hs =>
          rw [set_self]
          obtain ⟨hfit, hld⟩ := hcls.loads h ls order (by simp)
          obtain ⟨w, m, h1, -⟩ := (Server.C06_newRound_propagates_workload hL hc (c.server h) rfl (s.servers h) (hcr h) r ls hfit order ha.2).1
            ⟨hcs h hh, fun i first hf => by rw [hld i first hf]; rfl⟩
          rw [h1] at hs
          cases hs
          show GoMap.lookup (GoMap.insert _ r _) r ≠ none
          simp
    · intro hno
      have hno1 : ∀ h ms, .client h (.addMessages r ms) ∉ evs := fun h ms hm => hno h ms (by simp [hm])
      obtain ⟨hq, hn⟩ := hqu hno1
      have hnew : ∀ (h : Str) (i r' : Nat) (m : Mixer.State) (out : MixOutput) (rest : List MixOutput) (rqs : List Request),
          (s.servers h).objs[i]? = some (r', m) → m.output = out :: rest → Emits (c.sender h r') out rqs → ∀ rq ∈ s.net ++ rqs, rq.round ≠ r := by
        intro h i r' m out rest rqs hm ho hb rq hrq
        rcases List.mem_append.1 hrq with hrq | hrq
        · exact hn rq hrq
        · rintro hrr
          have h3 : rq.round = r' := by
            rw [emits_round hb rq hrq]; exact Nat.mod_eq_of_lt ((hi.si h).small _ (List.mem_of_getElem? hm))
          obtain rfl : r' = r := h3.symm.trans hrr
          have := ((hq h).1 i m hm).2.2.2.2
          rw [ho] at this; cases this
      refine ⟨?_, ?_⟩
      · intro h
        rcases step_servers hst h with h1 | ⟨a, srv, resp, h1, h2, h3⟩
        · rw [h1]; exact hq h
        · have hne : a ≠ .endRound r := by
            rintro rfl
            rcases h3 with h3 | h3 | ⟨i, h3⟩ | ⟨k, rq, -, -, -, h3⟩
            · exact hord.noEnd h (by rw [← h3]; simp)
            · exact h3
            · cases h3
            · cases h3
          have hna : ∀ ms, a ≠ .addMessages r ms := by
            rintro ms rfl
            rcases h3 with h3 | h3 | ⟨i, h3⟩ | ⟨k, rq, -, hk, -, h3⟩
            · exact hno h ms (by rw [← h3]; simp)
            · exact h3
            · cases h3
            · cases h3
              exact hn rq (List.mem_of_getElem? hk) rfl
          have := (quietS_step (hi.si h) (hq h) h1 hna hne).1
          rcases h2 with h2 | h2 <;> rw [h2] <;> exact this
      · cases hst with
        | client ha hs => exact hn
        | work ha hs => exact hn
        | forward hm ho hs hb => exact hnew _ _ _ _ _ _ _ hm ho (emits_of_batch hb)
        | panic hm ho hs hb => exact hnew _ _ _ _ _ _ _ hm ho (emits_of_panic hb)
        | deliver hk hs => exact fun rq hrq => hn rq (List.mem_of_mem_eraseIdx hrq)
        | drop hk => exact fun rq hrq => hn rq (List.mem_of_mem_eraseIdx hrq)
end

end Resmix.System
