import Verif.Model.Relay
import Verif.Proofs.GoMap
import Verif.Proofs.SumBy
set_option autoImplicit false
/-
C62, C63, C77: a relay, all interleavings.
-/
namespace Resmix.Rrpc.Relay

theorem run_append (s : State) (a b : List Ev) : run s (a ++ b) = (run s a).bind fun s' => run s' b := by
  induction a generalizing s with
  | nil => rfl
  | cons e a ih =>
    simp only [List.cons_append, run]
    cases step s e with
    | none => rfl
    | some s' => exact ih s'

/-- The server's response `r` for call `u`, as it is passed on. -/
def Passes (u : Str) (c : CallStreamResponse) (r : RelayStreamResponse) : Prop :=
  r = { relayStreamError := none, response := some c, uuid := u } ∧ ∃ n, c.note = some n ∧ n.calluuid = u

/-- An answer to stream `j` that the history justifies: a server's response for a call id the stream forwarded, or the report that a request of the stream
could not be forwarded. -/
def Justified (evs : List Ev) (j : Nat) (r : RelayStreamResponse) : Prop :=
  (∃ c, Passes r.uuid c r ∧ .incoming c ∈ evs ∧ .forward j r.uuid ∈ evs) ∨ ∃ e, .refuse j r.uuid e ∈ evs ∧ r = { relayStreamError := some e, response := none, uuid := r.uuid }

/-- C62, safety, in every interleaving, with cleanups, failing streams and repeated call ids: whatever a client is sent is a server's response for a call id
that this stream forwarded, or the report that its own request could not be forwarded. -/
theorem C62_only_own_partial (evs : List Ev) (s : State) (hr : run init evs = some s) (j : Nat) (t : Stream) (ht : s.streams[j]? = some t) (r : RelayStreamResponse)
    (h : r ∈ t.delivered) : Justified evs j r := by
  have key : ∀ (post pre : List Ev) (s0 s : State), (∀ (j : Nat) (t : Stream), s0.streams[j]? = some t → (∀ r, r ∈ t.delivered ∨ r ∈ t.queue → Justified pre j r) ∧
        ∀ u, t.forwarding = some u → .forward j u ∈ pre) → (∀ u j, s0.pending.lookup u = some j → .forward j u ∈ pre) → (∀ j r, s0.routing = some (j, r) → Justified pre j r) →
      run s0 post = some s →
      ∀ (j : Nat) (t : Stream), s.streams[j]? = some t → ∀ r, r ∈ t.delivered ∨ r ∈ t.queue → Justified (pre ++ post) j r := by
    intro post
    induction post with
    | nil =>
      intro pre s0 s h1 h2 h3 hr
      simp only [run, Option.some.injEq] at hr; subst hr
      simpa using fun j t ht => (h1 j t ht).1
    | cons e post ih =>
      intro pre s0 s h1 h2 h3 hr
      rw [run] at hr
      cases hst : step s0 e with
      | none => rw [hst] at hr; cases hr
      | some s1 =>
        rw [hst] at hr
        have hj : ∀ j r, Justified pre j r → Justified (pre ++ [e]) j r := by
          intro j r h
          rcases h with ⟨c, a, b, d⟩ | ⟨e, a, b⟩
          · exact .inl ⟨c, a, List.mem_append_left _ b, List.mem_append_left _ d⟩
          · exact .inr ⟨e, List.mem_append_left _ a, b⟩
        have hm : ∀ x : Ev, x ∈ pre → x ∈ pre ++ [e] := fun x h => List.mem_append_left _ h
        have he : e ∈ pre ++ [e] := by simp
        have h1a : ∀ (j : Nat) (t : Stream), s0.streams[j]? = some t → ∀ r, r ∈ t.delivered → Justified pre j r := fun j t h r hr => (h1 j t h).1 r (.inl hr)
        have h1b : ∀ (j : Nat) (t : Stream), s0.streams[j]? = some t → ∀ r, r ∈ t.queue → Justified pre j r := fun j t h r hr => (h1 j t h).1 r (.inr hr)
        have h1c : ∀ (j : Nat) (t : Stream), s0.streams[j]? = some t → ∀ u, t.forwarding = some u → .forward j u ∈ pre := fun j t h => (h1 j t h).2
        have step1 : (∀ (j : Nat) (t : Stream), s1.streams[j]? = some t → (∀ r, r ∈ t.delivered ∨ r ∈ t.queue → Justified (pre ++ [e]) j r) ∧
            ∀ u, t.forwarding = some u → .forward j u ∈ pre ++ [e]) ∧ (∀ u j, s1.pending.lookup u = some j → .forward j u ∈ pre ++ [e]) ∧
            (∀ j r, s1.routing = some (j, r) → Justified (pre ++ [e]) j r) := by
          unfold step at hst
          split at hst
          · cases hst
          · cases e with
            | connect => grind
            | forward j u => grind [State.update]
            | store j => grind [GoMap.lookup_insert]
            | refuse j u x =>
              simp only [State.update] at hst
              split at hst
              · cases hst
              · next t ht =>
                split at hst
                · cases hst
                · next t' ht' =>
                  split at ht'
                  · injection ht' with ht'; injection hst with hst; subst ht' hst
                    refine ⟨?_, fun u j h => hm _ (h2 u j h), fun j r h => hj _ _ (h3 j r h)⟩
                    intro k t1 hk
                    simp only at hk
                    by_cases hkj : j = k
                    · subst hkj
                      rw [List.getElem?_set_self (List.getElem?_eq_some_iff.1 ht).1] at hk
                      injection hk with hk; subst hk
                      refine ⟨?_, fun u h => hm _ (h1c j t ht u h)⟩
                      rintro r (h | h)
                      · exact hj _ _ (h1a j t ht r h)
                      · rcases List.mem_append.1 h with h | h
                        · exact hj _ _ (h1b j t ht r h)
                        · rw [List.mem_singleton.1 h]
                          exact .inr ⟨x, he, rfl⟩
                    · rw [List.getElem?_set_ne hkj] at hk
                      exact ⟨fun r h => hj _ _ ((h1 k t1 hk).1 r h), fun u h => hm _ ((h1 k t1 hk).2 u h)⟩
                  · cases ht'
            | incoming c =>
              simp only at hst
              split at hst
              · cases hst
              · split at hst
                · injection hst with hst; subst hst; grind
                · next n hn =>
                  split at hst
                  · injection hst with hst; subst hst; grind
                  · next j hj' =>
                    injection hst with hst; subst hst
                    refine ⟨fun k t hk => ⟨fun r h => hj _ _ ((h1 k t hk).1 r h), fun u h => hm _ ((h1 k t hk).2 u h)⟩, ?_, ?_⟩
                    · intro u k h
                      simp only [GoMap.lookup_erase] at h
                      split at h
                      · cases h
                      · exact hm _ (h2 u k h)
                    · intro k r h
                      simp only [Option.some.injEq, Prod.mk.injEq] at h
                      obtain ⟨rfl, rfl⟩ := h
                      exact .inl ⟨c, ⟨rfl, n, hn, rfl⟩, he, hm _ (h2 _ _ hj')⟩
            | route => grind
            | send j => grind [State.update]
            | sendFails j => grind [State.update]
            | clean u => grind [GoMap.lookup_erase]
        have := ih (pre ++ [e]) s1 s step1.1 step1.2.1 step1.2.2 hr
        simpa using this
  have := key evs [] init s (by simp [init]) (by simp [init]) (by simp [init]) hr j t ht r (.inl h)
  simpa using this

/-- The number of servers' responses for call `u` in a list of answers. -/
def cnt (u : Str) (l : List RelayStreamResponse) : Nat := l.countP fun r => r.response.isSome && decide (r.uuid = u)

/-- The number of servers' responses for call `u` sent to clients. -/
def deliveredOf (s : State) (u : Str) : Nat := sumBy (fun t => cnt u t.delivered) s.streams

/-- The number of servers' responses for call `u` on their way to a client. -/
def onTheWay (s : State) (u : Str) : Nat := sumBy (fun t => cnt u t.queue) s.streams + cnt u (s.routing.toList.map Prod.snd)

/-- The number of requests with call id `u` waiting for a response. -/
def waitingFor (s : State) (u : Str) : Nat := sumBy (fun t => if t.forwarding = some u then 1 else 0) s.streams + if (s.pending.lookup u).isSome then 1 else 0

/-- The number of requests with call id `u` that were forwarded. -/
def forwards (u : Str) (evs : List Ev) : Nat := evs.countP fun e => match e with | .forward _ v => decide (v = u) | _ => false

/-- The number of responses for call `u` that were received from servers. -/
def responses (u : Str) (evs : List Ev) : Nat := evs.countP fun e => match e with | .incoming c => decide (c.note.map (·.calluuid) = some u) | _ => false

theorem cnt_append (u : Str) (a b : List RelayStreamResponse) : cnt u (a ++ b) = cnt u a + cnt u b := by simp [cnt]
theorem cnt_cons (u : Str) (a : RelayStreamResponse) (b : List RelayStreamResponse) : cnt u (a :: b) = cnt u [a] + cnt u b := by rw [← cnt_append]; rfl

theorem update_some {s s' : State} {j : Nat} {f : Stream → Option Stream} (h : s.update j f = some s') :
    ∃ t t', s.streams[j]? = some t ∧ f t = some t' ∧ s' = { s with streams := s.streams.set j t' } := by
  unfold State.update at h
  split at h
  · cases h
  · next t ht =>
    split at h
    · cases h
    · next t' ht' => injection h with h; exact ⟨t, t', ht, ht', h.symm⟩

theorem step_counts (s s' : State) (e : Ev) (u : Str) (hst : step s e = some s') :
    deliveredOf s' u + onTheWay s' u + waitingFor s' u ≤ deliveredOf s u + onTheWay s u + waitingFor s u + forwards u [e] ∧
    ((∀ j, e ≠ .sendFails j) → (∀ c n, e = .incoming c → c.note = some n → n.calluuid = u → s.pending.lookup u ≠ none) →
      deliveredOf s' u + onTheWay s' u = deliveredOf s u + onTheWay s u + responses u [e]) := by
  unfold step at hst
  split at hst
  · cases hst
  · cases e with
    | connect =>
      injection hst with hst; subst hst
      simp [deliveredOf, onTheWay, waitingFor, forwards, responses, cnt, sumBy]
    | forward j v =>
      obtain ⟨t, t', ht, ht', rfl⟩ := update_some hst
      split at ht'
      · next hf =>
        injection ht' with ht'; subst ht'
        have e1 := sum_set (fun t => cnt u t.delivered) s.streams j t { t with forwarding := some v } ht
        have e2 := sum_set (fun t => cnt u t.queue) s.streams j t { t with forwarding := some v } ht
        have e3 := sum_set (fun t => if t.forwarding = some u then 1 else 0) s.streams j t { t with forwarding := some v } ht
        have hf' : t.forwarding = none := by simpa using hf
        simp only [deliveredOf, onTheWay, waitingFor, forwards, responses, List.countP_cons, List.countP_nil, hf', Option.some.injEq, reduceCtorEq, if_false, decide_eq_true_eq] at *
        refine ⟨?_, fun _ _ => ?_⟩
        · split <;> simp_all <;> omega
        · simp; omega
      · cases ht'
    | store j =>
      simp only at hst
      split at hst
      · cases hst
      · next t ht =>
        split at hst
        · cases hst
        · next v hv =>
          injection hst with hst; subst hst
          have e1 := sum_set (fun t => cnt u t.delivered) s.streams j t { t with forwarding := none } ht
          have e2 := sum_set (fun t => cnt u t.queue) s.streams j t { t with forwarding := none } ht
          have e3 := sum_set (fun t => if t.forwarding = some u then 1 else 0) s.streams j t { t with forwarding := none } ht
          simp only [deliveredOf, onTheWay, waitingFor, forwards, responses, List.countP_cons, List.countP_nil, hv, Option.some.injEq, reduceCtorEq, if_false, GoMap.lookup_insert] at *
          refine ⟨?_, fun _ _ => ?_⟩
          · by_cases hvu : v = u
            · subst hvu; simp at e3 ⊢; omega
            · have hvu' : ¬ u = v := fun h => hvu h.symm
              simp [hvu, hvu'] at e3 ⊢; omega
          · simp; omega
    | refuse j v x =>
      obtain ⟨t, t', ht, ht', rfl⟩ := update_some hst
      split at ht'
      · injection ht' with ht'; subst ht'
        generalize hr : (⟨some x, none, v⟩ : RelayStreamResponse) = r at *
        have hc : cnt u [r] = 0 := by subst hr; simp [cnt]
        have e1 := sum_set (fun t => cnt u t.delivered) s.streams j t { t with queue := t.queue ++ [r] } ht
        have e2 := sum_set (fun t => cnt u t.queue) s.streams j t { t with queue := t.queue ++ [r] } ht
        have e3 := sum_set (fun t => if t.forwarding = some u then 1 else 0) s.streams j t { t with queue := t.queue ++ [r] } ht
        simp only [deliveredOf, onTheWay, waitingFor, forwards, responses, List.countP_cons, List.countP_nil, cnt_append, hc] at *
        exact ⟨by simp; omega, fun _ _ => by simp; omega⟩
      · cases ht'
    | incoming c =>
      simp only at hst
      split at hst
      · cases hst
      · next hro =>
        split at hst
        · next hn =>
          injection hst with hst; subst hst
          simp [deliveredOf, onTheWay, waitingFor, forwards, responses, hn]
        · next n hn =>
          split at hst
          · next hl =>
            injection hst with hst; subst hst
            refine ⟨by simp [forwards], fun _ h => ?_⟩
            have hnu : n.calluuid ≠ u := by
              intro hnu
              exact h c n rfl hn hnu (by rw [← hnu]; exact hl)
            simp [responses, hn, hnu]
          · next j hl =>
            injection hst with hst; subst hst
            have hc : cnt u [(⟨none, some c, n.calluuid⟩ : RelayStreamResponse)] = if n.calluuid = u then 1 else 0 := by
              by_cases h : n.calluuid = u <;> simp [cnt, h]
            simp only [deliveredOf, onTheWay, waitingFor, forwards, responses, List.countP_cons, List.countP_nil, hro, Option.toList, List.map_cons, List.map_nil, hn, Option.map_some, GoMap.lookup_erase, hc]
            have h0 : cnt u [] = 0 := rfl
            rw [h0]
            by_cases h : n.calluuid = u
            · subst h; simp [hl]; omega
            · have h' : ¬ u = n.calluuid := fun h2 => h h2.symm
              simp [h, h']
    | route =>
      simp only at hst
      split at hst
      · cases hst
      · next j r hro =>
        split at hst
        · cases hst
        · next t ht =>
          split at hst
          · injection hst with hst; subst hst
            have e1 := sum_set (fun t => cnt u t.delivered) s.streams j t { t with queue := t.queue ++ [r] } ht
            have e2 := sum_set (fun t => cnt u t.queue) s.streams j t { t with queue := t.queue ++ [r] } ht
            have e3 := sum_set (fun t => if t.forwarding = some u then 1 else 0) s.streams j t { t with queue := t.queue ++ [r] } ht
            have h0 : cnt u [] = 0 := rfl
            simp only [deliveredOf, onTheWay, waitingFor, forwards, responses, List.countP_cons, List.countP_nil, cnt_append, hro, Option.toList, List.map_cons, List.map_nil, h0] at *
            exact ⟨by simp; omega, fun _ _ => by simp; omega⟩
          · cases hst
    | send j =>
      obtain ⟨t, t', ht, ht', rfl⟩ := update_some hst
      split at ht'
      · next r q hq =>
        split at ht'
        · injection ht' with ht'; subst ht'
          have e1 := sum_set (fun t => cnt u t.delivered) s.streams j t { t with queue := q, delivered := t.delivered ++ [r] } ht
          have e2 := sum_set (fun t => cnt u t.queue) s.streams j t { t with queue := q, delivered := t.delivered ++ [r] } ht
          have e3 := sum_set (fun t => if t.forwarding = some u then 1 else 0) s.streams j t { t with queue := q, delivered := t.delivered ++ [r] } ht
          rw [hq, cnt_cons] at e2
          simp only [deliveredOf, onTheWay, waitingFor, forwards, responses, List.countP_cons, List.countP_nil, cnt_append] at *
          exact ⟨by simp; omega, fun _ _ => by simp; omega⟩
        · cases ht'
      · cases ht'
    | sendFails j =>
      obtain ⟨t, t', ht, ht', rfl⟩ := update_some hst
      split at ht'
      · next r q hq =>
        split at ht'
        · injection ht' with ht'; subst ht'
          have e1 := sum_set (fun t => cnt u t.delivered) s.streams j t { t with queue := q, alive := false } ht
          have e2 := sum_set (fun t => cnt u t.queue) s.streams j t { t with queue := q, alive := false } ht
          have e3 := sum_set (fun t => if t.forwarding = some u then 1 else 0) s.streams j t { t with queue := q, alive := false } ht
          rw [hq, cnt_cons] at e2
          simp only [deliveredOf, onTheWay, waitingFor, forwards, responses, List.countP_cons, List.countP_nil] at *
          exact ⟨by simp; omega, fun h => absurd rfl (h j)⟩
        · cases ht'
      · cases ht'
    | clean v =>
      injection hst with hst; subst hst
      simp only [deliveredOf, onTheWay, waitingFor, forwards, responses, List.countP_cons, List.countP_nil, GoMap.lookup_erase]
      refine ⟨?_, fun _ _ => by simp⟩
      split <;> simp

/-- C62, at most once, in every interleaving, with cleanups and failing streams: of the servers' responses for a call id at most as many reach clients as
requests with this id were forwarded; so at most one if call ids are not repeated. -/
theorem C62_at_most_once_partial (evs : List Ev) (s : State) (hr : run init evs = some s) (u : Str) : deliveredOf s u ≤ forwards u evs := by
  have key : ∀ (evs : List Ev) (s0 s : State), run s0 evs = some s →
      deliveredOf s u + onTheWay s u + waitingFor s u ≤ deliveredOf s0 u + onTheWay s0 u + waitingFor s0 u + forwards u evs := by
    intro evs
    induction evs with
    | nil => intro s0 s hr; simp only [run, Option.some.injEq] at hr; subst hr; simp [forwards]
    | cons e evs ih =>
      intro s0 s hr
      rw [run] at hr
      cases hst : step s0 e with
      | none => rw [hst] at hr; cases hr
      | some s1 =>
        rw [hst] at hr
        have h1 := ih s1 s hr
        have h2 := (step_counts s0 s1 e u hst).1
        have : forwards u (e :: evs) = forwards u [e] + forwards u evs := by
          unfold forwards; rw [show e :: evs = [e] ++ evs from rfl, List.countP_append]
        omega
  have := key evs init s hr
  have h0 : deliveredOf init u + onTheWay init u + waitingFor init u = 0 := rfl
  omega

/-- A run in which no stream to a client fails and every response finds the entry of its request: it was stored, and neither the cleanup nor an earlier response
removed it. -/
inductive CalmRun : List Ev → State → Prop
  | init : CalmRun [] init
  | step (evs : List Ev) (s s' : State) (e : Ev) : CalmRun evs s → step s e = some s' → (∀ j, e ≠ .sendFails j) →
      (∀ c, e = .incoming c → ∃ n, c.note = some n ∧ s.pending.lookup n.calluuid ≠ none) → CalmRun (evs ++ [e]) s'

/-- C62, exactly once, in calm runs: every server's response was sent to a client or is on its way to one; none is lost or duplicated. (It is the client that
asked: C62_only_own_partial.) -/
theorem C62_exactly_once_partial (evs : List Ev) (s : State) (h : CalmRun evs s) (u : Str) :
    s.crashed = false ∧ deliveredOf s u + onTheWay s u = responses u evs := by
  induction h with
  | init => exact ⟨rfl, rfl⟩
  | step evs s s' e _ hst h1 h2 ih =>
    obtain ⟨i1, i2⟩ := ih
    constructor
    · unfold step at hst
      rw [i1] at hst
      simp only [Bool.false_eq_true, if_false] at hst
      cases e with
      | incoming c =>
        obtain ⟨n, hn, -⟩ := h2 c rfl
        grind
      | connect => grind
      | forward j u => grind [State.update]
      | store j => grind
      | refuse j u x => grind [State.update]
      | route => grind
      | send j => grind [State.update]
      | sendFails j => grind [State.update]
      | clean u => grind
    · have := (step_counts s s' e u hst).2 h1 (by
        intro c n hc hn hu
        obtain ⟨n', hn', hl⟩ := h2 c hc
        rw [hn] at hn'; injection hn' with hn'; subst hn'
        rw [← hu]; exact hl)
      have h3 : responses u (evs ++ [e]) = responses u evs + responses u [e] := by unfold responses; rw [List.countP_append]
      omega

/-- Without new responses from servers, nothing new reaches clients. -/
theorem run_counts (evs : List Ev) (s0 s : State) (u : Str) (hr : run s0 evs = some s) :
    deliveredOf s u + onTheWay s u ≤ deliveredOf s0 u + onTheWay s0 u + responses u evs := by
  induction evs generalizing s0 with
  | nil => simp only [run, Option.some.injEq] at hr; subst hr; simp
  | cons e evs ih =>
    rw [run] at hr
    cases hst : step s0 e with
    | none => rw [hst] at hr; cases hr
    | some s1 =>
      rw [hst] at hr
      have h1 := ih s1 hr
      have h2 : deliveredOf s1 u + onTheWay s1 u ≤ deliveredOf s0 u + onTheWay s0 u + responses u [e] := by
        cases e with
        | incoming c =>
          by_cases hc : ∃ n, c.note = some n ∧ n.calluuid = u ∧ s0.pending.lookup u = none
          · obtain ⟨n, hn, hu, hl⟩ := hc
            have : s1 = s0 := by
              unfold step at hst
              rw [← hu] at hl
              simp only [hn, hl] at hst
              grind
            subst this; omega
          · refine Nat.le_of_eq ((step_counts s0 s1 _ u hst).2 (by simp) ?_)
            intro c' n hcc hn hu hl
            injection hcc with hcc; subst hcc
            exact hc ⟨n, hn, hu, hl⟩
        | sendFails j =>
          unfold step at hst
          split at hst
          · cases hst
          · obtain ⟨t, t', ht, ht', rfl⟩ := update_some hst
            split at ht'
            · next r q hq =>
              split at ht'
              · injection ht' with ht'; subst ht'
                have e1 := sum_set (fun t => cnt u t.delivered) s0.streams j t { t with queue := q, alive := false } ht
                have e2 := sum_set (fun t => cnt u t.queue) s0.streams j t { t with queue := q, alive := false } ht
                rw [hq, cnt_cons] at e2
                simp only [deliveredOf, onTheWay] at *
                omega
              · cases ht'
            · cases ht'
        | _ => exact Nat.le_of_eq ((step_counts s0 s1 _ u hst).2 (by simp) (by simp))
      have h3 : responses u (e :: evs) = responses u [e] + responses u evs := by
        unfold responses; rw [show e :: evs = [e] ++ evs from rfl, List.countP_append]
      omega

/-- C62 fails when the response overtakes the bookkeeping: the request has been forwarded, the server's response arrives before the entry is stored, and unless
the server answers a second time the client never gets a response, whatever happens afterwards. -/
theorem C62_overtaken_refuted (u : Str) (c : CallStreamResponse) (n : ExchangeNote) (hn : c.note = some n) (hu : n.calluuid = u) (post : List Ev) (s : State)
    (hr : run init ([.connect, .forward 0 u, .incoming c] ++ post) = some s) (hp : responses u post = 0) : deliveredOf s u = 0 := by
  rw [run_append] at hr
  have h : run init [.connect, .forward 0 u, .incoming c] = some { init with streams := [⟨[], true, [], some u⟩] } := by
    simp [run, step, init, State.update, hn, GoMap.lookup]
  rw [h] at hr
  have h1 := run_counts post _ s u hr
  have h0 : deliveredOf { init with streams := [⟨[], true, [], some u⟩] } u + onTheWay { init with streams := [⟨[], true, [], some u⟩] } u = 0 := rfl
  omega

/-- C62 fails when the cleanup comes between: it drops the entry of any request, however young, and the response is not delivered. -/
theorem C62_cleaned_refuted (u : Str) (c : CallStreamResponse) (n : ExchangeNote) (hn : c.note = some n) (hu : n.calluuid = u) (post : List Ev) (s : State)
    (hr : run init ([.connect, .forward 0 u, .store 0, .clean u, .incoming c] ++ post) = some s) (hp : responses u post = 0) : deliveredOf s u = 0 := by
  rw [run_append] at hr
  have h : run init [.connect, .forward 0 u, .store 0, .clean u, .incoming c] = some { init with streams := [⟨[], true, [], none⟩] } := by
    simp [run, step, init, State.update, hn, hu, GoMap.lookup, GoMap.insert, GoMap.erase]
  rw [h] at hr
  have h1 := run_counts post _ s u hr
  have h0 : deliveredOf { init with streams := [⟨[], true, [], none⟩] } u + onTheWay { init with streams := [⟨[], true, [], none⟩] } u = 0 := rfl
  omega

/-! ### C63 -/

/-- C63 fails: whatever parcel a server refuses (for instance one that names another relay), its answer has no note, and it ends the process of the relay
that receives it, whatever the relay was doing; nothing more is served. -/
theorem C63_refuted (S : SigScheme) (H : Merkle.HashFn) (cod : Codec) (cache : Cache) (tick : Bool) (text : Fail → Str) (index : Nat) (p : Parcel) :
    (p.relayIndex ≠ (index : Int) → ∃ c, onParcel S H cod cache tick text index p = .answer c) ∧
    ∀ c, onParcel S H cod cache tick text index p = .answer c → ∀ s : State, s.crashed = false → s.routing = none →
      ∃ s', step s (.incoming c) = some s' ∧ s'.crashed = true ∧ s'.streams = s.streams ∧ ∀ e, step s' e = none := by
  constructor
  · intro h
    unfold onParcel validateParcel
    simp [h]
  · intro c hc s h1 h2
    have hn : c.note = none := by
      unfold onParcel at hc
      split at hc
      · cases hc
      · injection hc with hc; subst hc; rfl
      · cases hc
    refine ⟨{ s with crashed := true }, ?_, rfl, rfl, fun e => by simp [step]⟩
    simp [step, h1, h2, hn]

/-- C63, the part that holds: an error that comes with the note of the call (a failing service) is sent to the client that asked, and to no other. -/
theorem C63_error_with_note_partial (s : State) (j : Nat) (t : Stream) (c : CallStreamResponse) (n : ExchangeNote) (hn : c.note = some n) (h1 : s.crashed = false)
    (h2 : s.routing = none) (hj : s.pending.lookup n.calluuid = some j) (ht : s.streams[j]? = some t) (ha : t.alive = true) (hq : t.queue = []) :
    ∃ s', run s [.incoming c, .route, .send j] = some s' ∧ s'.crashed = false ∧ s'.routing = none ∧ s'.pending = s.pending.erase n.calluuid ∧
      s'.streams = s.streams.set j { t with delivered := t.delivered ++ [{ relayStreamError := none, response := some c, uuid := n.calluuid }] } := by
  obtain ⟨hlt, hget⟩ := List.getElem?_eq_some_iff.1 ht
  simp [run, step, h1, h2, hn, hj, hlt, hget, ha, hq, capacity, State.update]

/-- C63, the part that holds: a request that cannot be forwarded is reported to the client that sent it; nothing else changes. -/
theorem C63_not_forwarded_partial (s : State) (j : Nat) (t : Stream) (u : Str) (e : RpcStatus) (h1 : s.crashed = false)
    (ht : s.streams[j]? = some t) (ha : t.alive = true) (hq : t.queue = []) (hf : t.forwarding = none) :
    run s [.refuse j u e, .send j] =
      some { s with streams := s.streams.set j { t with delivered := t.delivered ++ [{ relayStreamError := some e, response := none, uuid := u }] } } := by
  obtain ⟨hlt, hget⟩ := List.getElem?_eq_some_iff.1 ht
  simp [run, step, h1, hlt, hget, ha, hq, hf, capacity, State.update]

/-! ### C77 -/

/-- The relay is passing on a response to client `j`, whose channel is full. -/
def Stuck (s : State) (j : Nat) : Prop := ∃ r t, s.routing = some (j, r) ∧ s.streams[j]? = some t ∧ t.queue.length ≥ capacity

/-- As long as nothing is sent to client `j`: no response of a server is taken or passed on, and the other clients get no server's response that was not queued for
them before. -/
def Blocked (s : State) (j : Nat) (evs : List Ev) (s' : State) : Prop :=
  Stuck s' j ∧ (∀ c, .incoming c ∉ evs) ∧ .route ∉ evs ∧
  ∀ (k : Nat) (t' : Stream), s'.streams[k]? = some t' → ∀ r, r ∈ t'.delivered → r.response.isSome → ∃ t, s.streams[k]? = some t ∧ (r ∈ t.delivered ∨ r ∈ t.queue)

theorem stuck_step (s s' : State) (j : Nat) (e : Ev) (hs : Stuck s j) (h1 : e ≠ .send j) (h2 : e ≠ .sendFails j) (hst : step s e = some s') :
    Stuck s' j ∧ (∀ c, e ≠ .incoming c) ∧ e ≠ .route ∧
    ∀ (k : Nat) (t' : Stream), s'.streams[k]? = some t' → ∀ r, r ∈ t'.delivered ∨ r ∈ t'.queue → r.response.isSome → ∃ t, s.streams[k]? = some t ∧ (r ∈ t.delivered ∨ r ∈ t.queue) := by
  obtain ⟨r, t, hr, ht, hq⟩ := hs
  unfold step at hst
  split at hst
  · cases hst
  · cases e with
    | connect => simp only [Option.some.injEq] at hst; subst hst; unfold Stuck; grind
    | forward k u => unfold Stuck; grind [State.update]
    | store k => unfold Stuck; grind
    | refuse k u x =>
      obtain ⟨t1, t', ht1, ht', rfl⟩ := update_some hst
      split at ht'
      · injection ht' with ht'; subst ht'
        unfold Stuck; grind
      · cases ht'
    | incoming c => grind
    | route => grind
    | send k => unfold Stuck; grind [State.update]
    | sendFails k => unfold Stuck; grind [State.update]
    | clean u => unfold Stuck; grind

theorem blocked_run (evs : List Ev) (s s' : State) (j : Nat) (hs : Stuck s j) (h1 : .send j ∉ evs) (h2 : .sendFails j ∉ evs) (hr : run s evs = some s') :
    Blocked s j evs s' := by
  have key : Stuck s' j ∧ (∀ c, .incoming c ∉ evs) ∧ .route ∉ evs ∧
      ∀ (k : Nat) (t' : Stream), s'.streams[k]? = some t' → ∀ r, r ∈ t'.delivered ∨ r ∈ t'.queue → r.response.isSome →
        ∃ t, s.streams[k]? = some t ∧ (r ∈ t.delivered ∨ r ∈ t.queue) := by
    induction evs generalizing s with
    | nil =>
      simp only [run, Option.some.injEq] at hr; subst hr
      exact ⟨hs, by simp, by simp, fun k t' h r hr _ => ⟨t', h, hr⟩⟩
    | cons e evs ih =>
      rw [run] at hr
      cases hst : step s e with
      | none => rw [hst] at hr; cases hr
      | some s1 =>
        rw [hst] at hr
        simp only [List.mem_cons, not_or] at h1 h2
        obtain ⟨a, b, c, d⟩ := stuck_step s s1 j e hs (fun h => h1.1 h.symm) (fun h => h2.1 h.symm) hst
        obtain ⟨a', b', c', d'⟩ := ih s1 a h1.2 h2.2 hr
        refine ⟨a', ?_, ?_, ?_⟩
        · intro x hx
          rcases List.mem_cons.1 hx with hx | hx
          · exact b x hx.symm
          · exact b' x hx
        · intro hx
          rcases List.mem_cons.1 hx with hx | hx
          · exact c hx.symm
          · exact c' hx
        · intro k t' ht' r hr' hsome
          obtain ⟨t1, ht1, h⟩ := d' k t' ht' r hr' hsome
          exact d k t1 ht1 r h hsome
  exact ⟨key.1, key.2.1, key.2.2.1, fun k t' ht r hr => key.2.2.2 k t' ht r (.inl hr)⟩

/-- C77 fails: once more responses than its channel holds are waiting for a client that does not receive, no other client gets a response of a server. -/
theorem C77_silent_refuted (evs : List Ev) (s s' : State) (j : Nat) (hs : Stuck s j) (h1 : .send j ∉ evs) (h2 : .sendFails j ∉ evs) (hr : run s evs = some s') :
    Blocked s j evs s' := blocked_run evs s s' j hs h1 h2 hr

/-- C77 fails for good if that client is gone: its stream has failed, so nobody takes from the channel. -/
theorem C77_gone_refuted (evs : List Ev) (s s' : State) (j : Nat) (t : Stream) (hs : Stuck s j) (ht : s.streams[j]? = some t) (hd : t.alive = false)
    (hr : run s evs = some s') : Blocked s j evs s' := by
  have key : ∀ (evs : List Ev) (s s' : State), (∃ t, s.streams[j]? = some t ∧ t.alive = false) → run s evs = some s' → .send j ∉ evs ∧ .sendFails j ∉ evs := by
    intro evs
    induction evs with
    | nil => simp
    | cons e evs ih =>
      intro s s' hd hr
      rw [run] at hr
      cases hst : step s e with
      | none => rw [hst] at hr; cases hr
      | some s1 =>
        rw [hst] at hr
        obtain ⟨t, ht, hd⟩ := hd
        have hboth : (∃ t, s1.streams[j]? = some t ∧ t.alive = false) ∧ e ≠ .send j ∧ e ≠ .sendFails j := by
          unfold step at hst
          split at hst
          · cases hst
          · cases e <;> grind [State.update]
        obtain ⟨a, b⟩ := ih s1 s' hboth.1 hr
        exact ⟨by simp only [List.mem_cons, not_or]; exact ⟨fun h => hboth.2.1 h.symm, a⟩, by simp only [List.mem_cons, not_or]; exact ⟨fun h => hboth.2.2 h.symm, b⟩⟩
  obtain ⟨a, b⟩ := key evs s s' ⟨t, ht, hd⟩ hr
  exact blocked_run evs s s' j hs a b hr

/-- The response of a server for call `u`. -/
def respFor (u : Str) : CallStreamResponse :=
  { response := none, rpcError := none, publicKey := [], note := some ⟨[], [], none, none, u⟩ }

/-- A call of client 0 that is answered. -/
def call (u : Str) : List Ev := [.forward 0 u, .store 0, .incoming (respFor u), .route]

/-- Both situations are reachable, with 101 calls and a second client that waits for a response: the relay with two clients after `k` calls of client 0. -/
theorem calls_run (u : Str) (k : Nat) (hk : k ≤ capacity) (a : Bool) : ∃ q : List RelayStreamResponse, q.length = k ∧
    run { init with streams := [⟨[], a, [], none⟩, ⟨[], true, [], none⟩] } ((List.replicate k (call u)).flatten) =
      some { init with streams := [⟨q, a, [], none⟩, ⟨[], true, [], none⟩] } := by
  induction k with
  | zero => exact ⟨[], rfl, rfl⟩
  | succ k ih =>
    obtain ⟨q, hq, h⟩ := ih (by omega)
    refine ⟨q ++ [{ relayStreamError := none, response := some (respFor u), uuid := u }], by simp [hq], ?_⟩
    rw [List.replicate_succ', List.flatten_append, run_append, h]
    simp [call, run, step, init, State.update, respFor, GoMap.lookup, GoMap.insert, GoMap.erase, hq, show k < capacity by omega]

example (u v : Str) (huv : u ≠ v) : ∃ s, run init ([.connect, .connect] ++ ((List.replicate 100 (call u)).flatten ++
      [.forward 0 u, .store 0, .forward 1 v, .store 1, .incoming (respFor u)])) = some s ∧ Stuck s 0 ∧ s.pending.lookup v = some 1 := by
  obtain ⟨q, hq, h⟩ := calls_run u 100 (by decide) true
  have h0 : run init [.connect, .connect] = some { init with streams := [⟨[], true, [], none⟩, ⟨[], true, [], none⟩] } := rfl
  rw [run_append, h0, Option.bind_some, run_append, h, Option.bind_some]
  refine ⟨{ streams := [⟨q, true, [], none⟩, ⟨[], true, [], none⟩], pending := [(v, 1)]
            routing := some (0, { relayStreamError := none, response := some (respFor u), uuid := u }), crashed := false }, ?_, ?_⟩
  · simp [run, step, init, State.update, respFor, GoMap.lookup, GoMap.insert, GoMap.erase, huv, huv.symm]
  · refine ⟨⟨_, _, rfl, rfl, ?_⟩, ?_⟩
    · simp [hq, capacity]
    · simp [GoMap.lookup]

/-- With a client that is gone: 100 answered calls, two more requests, its stream fails, and the two responses arrive. -/
example (u w v : Str) (huw : u ≠ w) (huv : u ≠ v) (hwv : w ≠ v) : ∃ s t, run init ([.connect, .connect] ++ ((List.replicate 100 (call u)).flatten ++
      [.forward 0 u, .store 0, .forward 0 w, .store 0, .forward 1 v, .store 1, .sendFails 0, .incoming (respFor u), .route, .incoming (respFor w)])) = some s ∧ Stuck s 0 ∧
      s.streams[0]? = some t ∧ t.alive = false ∧ s.pending.lookup v = some 1 := by
  obtain ⟨q, hq, h⟩ := calls_run u 100 (by decide) true
  have h0 : run init [.connect, .connect] = some { init with streams := [⟨[], true, [], none⟩, ⟨[], true, [], none⟩] } := rfl
  rw [run_append, h0, Option.bind_some, run_append, h, Option.bind_some]
  cases q with
  | nil => cases hq
  | cons x q =>
    have hq' : q.length = 99 := by simpa using hq
    refine ⟨{ streams := [⟨q ++ [⟨none, some (respFor u), u⟩], false, [], none⟩, ⟨[], true, [], none⟩], pending := [(v, 1)]
              routing := some (0, { relayStreamError := none, response := some (respFor w), uuid := w }), crashed := false }, _, ?_, ⟨_, _, rfl, rfl, ?_⟩, rfl, rfl, ?_⟩
    · simp [run, step, init, State.update, respFor, GoMap.lookup, GoMap.insert, GoMap.erase, huv, huv.symm, huw, huw.symm, hwv, hwv.symm, hq', capacity]
    · simp [hq', capacity]
    · simp [GoMap.lookup]

/-- C77, the part that holds: while the channel of its client has room, a response can be passed on; and what is queued for a client that receives can be sent. -/
theorem C77_room_partial (s : State) (h1 : s.crashed = false) :
    (∀ (j : Nat) (r : RelayStreamResponse) (t : Stream), s.routing = some (j, r) → s.streams[j]? = some t → t.queue.length < capacity →
      step s .route = some { s with streams := s.streams.set j { t with queue := t.queue ++ [r] }, routing := none }) ∧
    (∀ (k : Nat) (t : Stream) (r : RelayStreamResponse) (q : List RelayStreamResponse), s.streams[k]? = some t → t.alive = true → t.queue = r :: q →
      step s (.send k) = some { s with streams := s.streams.set k { t with queue := q, delivered := t.delivered ++ [r] } }) := by
  constructor
  · intro j r t hr ht hq
    obtain ⟨hlt, hget⟩ := List.getElem?_eq_some_iff.1 ht
    simp [step, h1, hr, hlt, hget, hq]
  · intro k t r q ht ha hq
    obtain ⟨hlt, hget⟩ := List.getElem?_eq_some_iff.1 ht
    simp [step, h1, State.update, hlt, hget, hq, ha]

/-- Whether a step is one of a calm run. -/
def calmEv (s : State) : Ev → Bool
  | .sendFails _ => false
  | .incoming c => match c.note with
    | none => false
    | some n => (s.pending.lookup n.calluuid).isSome
  | _ => true

/-- A sequence of calm steps. -/
def calmRun (s : State) : List Ev → Option State
  | [] => some s
  | e :: es => if calmEv s e then (step s e).bind fun s' => calmRun s' es else none

theorem calmRun_spec (evs pre : List Ev) (s s' : State) (h : CalmRun pre s) (hr : calmRun s evs = some s') : CalmRun (pre ++ evs) s' := by
  induction evs generalizing pre s with
  | nil => simp only [calmRun, Option.some.injEq] at hr; subst hr; simpa using h
  | cons e evs ih =>
    simp only [calmRun] at hr
    split at hr
    · next hc =>
      cases hst : step s e with
      | none => rw [hst] at hr; cases hr
      | some s1 =>
        rw [hst] at hr
        have := ih (pre ++ [e]) s1 (.step pre s s1 e h hst (by rintro j rfl; simp [calmEv] at hc) (by
          rintro c rfl
          simp only [calmEv] at hc
          split at hc
          · cases hc
          · next n hn => exact ⟨n, hn, by intro h; simp [h] at hc⟩)) hr
        simpa using this
    · cases hr

/-- A calm run: two clients, two calls, the responses arrive in the other order. -/
example (u v : Str) (huv : u ≠ v) : ∃ s, CalmRun ([.connect, .connect, .forward 0 u, .store 0, .forward 1 v, .store 1, .incoming (respFor v), .route, .incoming (respFor u),
    .route, .send 0, .send 1]) s ∧ deliveredOf s u = 1 ∧ deliveredOf s v = 1 := by
  refine ⟨⟨[⟨[], true, [⟨none, some (respFor u), u⟩], none⟩, ⟨[], true, [⟨none, some (respFor v), v⟩], none⟩], [], none, false⟩, calmRun_spec _ [] init _ .init ?_, ?_⟩
  · simp [calmRun, calmEv, step, init, State.update, respFor, GoMap.lookup, GoMap.insert, GoMap.erase, huv, huv.symm, capacity]
  · simp [deliveredOf, sumBy, cnt, huv, huv.symm]

end Resmix.Rrpc.Relay
