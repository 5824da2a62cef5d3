import Verif.Model.Stop
import Verif.Props.Streams
import Verif.Props.Relay
set_option autoImplicit false
/-
C103: stopping a server (rrpc/server.go:47-51).
-/
namespace Resmix.Rrpc.Stop
variable {α : Type}

theorem run_append (s : State α) (xs ys : List (Ev α)) : run s (xs ++ ys) = (run s xs).bind fun s' => run s' ys := by
  induction xs generalizing s with
  | nil => rfl
  | cons e xs ih =>
    simp only [List.cons_append, run]
    cases step s e with
    | none => rfl
    | some s' => exact ih s'

theorem step_back {s s' : State α} {e : Streams.Ev α} (h : step s (.back e) = some s') :
    backAllowed s e = true ∧ ∃ b, Streams.step s.back e = some b ∧ s' = { s with back := b } := by
  simp only [step] at h
  split at h
  · cases h
  · split at h
    · next ha =>
      obtain ⟨b, hb, rfl⟩ := Option.map_eq_some_iff.1 h
      exact ⟨ha, b, hb, rfl⟩
    · cases h

theorem step_relay {s s' : State α} {e : Relay.Ev} (h : step s (.relay e) = some s') :
    relayAllowed s e = true ∧ ∃ r, Relay.step s.relay e = some r ∧ s' = { s with relay := r } := by
  simp only [step] at h
  split at h
  · cases h
  · split at h
    · next ha =>
      obtain ⟨b, hb, rfl⟩ := Option.map_eq_some_iff.1 h
      exact ⟨ha, b, hb, rfl⟩
    · cases h

theorem step_crashed {s s' : State α} {e : Ev α} (h : step s e = some s') : s.crashed = false := by
  unfold step at h
  split at h
  · cases h
  · next hc => simpa using hc

/-! ### What fails -/

/-- The channel of relay `r` is open and full, and nobody takes from it. -/
def FullForGood (b : Streams.State α) (r : Nat) : Prop :=
  (∃ c, b.chans[r]? = some c ∧ c.closed = false ∧ Streams.capacity ≤ c.queue.length) ∧ ∀ g ∈ b.senders, g.relay ≠ r

/-- The collector is refusing a parcel of a relay whose channel is full, and the relay is not connected. -/
def CollectorStuck (s : State α) : Prop := ∃ p r x rest, s.collector = .sending p ∧ s.back.procs[p]? = some ((r, x) :: rest) ∧ FullForGood s.back r ∧ s.stopped = true

theorem collectorStuck_step (s s' : State α) (e : Ev α) (h : CollectorStuck s) (hs : step s e = some s') : CollectorStuck s' := by
  obtain ⟨p, r, x, rest, hc, hp, ⟨⟨c, h1, h2, h3⟩, h4⟩, hst⟩ := h
  have hpl := (List.getElem?_eq_some_iff.1 hp).1
  have happ : ∀ l, (s.back.procs ++ [l])[p]? = some ((r, x) :: rest) := fun l => by rw [List.getElem?_append_left hpl]; exact hp
  have hcr := step_crashed hs
  cases e with
  | back e =>
    obtain ⟨ha, b, hb, rfl⟩ := step_back hs
    have hne : ∀ r, e ≠ .connect r := by rintro r rfl; simp [backAllowed, hst] at ha
    refine ⟨p, r, x, rest, hc, ?_, ⟨⟨c, ?_, h2, h3⟩, ?_⟩, hst⟩
    all_goals
      unfold Streams.step at hb
      split at hb
      · cases hb
      · cases e <;> grind
  | relay e =>
    obtain ⟨ha, b, hb, rfl⟩ := step_relay hs
    exact ⟨p, r, x, rest, hc, hp, ⟨⟨c, h1, h2, h3⟩, h4⟩, hst⟩
  | tick => simp [step, hc] at hs
  | collect t => cases t <;> simp [step, hc] at hs
  | resume => simp [step, hc, hp] at hs
  | reply sends =>
    simp only [step, hcr, Bool.false_eq_true, if_false] at hs
    split at hs
    · cases hs; exact ⟨p, r, x, rest, hc, happ _, ⟨⟨c, h1, h2, h3⟩, h4⟩, hst⟩
    · cases hs
  | collectorEnds => simp [step, hc] at hs
  | routerEnds => simp only [step, hcr, Bool.false_eq_true, if_false] at hs; split at hs <;> cases hs; exact ⟨p, r, x, rest, hc, hp, ⟨⟨c, h1, h2, h3⟩, h4⟩, hst⟩
  | cleanerEnds => simp only [step, hcr, Bool.false_eq_true, if_false] at hs; split at hs <;> cases hs; exact ⟨p, r, x, rest, hc, hp, ⟨⟨c, h1, h2, h3⟩, h4⟩, hst⟩
  | stopGrpc =>
    simp only [step, hcr, Bool.false_eq_true, if_false] at hs
    cases hs
    refine ⟨p, r, x, rest, hc, hp, ⟨⟨c, h1, h2, h3⟩, ?_⟩, rfl⟩
    intro g hg
    simp only [breakAll, List.mem_map] at hg
    obtain ⟨g', hg', rfl⟩ := hg
    exact h4 g' hg'
  | cancel => simp only [step, hcr, Bool.false_eq_true, if_false, hst, if_true] at hs; cases hs; exact ⟨p, r, x, rest, hc, hp, ⟨⟨c, h1, h2, h3⟩, h4⟩, rfl⟩
  | returns => simp [step, hc] at hs

/-- C103 fails: if the collector is sending a refusal to a relay that is not connected and whose channel is full, `Stop` never returns, whatever happens. -/
theorem C103_collector_hangs_refuted (s s' : State α) (evs : List (Ev α)) (h : CollectorStuck s) (h0 : s.returned = false) (hr : run s evs = some s') :
    s'.returned = false ∧ CollectorStuck s' := by
  induction evs generalizing s with
  | nil => cases hr; exact ⟨h0, h⟩
  | cons e evs ih =>
    rw [run] at hr
    cases hst : step s e with
    | none => rw [hst] at hr; cases hr
    | some s1 =>
      rw [hst] at hr
      refine ih s1 (collectorStuck_step s s1 e h hst) ?_ hr
      obtain ⟨p, r, x, rest, hc, _⟩ := h
      have hcr := step_crashed hst
      cases e with
      | back e => obtain ⟨_, b, _, rfl⟩ := step_back hst; exact h0
      | relay e => obtain ⟨_, b, _, rfl⟩ := step_relay hst; exact h0
      | collect t => cases t <;> simp [step, hc] at hst
      | _ => simp only [step] at hst; grind

/-- The router is passing a response to a client whose channel is full and whose stream has ended. -/
def RouterStuck (s : State α) : Prop :=
  ∃ j r t, s.relay.routing = some (j, r) ∧ s.relay.streams[j]? = some t ∧ t.alive = false ∧ Relay.capacity ≤ t.queue.length ∧ s.router = true

theorem routerStuck_step (s s' : State α) (e : Ev α) (h : RouterStuck s) (hs : step s e = some s') : RouterStuck s' ∧ (s.returned = false → s'.returned = false) := by
  obtain ⟨j, r, t, h1, h2, h3, h4, h5⟩ := h
  have hcr := step_crashed hs
  cases e with
  | back e => obtain ⟨_, b, _, rfl⟩ := step_back hs; exact ⟨⟨j, r, t, h1, h2, h3, h4, h5⟩, id⟩
  | relay e =>
    obtain ⟨_, b, hb, rfl⟩ := step_relay hs
    refine ⟨?_, id⟩
    unfold Relay.step at hb
    split at hb
    · cases hb
    have key : b.routing = some (j, r) ∧ ∃ t, b.streams[j]? = some t ∧ t.alive = false ∧ Relay.capacity ≤ t.queue.length := by
      cases e <;> grind [Relay.State.update]
    obtain ⟨ha, t', h2', h3', h4'⟩ := key
    exact ⟨j, r, t', ha, h2', h3', h4', h5⟩
  | collect t' => cases t' <;> (simp only [step, hcr, Bool.false_eq_true, if_false] at hs; split at hs <;> cases hs; exact ⟨⟨j, r, t, h1, h2, h3, h4, h5⟩, id⟩)
  | resume =>
    simp only [step, hcr, Bool.false_eq_true, if_false] at hs
    (repeat' split at hs) <;> cases hs
    exact ⟨⟨j, r, t, h1, h2, h3, h4, h5⟩, id⟩
  | stopGrpc =>
    simp only [step, hcr, Bool.false_eq_true, if_false] at hs
    cases hs; exact ⟨⟨j, r, t, h1, h2, h3, h4, h5⟩, id⟩
  | routerEnds => simp [step, h1] at hs
  | returns => simp [step, h5] at hs
  | _ =>
    simp only [step, hcr, Bool.false_eq_true, if_false] at hs
    split at hs <;> cases hs
    exact ⟨⟨j, r, t, h1, h2, h3, h4, h5⟩, id⟩

/-- C103 fails: if the router is passing a response to a client that is gone and whose channel is full, `Stop` never returns. -/
theorem C103_router_hangs_refuted (s s' : State α) (evs : List (Ev α)) (h : RouterStuck s) (h0 : s.returned = false) (hr : run s evs = some s') :
    s'.returned = false ∧ RouterStuck s' := by
  induction evs generalizing s with
  | nil => cases hr; exact ⟨h0, h⟩
  | cons e evs ih =>
    rw [run] at hr
    cases hst : step s e with
    | none => rw [hst] at hr; cases hr
    | some s1 =>
      rw [hst] at hr
      obtain ⟨ha, hb⟩ := routerStuck_step s s1 e h hst
      exact ih s1 ha (hb h0) hr

/-- The responses of a call, one for every relay. -/
def replyTo (n : Nat) (x : α) : List (Nat × α) := (List.range n).map fun i => (i, x)

/-- C103 fails: `Stop` while two robust calls are being served ends the process. The streams are broken by `gsrvr.Stop()`, the first response for a relay makes its sender
goroutine close the relay's channel, the second is sent on the closed channel. -/
theorem C103_crash_refuted (n : Nat) (hn : 0 < n) (x y : α) : ∃ s,
    run (init n) [.back (.connect 0), .collect .start, .collect .start, .stopGrpc, .cancel, .reply (replyTo n x), .back (.send 0), .back (.deliver 0),
      .reply (replyTo n y), .back (.send 1)] = some s ∧ s.crashed = true := by
  obtain ⟨m, rfl⟩ : ∃ m, n = m + 1 := ⟨n - 1, by omega⟩
  simp [run, step, init, Streams.init, Streams.step, Relay.init, State.crashed, backAllowed, breakAll, replyTo, List.range_succ_eq_map, Streams.capacity, List.replicate_succ]

/-- C103 fails: `Stop` returns although a handler is still running; its reply is sent afterwards. -/
theorem C103_handler_runs_refuted (n : Nat) (x : α) : ∃ s s',
    run (init n) [.collect .start, .stopGrpc, .cancel, .cleanerEnds, .collectorEnds, .routerEnds, .returns] = some s ∧ s.returned = true ∧ s.handlers = 1 ∧
    run s [.reply (replyTo n x)] = some s' ∧ s'.back.procs = [replyTo n x] := by
  simp [run, step, init, Streams.init, Relay.init, State.crashed, breakAll]

/-! ### What holds -/

/-- The goroutines counted by the WaitGroup, between steps. -/
structure Inv (s : State α) : Prop where
  sending : ∀ p, s.collector = .sending p → ∃ l, s.back.procs[p]? = some l ∧ ∀ a b rest, l = a :: b :: rest → False
  routing : ∀ j r, s.relay.routing = some (j, r) → s.router = true ∧ j < s.relay.streams.length
  pending : ∀ u j, s.relay.pending.lookup u = some j → j < s.relay.streams.length
  returned : s.returned = true → s.cancelled = true ∧ s.collector = .ended ∧ s.router = false ∧ s.cleaner = false

theorem inv_init (n : Nat) : Inv (init n : State α) where
  sending := by intro p h; cases h
  routing := by intro j r h; cases h
  pending := by intro u j h; cases h
  returned := by intro h; cases h

set_option maxHeartbeats 4000000 in
theorem Inv.step {s s' : State α} {e : Ev α} (h : Inv s) (hs : step s e = some s') : Inv s' := by
  have hcr := step_crashed hs
  obtain ⟨h1, h2, h3, h4⟩ := h
  cases e with
  | back e =>
    obtain ⟨ha, b, hb, rfl⟩ := step_back hs
    refine ⟨?_, h2, h3, h4⟩
    intro p hp
    obtain ⟨l, hl, hl2⟩ := h1 p hp
    have hpl := (List.getElem?_eq_some_iff.1 hl).1
    unfold Streams.step at hb
    split at hb
    · cases hb
    · cases e <;> simp only at hb ⊢ <;> (repeat' split at hb) <;> first
        | cases hb; done
        | (cases hb; exact ⟨l, hl, hl2⟩)
        | (cases hb; exact ⟨l, by simpa [List.getElem?_append_left hpl] using hl, hl2⟩)
        | skip
      cases hb
      simp only
      grind
  | relay e =>
    obtain ⟨ha, b, hb, rfl⟩ := step_relay hs
    refine ⟨h1, ?_, ?_, h4⟩
    all_goals
      unfold Relay.step at hb
      split at hb
      · cases hb
      · cases e <;> grind [Relay.State.update, GoMap.lookup_insert, GoMap.lookup_erase, relayAllowed]
  | collect t =>
    cases t <;> (simp only [Stop.step, hcr, Bool.false_eq_true, if_false] at hs; split at hs <;> cases hs)
    · exact ⟨h1, h2, h3, h4⟩
    · refine ⟨?_, h2, h3, ?_⟩
      · intro p hp; cases hp; exact ⟨_, by simp; rfl, by intro a b rest h; cases h⟩
      · intro hr; have := (h4 hr).2.1; simp_all
    · exact ⟨h1, h2, h3, h4⟩
  | resume =>
    simp only [Stop.step, hcr, Bool.false_eq_true, if_false] at hs
    (repeat' split at hs) <;> cases hs
    exact ⟨by simp, h2, h3, fun hr => by have := (h4 hr).2.1; simp_all⟩
  | reply sends =>
    simp only [Stop.step, hcr, Bool.false_eq_true, if_false] at hs
    split at hs <;> cases hs
    refine ⟨?_, h2, h3, h4⟩
    intro p hp
    obtain ⟨l, hl, hl2⟩ := h1 p hp
    exact ⟨l, by simpa [List.getElem?_append_left (List.getElem?_eq_some_iff.1 hl).1] using hl, hl2⟩
  | stopGrpc =>
    simp only [Stop.step, hcr, Bool.false_eq_true, if_false] at hs
    cases hs; exact ⟨h1, h2, h3, h4⟩
  | _ =>
    simp only [Stop.step, hcr, Bool.false_eq_true, if_false] at hs
    split at hs <;> cases hs
    exact ⟨by grind, by grind, by grind, by grind⟩

theorem Inv.run {s s' : State α} {evs : List (Ev α)} (h : Inv s) (hr : run s evs = some s') : Inv s' := by
  induction evs generalizing s with
  | nil => cases hr; exact h
  | cons e evs ih =>
    rw [Stop.run] at hr
    cases hst : Stop.step s e with
    | none => rw [hst] at hr; cases hr
    | some s1 => rw [hst] at hr; exact ih (h.step hst) hr

/-- The steps of the three goroutines that do not take up new work. -/
def own : Ev α → Bool
  | .resume | .collectorEnds | .routerEnds | .cleanerEnds | .relay .route => true
  | _ => false

/-- The steps by which they take up new work. -/
def work : Ev α → Bool
  | .collect _ | .relay (.incoming _) => true
  | _ => false

/-- The collector is not waiting for room in the channel of a relay. -/
def CollectorFree (s : State α) : Prop :=
  ∀ p r x rest, s.collector = .sending p → s.back.procs[p]? = some ((r, x) :: rest) → ∃ c, s.back.chans[r]? = some c ∧ (c.closed = true ∨ c.queue.length < Streams.capacity)

/-- The router is not waiting for room in the channel of a client. -/
def RouterFree (s : State α) : Prop :=
  ∀ j r t, s.relay.routing = some (j, r) → s.relay.streams[j]? = some t → t.queue.length < Relay.capacity

/-- An upper bound of the steps the goroutines need to end. -/
def need (s : State α) : Nat :=
  (match s.collector with | .waiting => 1 | .sending _ => 2 | .ended => 0) + (if s.router then (if s.relay.routing.isSome then 2 else 1) else 0) + (if s.cleaner then 1 else 0)

theorem need_step {s s' : State α} {e : Ev α} (h : step s e = some s') :
    need s' + (if own e then 1 else 0) ≤ need s + (if work e then 1 else 0) := by
  have hcr := step_crashed h
  cases e with
  | back e => obtain ⟨_, b, _, rfl⟩ := step_back h; simp [need, own, work]
  | relay e =>
    obtain ⟨ha, b, hb, rfl⟩ := step_relay h
    unfold Relay.step at hb
    split at hb
    · cases hb
    · cases e <;> grind [Relay.State.update, relayAllowed, need, own, work]
  | collect t => cases t <;> (simp only [step, hcr, Bool.false_eq_true, if_false] at h; split at h <;> cases h; simp_all [need, own, work]; try omega)
  | resume =>
    simp only [step, hcr, Bool.false_eq_true, if_false] at h
    (repeat' split at h) <;> cases h
    simp_all [need, own, work]; omega
  | _ => simp only [step, hcr, Bool.false_eq_true, if_false] at h; grind [need, own, work, breakAll]

/-- C103, what holds: once the context is cancelled, and as long as neither the collector nor the router waits for room in a full channel, `Stop` is not held up: some step
that brings it nearer is possible, or `Stop` can return; and in any schedule the three goroutines make at most five such steps plus one for every parcel and every response
they still take up. Missing: C103_collector_hangs_refuted, C103_router_hangs_refuted. -/
theorem C103_returns_partial (n : Nat) (evs : List (Ev α)) (s : State α) (hr : run (init n) evs = some s) (hc : s.cancelled = true) (hnc : s.crashed = false) :
    (CollectorFree s → RouterFree s → (∃ s', step s .returns = some s' ∧ s'.returned = true) ∨ (∃ e s', own e = true ∧ step s e = some s') ∨
      (∃ p s', s.collector = .sending p ∧ step s (.back (.send p)) = some s')) ∧
    (∀ more s', run s more = some s' → (more.filter own).length ≤ 5 + (more.filter work).length) := by
  have hI := (inv_init n).run hr
  refine ⟨fun hcf hrf => ?_, fun more s' hm => ?_⟩
  · cases hcoll : s.collector with
    | waiting => exact .inr (.inl ⟨.collectorEnds, _, rfl, by simp only [step, hnc, hc, hcoll, Bool.false_eq_true, if_false]; simp; rfl⟩)
    | sending p =>
      obtain ⟨l, hl, _⟩ := hI.sending p hcoll
      cases l with
      | nil => exact .inr (.inl ⟨.resume, _, rfl, by simp only [step, hnc, hcoll, Bool.false_eq_true, if_false, hl]; rfl⟩)
      | cons a rest =>
        obtain ⟨r, x⟩ := a
        obtain ⟨c, hch, hcl⟩ := hcf p r x rest hcoll hl
        have hb : s.back.crashed = false := by simp [State.crashed] at hnc; exact hnc.1
        refine .inr (.inr ⟨p, ?_⟩)
        rcases hcl with hcl | hcl
        · exact ⟨_, rfl, by simp only [step, hnc, backAllowed, Streams.step, hb, hl, hch, hcl, Bool.false_eq_true, if_false, if_true]; rfl⟩
        · cases hclosed : c.closed with
          | true => exact ⟨_, rfl, by simp only [step, hnc, backAllowed, Streams.step, hb, hl, hch, hclosed, Bool.false_eq_true, if_false, if_true]; rfl⟩
          | false => exact ⟨_, rfl, by simp only [step, hnc, backAllowed, Streams.step, hb, hl, hch, hclosed, hcl, Bool.false_eq_true, if_false, if_true]; rfl⟩
    | ended =>
      cases hrt : s.router with
      | true =>
        cases hro : s.relay.routing with
        | none => exact .inr (.inl ⟨.routerEnds, _, rfl, by simp only [step, hnc, hc, hrt, hro, Bool.false_eq_true, if_false]; simp; rfl⟩)
        | some jr =>
          obtain ⟨j, r⟩ := jr
          have hj := (hI.routing j r hro).2
          have hroom := hrf j r _ hro (List.getElem?_eq_getElem hj)
          have hrc : s.relay.crashed = false := by simp [State.crashed] at hnc; exact hnc.2
          exact .inr (.inl ⟨.relay .route, _, rfl, by simp only [step, hnc, relayAllowed, hrt, Relay.step, hrc, hro, List.getElem?_eq_getElem hj, hroom, Bool.false_eq_true, if_false, if_true]; rfl⟩)
      | false =>
        cases hcl : s.cleaner with
        | true => exact .inr (.inl ⟨.cleanerEnds, _, rfl, by simp only [step, hnc, hc, hcl, Bool.false_eq_true, if_false]; simp; rfl⟩)
        | false => exact .inl ⟨{ s with returned := true }, by simp only [step, hnc, hc, hcoll, hrt, hcl, Bool.false_eq_true, if_false]; simp, rfl⟩
  · have hb : need s ≤ 5 := by unfold need; grind
    have key : ∀ (more : List (Ev α)) (s s' : State α), run s more = some s' → need s' + (more.filter own).length ≤ need s + (more.filter work).length := by
      intro more
      induction more with
      | nil => intro s s' h; cases h; simp
      | cons e more ih =>
        intro s s' h
        rw [run] at h
        cases hst : step s e with
        | none => rw [hst] at h; cases h
        | some s1 =>
          rw [hst] at h
          have h1 := need_step hst
          have h2 := ih s1 s' h
          cases ho : own e <;> cases hw : work e <;> simp [List.filter_cons, ho, hw] at h1 ⊢ <;> omega
    have := key more s s' hm
    omega

/-- C103, what holds: when `Stop` has returned, the three goroutines have ended for good: no parcel is collected, no call is started and no response is routed afterwards.
Missing: calls whose handlers were running (C103_handler_runs_refuted). -/
theorem C103_after_return_partial (n : Nat) (evs more : List (Ev α)) (s s' : State α) (hr : run (init n) evs = some s) (hret : s.returned = true) (hm : run s more = some s') :
    s'.returned = true ∧ s'.handlers ≤ s.handlers ∧
    ∀ e ∈ more, own e = false ∧ work e = false ∧ ∀ u, e ≠ .relay (.clean u) := by
  have hI := (inv_init n).run hr
  clear hr
  induction more generalizing s with
  | nil => cases hm; exact ⟨hret, Nat.le_refl _, by simp⟩
  | cons e more ih =>
    rw [run] at hm
    cases hst : step s e with
    | none => rw [hst] at hm; cases hm
    | some s1 =>
      rw [hst] at hm
      obtain ⟨hc, hcoll, hrt, hcl⟩ := hI.returned hret
      have hcr := step_crashed hst
      have key : s1.returned = true ∧ s1.handlers ≤ s.handlers ∧ own e = false ∧ work e = false ∧ ∀ u, e ≠ .relay (.clean u) := by
        cases e with
        | back e => obtain ⟨_, b, _, rfl⟩ := step_back hst; exact ⟨hret, Nat.le_refl _, rfl, rfl, by simp⟩
        | relay e =>
          obtain ⟨ha, b, _, rfl⟩ := step_relay hst
          refine ⟨hret, Nat.le_refl _, ?_⟩
          cases e <;> simp_all [relayAllowed, own, work]
        | collect t => cases t <;> simp [step, hcoll] at hst
        | _ => simp only [step, hcr, Bool.false_eq_true, if_false] at hst; grind [own, work]
      obtain ⟨a, b, c⟩ := ih s1 key.1 hm (hI.step hst)
      refine ⟨a, by omega, ?_⟩
      intro e' he'
      rcases List.mem_cons.1 he' with rfl | he'
      · exact key.2.2
      · exact c e' he'

/-! ### The hypotheses are met -/

theorem run_back (evs : List (Streams.Ev α)) (s : State α) (hc : s.relay.crashed = false) (ha : ∀ e ∈ evs, ∀ t : State α, backAllowed t e = true) (b : Streams.State α)
    (hb : Streams.run s.back evs = some b) : run s (evs.map .back) = some { s with back := b } := by
  induction evs generalizing s with
  | nil => cases hb; rfl
  | cons e evs ih =>
    rw [Streams.run] at hb
    cases hst : Streams.step s.back e with
    | none => rw [hst] at hb; cases hb
    | some b1 =>
      rw [hst] at hb
      have hcr : s.back.crashed = false := by
        unfold Streams.step at hst
        split at hst
        · cases hst
        · next h => simpa using h
      have h1 : step s (.back e) = some { s with back := b1 } := by
        simp only [step, State.crashed, hcr, hc, Bool.or_false, Bool.false_eq_true, if_false, ha e (List.mem_cons_self ..), if_true, hst]; rfl
      simp only [List.map_cons, run, h1]
      exact ih { s with back := b1 } hc (fun e he => ha e (List.mem_cons_of_mem _ he)) hb

theorem run_relay (evs : List Relay.Ev) (s : State α) (hc : s.back.crashed = false) (h1 : s.stopped = false) (h2 : s.router = true) (h3 : s.cleaner = true) (b : Relay.State)
    (hb : Relay.run s.relay evs = some b) : run s (evs.map .relay) = some { s with relay := b } := by
  induction evs generalizing s with
  | nil => cases hb; rfl
  | cons e evs ih =>
    rw [Relay.run] at hb
    cases hst : Relay.step s.relay e with
    | none => rw [hst] at hb; cases hb
    | some b1 =>
      rw [hst] at hb
      have hcr : s.relay.crashed = false := by
        unfold Relay.step at hst
        split at hst
        · cases hst
        · next h => simpa using h
      have hal : relayAllowed s e = true := by cases e <;> simp [relayAllowed, h1, h2, h3]
      have h1' : step s (.relay e) = some { s with relay := b1 } := by
        simp only [step, State.crashed, hcr, hc, Bool.or_false, Bool.false_eq_true, if_false, hal, if_true, hst]; rfl
      simp only [List.map_cons, run, h1']
      exact ih { s with relay := b1 } hc h1 h2 h3 hb

/-- A hundred parcels of relay 0, which receives nothing, are refused by its stream handler, then one by the collector; then the server is stopped. -/
example (n : Nat) (hn : 0 < n) (x : α) : ∃ evs s, run (init n : State α) evs = some s ∧ CollectorStuck s ∧ s.cancelled = true ∧ s.returned = false := by
  obtain ⟨b, hb, h1, h2, h3, h4, h5⟩ := Streams.full_channel_reachable n hn x 100 (Nat.le_refl _)
  have hr := run_back _ (init n : State α) rfl (by
    intro e he t
    simp only [List.mem_flatMap, List.mem_cons, List.not_mem_nil, or_false] at he
    obtain ⟨_, _, rfl | rfl⟩ := he <;> rfl) b hb
  have hrest : run ({ (init n : State α) with back := b }) [.collect (.refuse 0 x), .stopGrpc, .cancel] =
      some { (init n : State α) with back := breakAll { b with procs := b.procs ++ [[(0, x)]] }, collector := .sending b.procs.length, stopped := true, cancelled := true } := by
    simp [run, step, State.crashed, init, h4, Relay.init, breakAll]
  refine ⟨_, _, by rw [run_append, hr, Option.bind_some]; exact hrest, ⟨b.procs.length, 0, x, [], rfl, by simp [breakAll], ⟨⟨_, h1, rfl, by simp [Streams.capacity]⟩, ?_⟩, rfl⟩, rfl, rfl⟩
  simp [breakAll, h2]

/-- A hundred answered calls of a client that receives nothing, two more requests, its stream fails, the two responses arrive; then the server is stopped. -/
example (n : Nat) (u w : Str) (huw : u ≠ w) : ∃ evs s, run (init n : State α) evs = some s ∧ RouterStuck s ∧ s.cancelled = true ∧ s.returned = false := by
  obtain ⟨q, hq, h⟩ := Relay.calls_run u 100 (by decide) true
  have h0 : Relay.run Relay.init [.connect, .connect] = some { Relay.init with streams := [⟨[], true, [], none⟩, ⟨[], true, [], none⟩] } := rfl
  cases q with
  | nil => cases hq
  | cons x q =>
    have hq' : q.length = 99 := by simpa using hq
    have h2 : Relay.run Relay.init ([.connect, .connect] ++ ((List.replicate 100 (Relay.call u)).flatten ++
        [.forward 0 u, .store 0, .forward 0 w, .store 0, .sendFails 0, .incoming (Relay.respFor u), .route, .incoming (Relay.respFor w)])) =
        some { streams := [⟨q ++ [⟨none, some (Relay.respFor u), u⟩], false, [], none⟩, ⟨[], true, [], none⟩], pending := []
               routing := some (0, { relayStreamError := none, response := some (Relay.respFor w), uuid := w }), crashed := false } := by
      rw [Relay.run_append, h0, Option.bind_some, Relay.run_append, h, Option.bind_some]
      simp [Relay.run, Relay.step, Relay.init, Relay.State.update, Relay.respFor, GoMap.lookup, GoMap.insert, GoMap.erase, huw, huw.symm, hq', Relay.capacity]
    have hr := run_relay _ (init n : State α) rfl rfl rfl rfl _ h2
    refine ⟨_, _, by rw [run_append, hr, Option.bind_some]; exact (show run _ [.stopGrpc, .cancel] = _ by simp only [run, step, State.crashed, init, Streams.init, Bool.or_false, Bool.false_eq_true, if_false, if_true]; rfl), ?_, rfl, rfl⟩
    exact ⟨0, _, _, rfl, rfl, rfl, by simp [hq', Relay.capacity], rfl⟩

/-- `Stop` of a server with a call in progress and a refusal on its way returns, and both free conditions hold on the way. -/
example (x : α) : ∃ s s', run (init 2) [.back (.connect 0), .collect .start, .collect (.refuse 1 x), .stopGrpc, .cancel] = some s ∧ s.cancelled = true ∧ s.crashed = false ∧
    CollectorFree s ∧ RouterFree s ∧ run s [.back (.send 0), .resume, .collectorEnds, .routerEnds, .cleanerEnds, .returns] = some s' ∧ s'.returned = true := by
  refine ⟨_, _, rfl, rfl, rfl, ?_, ?_, rfl, rfl⟩
  · intro p r y rest hp hl
    cases hp
    simp [init, Streams.init, breakAll] at hl
    obtain ⟨⟨rfl, rfl⟩, rfl⟩ := hl
    exact ⟨⟨[], false⟩, rfl, .inr (by simp [Streams.capacity])⟩
  · intro j r t h; cases h

end Resmix.Rrpc.Stop
