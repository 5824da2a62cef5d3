import Verif.Proofs.ProjectClient
import Verif.Props.Relay
import Verif.Props.CallSystem
set_option autoImplicit false
/-
C140: in the whole system of robust calls (Model/CallSystem), with clients, relays and servers interleaved arbitrarily, a relay does what
the model of a relay alone (Model/Relay) can do, and a client what the model of a client alone (Model/RelayConn) can do; so what is proved of
them alone holds in the whole system.
-/
namespace Resmix.Rrpc.CallSystem
variable {μ : Type} {K m n : Nat} {cfg : Config μ K m n}

/-- C140: whatever the whole system does, relay `r` goes through a run of the model of a relay alone: `m` clients connect, then it does what the system's events
mean for it (`relayEv`), and in the end its streams, its pending calls and the response in its hands are those of the system. -/
theorem C140_relay (r : Fin n) (s : State μ K m n) (es : List (Event μ K m n)) (hr : Run cfg init es s) :
    ∃ evs t, Trace cfg (relayEv cfg r) init es s evs ∧ Relay.run Relay.init (List.replicate m .connect ++ evs) = some t ∧ RelayView r s t := by
  obtain ⟨evs, t, h1, h2, h3⟩ := relay_run r s es hr
  exact ⟨evs, t, h1, by rw [relay_run_append, relay_connects]; exact h2, h3⟩

/-- A parcel a relay's handler has comes from a call of its client. -/
def Placed (cfg : Config μ K m n) (s : State μ K m n) : Prop :=
  ∀ (l : PLoc K m n) (x : Fin K × Fin n), x ∈ s.parcels l → s.begun x.1 = true ∧ match l with
    | .ask k => x.1 = k
    | .sending k => x.1 = k
    | .requests c _ => (cfg.calls x.1).client = c
    | .up c _ => (cfg.calls x.1).client = c
    | .handling _ c => (cfg.calls x.1).client = c
    | _ => True

theorem placed_step (s s' : State μ K m n) (e : Event μ K m n) (h : Placed cfg s) (st : Step cfg s e s') : Placed cfg s' := by
  intro q y hy
  cases st with
  | begin k h0 hb =>
    dsimp only at hy ⊢
    by_cases hq : q = .ask k
    · subst hq
      rw [Function.update_self] at hy
      simp only [List.mem_map] at hy
      obtain ⟨r, -, rfl⟩ := hy
      simp
    · rw [Function.update_of_ne hq] at hy
      obtain ⟨a, b⟩ := h q y hy
      refine ⟨?_, b⟩
      by_cases hk : y.1 = k
      · rw [hk, Function.update_self]
      · rw [Function.update_of_ne hk]; exact a
  | moveP l l' x rest h0 hl hn hr =>
    dsimp only at hy ⊢
    rcases mem_move' hl hy with hy | ⟨rfl, rfl⟩
    · exact h q y hy
    · have h' := h l y (by rw [hl]; exact List.mem_cons_self)
      refine ⟨h'.1, ?_⟩
      cases l <;> simp only [nextP, Option.some.injEq, reduceCtorEq] at hn <;> subst hn <;> simp only at h' ⊢
      case sending k => rw [h'.2]
      case requests => exact h'.2
      case up => exact h'.2
  | register k x rest h0 hl hr =>
    dsimp only at hy ⊢
    rcases mem_move' hl hy with hy | ⟨rfl, rfl⟩
    · exact h q y hy
    · exact h (.ask k) y (by rw [hl]; exact List.mem_cons_self)
  | forward r c x rest d h0 hl hd hr =>
    dsimp only at hy ⊢
    rcases mem_move' hl hy with hy | ⟨rfl, rfl⟩
    · exact h q y hy
    · exact ⟨(h (.handling r c) y (by rw [hl]; exact List.mem_cons_self)).1, trivial⟩
  | accept d r cache tick x rest h0 hl hc hr =>
    dsimp only at hy ⊢
    rcases mem_move' hl hy with hy | ⟨rfl, rfl⟩
    · exact h q y hy
    · exact ⟨(h _ y (by rw [hl]; exact List.mem_cons_self)).1, trivial⟩
  | refuse d r cache tick x rest resp h0 hl hc =>
    dsimp only at hy ⊢
    by_cases hq : q = .checking d r
    · subst hq; rw [Function.update_self] at hy; exact h _ y (by rw [hl]; exact List.mem_cons_of_mem _ hy)
    · rw [Function.update_of_ne hq] at hy; exact h q y hy
  | collect d now x rest tasks' h0 hl hb hc =>
    dsimp only at hy ⊢
    rcases mem_move' hl hy with hy | ⟨rfl, rfl⟩
    · exact h q y hy
    · exact ⟨(h _ y (by rw [hl]; exact List.mem_cons_self)).1, trivial⟩
  | collectRun d now x rest tasks' t h0 hl hb hc =>
    dsimp only at hy ⊢
    rcases mem_move' hl hy with hy | ⟨rfl, rfl⟩
    · exact h q y hy
    · exact ⟨(h _ y (by rw [hl]; exact List.mem_cons_self)).1, trivial⟩
  | collectRefuse d now x rest tasks' i e h0 hl hb hc =>
    dsimp only at hy ⊢
    rcases mem_move' hl hy with hy | ⟨rfl, rfl⟩
    · exact h q y hy
    · exact ⟨(h _ y (by rw [hl]; exact List.mem_cons_self)).1, trivial⟩
  | _ => exact h q y hy

theorem begun_step (s s' : State μ K m n) (e : Event μ K m n) (st : Step cfg s e s') (k : Fin K) (h : s.begun k = true) : s'.begun k = true := by
  cases st with
  | begin k' h0 hb =>
    dsimp only
    by_cases hk : k = k'
    · rw [hk, Function.update_self]
    · rw [Function.update_of_ne hk]; exact h
  | _ => exact h

theorem begun_trace {β : Type} {proj : State μ K m n → Event μ K m n → List β} {s s' : State μ K m n} {es : List (Event μ K m n)} {evs : List β}
    (t : Trace cfg proj s es s' evs) (k : Fin K) (h : s.begun k = true) : s'.begun k = true := by
  induction t with
  | nil => exact h
  | cons st _ ih => exact ih (begun_step _ _ _ st k h)

/-- What a relay forwards for a client are calls this client has made. -/
theorem forward_made (r : Fin n) {s s' : State μ K m n} {es : List (Event μ K m n)} {evs : List Relay.Ev} (t : Trace cfg (relayEv cfg r) s es s' evs) (hp : Placed cfg s)
    (c : Fin m) (u : Str) (h : Relay.Ev.forward c u ∈ evs) :
    ∃ (k : Fin K) (r' : Fin n), s'.begun k = true ∧ (cfg.calls k).client = c ∧ ((cfg.calls k).parcels r').note.calluuid = u := by
  induction t with
  | nil => cases h
  | @cons s1 s2 s3 e es evs st tr ih =>
    replace h := List.mem_append.1 h
    rcases h with h | h
    · cases e <;> simp only [relayEv] at h
      case forward r' c' =>
        split at h
        · simp only [List.mem_map, Option.mem_toList, Relay.Ev.forward.injEq] at h
          obtain ⟨x, hx, hc, hu⟩ := h
          have hc' : c' = c := Fin.ext hc
          subst hc'
          obtain ⟨a, b⟩ := hp _ x (List.mem_of_mem_head? hx)
          exact ⟨x.1, x.2, begun_trace (.cons st tr) _ a, b, hu⟩
        · cases h
      case moveA l => cases l <;> simp only [List.not_mem_nil] at h <;> split at h <;> simp at h
      case store r' c' => split at h <;> simp at h
      case clean r' c' => split at h <;> simp at h
      case route r' => split at h <;> simp at h
      all_goals cases h
    · exact ih (placed_step _ _ _ hp st) h

/-- C140, what follows for clients, whatever the network data, the calls and their ids (also repeated ones), the servers' handlers, the cleanups and the interleaving: every
response on the stream from a relay to a client is a server's response for the id of a call that this client has made. -/
theorem C140_only_own (r : Fin n) (c : Fin m) (s : State μ K m n) (es : List (Event μ K m n)) (hr : Run cfg init es s) (a : Ans K n) (ha : a ∈ s.answers (.wireC r c)) :
    ∃ (x : ExchangeNote) (k : Fin K) (r' : Fin n), a.msg.note = some x ∧ s.begun k = true ∧ (cfg.calls k).client = c ∧
      ((cfg.calls k).parcels r').note.calluuid = x.calluuid := by
  obtain ⟨evs, t, h1, h2, h3⟩ := C140_relay r s es hr
  obtain ⟨y, hy, -, -, -, hd⟩ := h3.stream c
  have hm : sent a ∈ y.delivered := hd.subset (List.mem_map_of_mem ha)
  rcases Relay.C62_only_own_partial _ t h2 c y hy (sent a) hm with ⟨b, ⟨hb, x, hx, hu⟩, -, hf⟩ | ⟨e, -, he⟩
  · have hab : a.msg = b := by simpa [sent] using congrArg (·.response) hb
    subst hab
    have hf' : Relay.Ev.forward c (sent a).uuid ∈ evs := by
      rcases List.mem_append.1 hf with h | h
      · have := (List.mem_replicate.1 h).2; cases this
      · exact h
    obtain ⟨k, r', h4, h5, h6⟩ := forward_made r h1 (fun l x h => by simp [init] at h) c _ hf'
    exact ⟨x, k, r', hx, h4, h5, by rw [h6, hu]⟩
  · simpa [sent] using congrArg (·.response) he

/-- C140, the same for clients: if all parcels of a call carry its id (as `RequestIntoRobust` makes them), then whatever the whole system does, a client is in a state that the model
of a client alone (Model/RelayConn) reaches, without its cleanup, by making its calls in the same order. -/
theorem C140_client (hu : ∀ (k : Fin K) (r : Fin n), ((cfg.calls k).parcels r).note.calluuid = cfg.uuid k) (c : Fin m) (s : State μ K m n) (es : List (Event μ K m n))
    (hr : Run cfg init es s) :
    ∃ evs order t, RelayConn.run (RelayConn.init n) evs = some t ∧ RelayConn.CalmRun n evs t ∧ ClientView cfg c order s t :=
  client_run hu c hr [] [] _ (client_view_init c) owned_init rfl .init

/-- C140, what follows for calls: every response in the channel of a call, or taken by it, carries the id of this call; and a response that a client has received can at once be
handed over to its call, whether or not the call still reads. Calls may have equal ids. -/
theorem C140_calls (hu : ∀ (k : Fin K) (r : Fin n), ((cfg.calls k).parcels r).note.calluuid = cfg.uuid k) (s : State μ K m n) (es : List (Event μ K m n)) (hr : Run cfg init es s)
    (k : Fin K) (a : Ans K n) :
    (a ∈ s.answers (.queue k) ∨ a ∈ s.answers (.taken k) → (a.msg.note.map (·.calluuid)).getD [] = cfg.uuid k) ∧
    ∀ (c : Fin m) (r : Fin n), a ∈ s.answers (.recv c r k) → s.crashed = false → ∃ s', Step cfg s (.moveA (.recv c r k)) s' := by
  have ho : Owned cfg s := owned_run hr owned_init
  refine ⟨fun ha => ?_, fun c r ha hs => ?_⟩
  · have hb : s.begun k = true := by
      rcases ha with h | h
      · exact ho.queue k a h
      · exact ho.taken k a h
    obtain ⟨evs, order, t, h1, -, hv⟩ := C140_client hu (cfg.calls k).client s es hr
    have hk : k ∈ order := (hv.made k).2 ⟨hb, rfl⟩
    obtain ⟨z, hz, hzu, hzq, hzt, -⟩ := hv.call _ k (mem_at hk)
    have := RelayConn.C85_own_id n evs t h1 _ z hz (sent a) (by
      rcases ha with h | h
      · right; rw [hzq]; exact List.mem_map_of_mem h
      · left; rw [hzt]; exact List.mem_map_of_mem h)
    rw [hzu] at this
    exact this
  · obtain ⟨evs, order, t, h1, hcalm, hv⟩ := C140_client hu c s es hr
    obtain ⟨y, hy, -, -, hrc⟩ := hv.conn r
    rcases hrc with ⟨-, h⟩ | ⟨k', b, hk', hyr, hb, hne⟩
    · rw [h k] at ha; cases ha
    · have hkk : k = k' := by
        by_contra hn
        rw [hne k hn] at ha; cases ha
      subst hkk
      obtain ⟨t', ht'⟩ := ((RelayConn.C86_calm_partial n evs t hcalm).1 r y hy).1 (by rw [hyr]; simp)
      obtain ⟨z, hz, -, hzq, -⟩ := hv.call _ k (mem_at hk')
      simp only [RelayConn.step, hy, hyr, RelayConn.put, hz] at ht'
      split at ht'
      · cases ht'
      · rename_i hput
        split at hput
        · rename_i hlt
          rw [hzq, hv.relays, List.length_map] at hlt
          exact ⟨_, .moveA s (.recv c r k) (.queue k) b [] hs hb rfl hlt⟩
        · cases hput

/-- No call has received anything. -/
def Quiet (s : State μ K m n) : Prop := (∀ c r k, s.answers (.recv c r k) = []) ∧ (∀ k, s.answers (.queue k) = []) ∧ ∀ k, s.taken k = []

theorem quiet_step (s s' : State μ K m n) (e : Event μ K m n) (h : Quiet s) (st : Step cfg s e s') : Quiet s' ∨ ∃ r c a, a ∈ s.answers (.wireC r c) := by
  obtain ⟨h1, h2, h3⟩ := h
  cases st with
  | answer c r k a rest h0 hf hl hp => exact .inr ⟨r, c, a, by rw [hl]; exact List.mem_cons_self⟩
  | ignore c r a rest h0 hf hl hp => exact .inr ⟨r, c, a, by rw [hl]; exact List.mem_cons_self⟩
  | take k cache a rest h0 hw hask hl => rw [h2] at hl; cases hl
  | moveA l l' a rest h0 hl hn hr =>
    left
    refine ⟨fun c r k => ?_, fun k => ?_, h3⟩ <;> dsimp only <;> rw [move_ne _ _ _ _ _ _ ?_ ?_]
    all_goals first | exact h1 _ _ _ | exact h2 _ | skip
    all_goals
      rintro rfl
      first | (rw [h1] at hl; cases hl) | (rw [h2] at hl; cases hl) | (cases l <;> simp [nextA] at hn <;> (rw [h1] at hl; cases hl))
  | route r c a rest x h0 hf hl hn hp =>
    exact .inl ⟨fun _ _ _ => by dsimp only; rw [move_ne _ _ _ _ _ _ (by simp) (by simp)]; exact h1 _ _ _, fun _ => by dsimp only; rw [move_ne _ _ _ _ _ _ (by simp) (by simp)]; exact h2 _, h3⟩
  | drop r a rest x h0 hf hl hn hp =>
    exact .inl ⟨fun _ _ _ => by dsimp only; rw [move_ne _ _ _ _ _ _ (by simp) (by simp)]; exact h1 _ _ _, fun _ => by dsimp only; rw [move_ne _ _ _ _ _ _ (by simp) (by simp)]; exact h2 _, h3⟩
  | refuse d r cache tick x rest resp h0 hl hc =>
    exact .inl ⟨fun _ _ _ => by dsimp only; rw [push_ne _ _ _ _ (by simp)]; exact h1 _ _ _, fun _ => by dsimp only; rw [push_ne _ _ _ _ (by simp)]; exact h2 _, h3⟩
  | collectRefuse d now x rest tasks' i e h0 hl hb hc =>
    exact .inl ⟨fun _ _ _ => by dsimp only; rw [push_ne _ _ _ _ (by simp)]; exact h1 _ _ _, fun _ => by dsimp only; rw [push_ne _ _ _ _ (by simp)]; exact h2 _, h3⟩
  | finish k r h buf t resps h0 hj ho =>
    exact .inl ⟨fun _ _ _ => by dsimp only; rw [Function.update_of_ne (by simp)]; exact h1 _ _ _, fun _ => by dsimp only; rw [Function.update_of_ne (by simp)]; exact h2 _, h3⟩
  | _ => exact .inl ⟨h1, h2, h3⟩

theorem quiet_run {s s' : State μ K m n} {es : List (Event μ K m n)} (hr : Run cfg s es s') (h : Quiet s) (hs : ¬ Quiet s') :
    ∃ es1 s1, Run cfg s es1 s1 ∧ ∃ r c a, a ∈ s1.answers (.wireC r c) := by
  induction hr with
  | nil s => exact absurd h hs
  | @cons s1 s2 s3 e es st _ ih =>
    rcases quiet_step _ _ _ h st with h2 | h2
    · obtain ⟨es1, s4, h4, h5⟩ := ih h2 hs
      exact ⟨e :: es1, s4, .cons st h4, h5⟩
    · exact ⟨[], s1, .nil _, h2⟩

/-- There are runs in which responses are on the way to clients: those of the example of C105 (`calm_example`), in which both clients' calls succeed. -/
example : ∃ (cfg : Config Unit 2 2 3) (es : List (Event Unit 2 2 3)) (s : State Unit 2 2 3), (∀ k r, ((cfg.calls k).parcels r).note.calluuid = cfg.uuid k) ∧ Run cfg init es s ∧
    ∃ r c a, a ∈ s.answers (.wireC r c) := by
  obtain ⟨cfg, es, s, hh, -, hr, -, hk⟩ := calm_example
  obtain ⟨-, -, mm, b, -, -, hret⟩ := hk 0
  have hq : ¬ Quiet s := by
    intro hq
    cases hcn : s.cancelled 0 with
    | false =>
      have := (hret none).1 (by simp [RobustReply, robustRequest, robustLoop, hq.2.2, hcn])
      cases this
    | true =>
      have := (hret (some (.error .ctxDone))).1 (by simp [RobustReply, robustRequest, robustLoop, hq.2.2, hcn])
      simp only [outcomeOf, Option.some.injEq] at this
      split at this <;> simp at this
  obtain ⟨es1, s1, h1, h2⟩ := quiet_run hr ⟨fun _ _ _ => rfl, fun _ => rfl, fun _ => rfl⟩ hq
  exact ⟨cfg, es1, s1, fun k r => ((hh.parcels k).1 r).uuid, h1, h2⟩

end Resmix.Rrpc.CallSystem
