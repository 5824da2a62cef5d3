import Verif.Spec.MixerWatch
import Verif.Props.Mixer
set_option autoImplicit false
/-
C124: the watchdog of the mixer's mutex (Model/MixerWatch).
-/
namespace Resmix.MixerWatch
open Resmix.Mixer (Messages Task Env MixState Action newMixers workloadOf exec)

/-! ### A long batch -/

theorem run_append {env : Env} {T : Nat} {s : State} (a b : List Ev) : run env T s (a ++ b) = (run env T s a).bind fun s' => run env T s' b := by
  induction a generalizing s with
  | nil => rfl
  | cons e a ih =>
    simp only [List.cons_append, run]
    cases step env T s e with
    | none => rfl
    | some s1 => simp [ih]

theorem run_one {env : Env} {T : Nat} {s s' : State} {e : Ev} (h : step env T s e = some s') : run env T s [e] = some s' := by simp [run, h]

section
variable {env : Env} {topo : Topology} {mixes : List LogicalMix} {w : GoMap Str Int} {s0 : Mixer.State} {T : Nat} {m : Messages}

/-- What is needed of the batch. -/
structure Batch (env : Env) (mixes : List LogicalMix) (w : GoMap Str Int) (m : Messages) : Prop where
  known : ∃ mix ∈ mixes, mix.name = m.logicalReceiver
  fine : ∀ o ∈ m.messages, env.decrypt o ≠ .error .panic
  few : m.messages.length ≤ workloadOf w m.logicalReceiver

theorem Batch.good (hb : Batch env mixes w m) {as : List Action} (hi : ∀ a ∈ as, a.internal) : Mixer.GoodRequests env mixes w (.call [m] :: as) := by
  have hc : ∀ a ∈ Action.call [m] :: as, ∀ ms, a = .call ms → ms = [m] := by
    intro a ha ms e
    rcases List.mem_cons.1 ha with rfl | ha
    · cases e; rfl
    · subst e; exact (hi _ ha).elim
  refine ⟨fun a ha ms e x hx => ?_, fun a ha ms e x hx => ?_, fun mix hm => ?_, ?_⟩
  · rw [hc a ha ms e, List.mem_singleton] at hx; subst hx; exact hb.known
  · rw [hc a ha ms e, List.mem_singleton] at hx; subst hx; exact hb.fine
  · have e : Mixer.delivered (.call [m] :: as) mix.name = Mixer.onionsFor mix.name [m] := by
      rw [Mixer.delivered, List.flatMap_cons]
      have := Mixer.delivered_internal hi mix.name
      rw [Mixer.delivered] at this
      rw [this]; simp [Mixer.deliveredBy]
    rw [e, Mixer.onionsFor]
    by_cases h : m.logicalReceiver = mix.name
    · simp [h]; rw [← h]; exact hb.few
    · simp [h]
  · intro h
    rcases List.mem_cons.1 h with h | h
    · cases h
    · exact hi _ h

/-- The batch is being handed to the workers: `q` tasks are queued, `b` being worked on, `t` still to be queued. -/
structure Sh (env : Env) (s0 : Mixer.State) (m : Messages) (s : State) (q b t : Nat) (wt : List (Req × Nat)) (ck : Nat) : Prop where
  ex : ∃ as, (∀ a ∈ as, a.internal) ∧ exec env s0 (.call [m] :: as) = some s.inner
  q : s.inner.queue.length = q
  b : s.inner.busy.length = b
  t : ∃ n ts, s.inner.holder = some ⟨some (n, ts), []⟩ ∧ ts.length = t
  op : s.inner.closed = false
  wt : s.waiting = wt
  ck : s.clock = ck
  up : s.exited = false

theorem Sh.crash (h0 : newMixers topo mixes w = .ok s0) (hb : Batch env mixes w m) {s : State} {q b t : Nat} {wt : List (Req × Nat)} {ck : Nat} (h : Sh env s0 m s q b t wt ck) :
    s.inner.crashed = false := by
  obtain ⟨as, hi, hx⟩ := h.ex
  exact Mixer.C12_good_requests_are_safe_partial h0 hx (hb.good hi)

theorem Sh.act (h0 : newMixers topo mixes w = .ok s0) (hb : Batch env mixes w m) {s : State} {q b t : Nat} {wt : List (Req × Nat)} {ck : Nat} (h : Sh env s0 m s q b t wt ck)
    {a : Action} (ha : a.internal) {m' : Mixer.State} (hst : Mixer.step env s.inner a = some m') :
    step env T s (.act a) = some { s with inner := m' } ∧ ∃ as, (∀ a ∈ as, a.internal) ∧ exec env s0 (.call [m] :: as) = some m' := by
  constructor
  · have := h.crash h0 hb
    cases a <;> simp [step, h.up, this, hst] <;> exact ha
  · obtain ⟨as, hi, hx⟩ := h.ex
    refine ⟨as ++ [a], fun x hx => ?_, ?_⟩
    · rcases List.mem_append.1 hx with hx | hx
      · exact hi x hx
      · rw [List.mem_singleton] at hx; subst hx; exact ha
    · rw [← List.cons_append, Mixer.exec_append, hx]
      simp [exec, hst]

theorem Sh.push (h0 : newMixers topo mixes w = .ok s0) (hb : Batch env mixes w m) {s : State} {q b t : Nat} {wt : List (Req × Nat)} {ck : Nat} (h : Sh env s0 m s q b (t + 1) wt ck)
    (hq : q < env.taskCap) : ∃ s', step env T s (.act .addStep) = some s' ∧ Sh env s0 m s' (q + 1) b t wt ck := by
  obtain ⟨n, ts, hh, ht⟩ := h.t
  cases ts with
  | nil => simp at ht
  | cons x ts =>
    have hc := h.crash h0 hb
    have hst : Mixer.step env s.inner .addStep = some { s.inner with queue := s.inner.queue ++ [x], holder := some ⟨some (n, ts), []⟩ } := by
      simp [Mixer.step, hc, Mixer.addStep, hh, h.op, h.q, hq]
    obtain ⟨h1, h2⟩ := h.act (T := T) h0 hb (a := .addStep) trivial hst
    exact ⟨_, h1, h2, by simp [h.q], h.b, ⟨n, ts, rfl, by simpa using ht⟩, h.op, h.wt, h.ck, h.up⟩

theorem Sh.take (h0 : newMixers topo mixes w = .ok s0) (hb : Batch env mixes w m) {s : State} {q b t : Nat} {wt : List (Req × Nat)} {ck : Nat} (h : Sh env s0 m s (q + 1) b t wt ck)
    (hq : b < env.nCPU) : ∃ s', step env T s (.act .take) = some s' ∧ Sh env s0 m s' q (b + 1) t wt ck := by
  have hq' := h.q
  cases hqe : s.inner.queue with
  | nil => simp [hqe] at hq'
  | cons x qs =>
    have hc := h.crash h0 hb
    have hst : Mixer.step env s.inner .take = some { s.inner with queue := qs, busy := s.inner.busy ++ [x] } := by
      simp [Mixer.step, hc, hqe, h.b, hq]
    obtain ⟨h1, h2⟩ := h.act (T := T) h0 hb (a := .take) trivial hst
    exact ⟨_, h1, h2, by simpa [hqe] using hq', by simp [h.b], h.t, h.op, h.wt, h.ck, h.up⟩

theorem Sh.finish (h0 : newMixers topo mixes w = .ok s0) (hb : Batch env mixes w m) {s : State} {q b t : Nat} {wt : List (Req × Nat)} {ck : Nat} (h : Sh env s0 m s q (b + 1) t wt ck) :
    ∃ s', step env T s (.act (.finish 0)) = some s' ∧ Sh env s0 m s' q b t wt ck := by
  have hb' := h.b
  cases hbe : s.inner.busy with
  | nil => simp [hbe] at hb'
  | cons x bs =>
    have hc := h.crash h0 hb
    have hst : Mixer.step env s.inner (.finish 0) = some (Mixer.finishTask env { s.inner with busy := bs } x) := by
      simp [Mixer.step, hc, hbe]
    obtain ⟨h1, h2⟩ := h.act (T := T) h0 hb (a := .finish 0) trivial hst
    have hf : ∀ c : Mixer.State, (Mixer.finishTask env c x).queue = c.queue ∧ (Mixer.finishTask env c x).busy = c.busy ∧ (Mixer.finishTask env c x).holder = c.holder ∧
        (Mixer.finishTask env c x).closed = c.closed := by
      intro c
      unfold Mixer.finishTask
      split
      · exact ⟨rfl, rfl, rfl, rfl⟩
      · split
        · exact ⟨rfl, rfl, rfl, rfl⟩
        · split
          · split <;> exact ⟨rfl, rfl, rfl, rfl⟩
          · exact ⟨rfl, rfl, rfl, rfl⟩
    obtain ⟨f1, f2, f3, f4⟩ := hf { s.inner with busy := bs }
    refine ⟨_, h1, h2, ?_, ?_, ?_, ?_, h.wt, h.ck, h.up⟩
    · show (Mixer.finishTask env { s.inner with busy := bs } x).queue.length = q
      rw [f1]; exact h.q
    · show (Mixer.finishTask env { s.inner with busy := bs } x).busy.length = b
      rw [f2]; simpa [hbe] using hb'
    · show ∃ n ts, (Mixer.finishTask env { s.inner with busy := bs } x).holder = some ⟨some (n, ts), []⟩ ∧ ts.length = t
      rw [f3]; exact h.t
    · show (Mixer.finishTask env { s.inner with busy := bs } x).closed = false
      rw [f4]; exact h.op

/-- The workers get their first tasks. -/
theorem fillWorkers (h0 : newMixers topo mixes w = .ok s0) (hb : Batch env mixes w m) (htc : 0 < env.taskCap) (k : Nat) :
    ∀ {s : State} {b t : Nat} {wt : List (Req × Nat)} {ck : Nat}, Sh env s0 m s 0 b (t + k) wt ck → b + k ≤ env.nCPU →
      ∃ s', run env T s (List.replicate k [.act .addStep, .act .take]).flatten = some s' ∧ Sh env s0 m s' 0 (b + k) t wt ck := by
  induction k with
  | zero => intro s b t wt ck h _; exact ⟨s, rfl, h⟩
  | succ k ih =>
    intro s b t wt ck h hle
    obtain ⟨s1, h1, h1'⟩ := Sh.push (T := T) h0 hb (t := t + k) h htc
    obtain ⟨s2, h2, h2'⟩ := h1'.take (T := T) h0 hb (by omega)
    obtain ⟨s3, h3, h3'⟩ := ih h2' (by omega)
    refine ⟨s3, ?_, by rw [show b + (k + 1) = b + 1 + k by omega]; exact h3'⟩
    simp [List.replicate_succ, run, h1, h2, h3]

/-- The channel is filled. -/
theorem fillQueue (h0 : newMixers topo mixes w = .ok s0) (hb : Batch env mixes w m) (k : Nat) :
    ∀ {s : State} {q b t : Nat} {wt : List (Req × Nat)} {ck : Nat}, Sh env s0 m s q b (t + k) wt ck → q + k ≤ env.taskCap →
      ∃ s', run env T s (List.replicate k (.act .addStep)) = some s' ∧ Sh env s0 m s' (q + k) b t wt ck := by
  induction k with
  | zero => intro s q b t wt ck h _; exact ⟨s, rfl, h⟩
  | succ k ih =>
    intro s q b t wt ck h hle
    obtain ⟨s1, h1, h1'⟩ := Sh.push (T := T) h0 hb (t := t + k) h (by omega)
    obtain ⟨s3, h3, h3'⟩ := ih h1' (by omega)
    refine ⟨s3, ?_, by rw [show q + (k + 1) = q + 1 + k by omega]; exact h3'⟩
    simp [List.replicate_succ, run, h1, h3]

/-- One worker decrypts an onion and takes the next. -/
def turn : List Ev := [.act (.finish 0), .act .take, .act .addStep]

theorem turns (h0 : newMixers topo mixes w = .ok s0) (hb : Batch env mixes w m) (k : Nat) :
    ∀ {s : State} {q b t : Nat} {wt : List (Req × Nat)} {ck : Nat}, Sh env s0 m s (q + 1) (b + 1) (t + k) wt ck → q + 1 ≤ env.taskCap → b + 1 ≤ env.nCPU →
      ∃ s', run env T s (List.replicate k turn).flatten = some s' ∧ Sh env s0 m s' (q + 1) (b + 1) t wt ck := by
  induction k with
  | zero => intro s q b t wt ck h _ _; exact ⟨s, rfl, h⟩
  | succ k ih =>
    intro s q b t wt ck h hq hcpu
    obtain ⟨s1, h1, h1'⟩ := Sh.finish (T := T) h0 hb h
    obtain ⟨s2, h2, h2'⟩ := h1'.take (T := T) h0 hb (by omega)
    obtain ⟨s3, h3, h3'⟩ := Sh.push (T := T) h0 hb (t := t + k) h2' (by omega)
    obtain ⟨s4, h4, h4'⟩ := ih h3' hq hcpu
    refine ⟨s4, ?_, h4'⟩
    simp [List.replicate_succ, turn, run, h1, h2, h3]
    exact h4

theorem Sh.tick (h0 : newMixers topo mixes w = .ok s0) (hb : Batch env mixes w m) {s : State} {q b t : Nat} {wt : List (Req × Nat)} {ck : Nat} (h : Sh env s0 m s q b t wt ck) :
    ∃ s', step env T s .tick = some s' ∧ Sh env s0 m s' q b t wt (ck + 1) :=
  ⟨{ s with clock := s.clock + 1 }, by simp [step, h.up, h.crash h0 hb], h.ex, h.q, h.b, h.t, h.op, h.wt, by simp [h.ck], h.up⟩

/-- Time passes: in every tick each worker decrypts an onion. -/
theorem work (h0 : newMixers topo mixes w = .ok s0) (hb : Batch env mixes w m) (k : Nat) :
    ∀ {s : State} {q t : Nat} {wt : List (Req × Nat)} {ck : Nat} {c : Nat}, env.nCPU = c + 1 → env.taskCap = q + 1 → Sh env s0 m s (q + 1) (c + 1) (t + (c + 1) * k) wt ck →
      ∃ s', run env T s (List.replicate k ((List.replicate (c + 1) turn).flatten ++ [.tick])).flatten = some s' ∧ Sh env s0 m s' (q + 1) (c + 1) t wt (ck + k) := by
  induction k with
  | zero => intro s q t wt ck c _ _ h; exact ⟨s, rfl, h⟩
  | succ k ih =>
    intro s q t wt ck c hc hq h
    obtain ⟨s1, h1, h1'⟩ := turns (T := T) h0 hb (c + 1) (t := t + (c + 1) * k) (by rw [show t + (c + 1) * k + (c + 1) = t + (c + 1) * (k + 1) by rw [Nat.mul_succ]; omega]; exact h) (by omega) (by omega)
    obtain ⟨s2, h2, h2'⟩ := h1'.tick (T := T) h0 hb
    obtain ⟨s3, h3, h3'⟩ := ih hc hq h2'
    refine ⟨s3, ?_, by rw [show ck + (k + 1) = ck + 1 + k by omega]; exact h3'⟩
    rw [List.replicate_succ, List.flatten_cons, List.append_assoc, run_append, h1]
    simp only [Option.bind_some, List.singleton_append, run, h2]
    exact h3
end

/-- The run: one batch is sent; somebody asks for outputs; while the batch is worked on, `T` ticks pass, and the watchdog of the waiting caller fires. -/
def slow (env : Env) (T : Nat) (m : Messages) : List Ev :=
  [.ask (.add [m]), .enter 0, .act .addStep] ++ (List.replicate env.nCPU [.act .addStep, .act .take]).flatten ++ List.replicate env.taskCap (.act .addStep) ++
    [.ask (.get m.logicalReceiver)] ++ (List.replicate T ((List.replicate env.nCPU turn).flatten ++ [.tick])).flatten ++ [.fire 0]

theorem asked_append (a b : List Ev) : asked (a ++ b) = asked a ++ asked b := by simp [asked]
theorem ticks_append (a b : List Ev) : ticks (a ++ b) = ticks a + ticks b := by simp [ticks]
theorem finished_append (a b : List Ev) : finished (a ++ b) = finished a + finished b := by simp [finished]

theorem asked_rep (k : Nat) {l : List Ev} (h : asked l = []) : asked (List.replicate k l).flatten = [] := by
  induction k with
  | zero => rfl
  | succ k ih => rw [List.replicate_succ, List.flatten_cons, asked_append, h, ih]; rfl

theorem ticks_rep (k : Nat) (l : List Ev) : ticks (List.replicate k l).flatten = k * ticks l := by
  induction k with
  | zero => rw [Nat.zero_mul]; rfl
  | succ k ih => rw [List.replicate_succ, List.flatten_cons, ticks_append, ih, Nat.succ_mul]; omega

theorem finished_rep (k : Nat) (l : List Ev) : finished (List.replicate k l).flatten = k * finished l := by
  induction k with
  | zero => rw [Nat.zero_mul]; rfl
  | succ k ih => rw [List.replicate_succ, List.flatten_cons, finished_append, ih, Nat.succ_mul]; omega

theorem rep_one (k : Nat) (e : Ev) : List.replicate k e = (List.replicate k [e]).flatten := by
  induction k with
  | zero => rfl
  | succ k ih => rw [List.replicate_succ, List.replicate_succ, List.flatten_cons, ← ih]; rfl

theorem asked_slow (env : Env) (T : Nat) (m : Messages) : asked (slow env T m) = [m] := by
  unfold slow
  rw [rep_one env.taskCap]
  simp only [asked_append]
  rw [asked_rep _ (l := [.act .addStep, .act .take]) rfl, asked_rep _ (l := [.act .addStep]) rfl, asked_rep T]
  · rfl
  · rw [asked_append, asked_rep _ (l := turn) rfl]; rfl

theorem ticks_slow (env : Env) (T : Nat) (m : Messages) : ticks (slow env T m) = T := by
  unfold slow
  rw [rep_one env.taskCap]
  simp only [ticks_append, ticks_rep]
  simp [ticks, turn]

theorem finished_slow (env : Env) (T : Nat) (m : Messages) : finished (slow env T m) = env.nCPU * T := by
  unfold slow
  rw [rep_one env.taskCap]
  simp only [finished_append, finished_rep]
  simp [finished, turn, Nat.mul_comm]

/-- C124 fails: in every round, for every time-out, number of workers and channel size: if one batch has at least `taskCap + nCPU * (timeout + 1)` onions, no
more than announced, and all of them can be decrypted, and somebody asks for outputs meanwhile, then there is a run in which the process exits, although
in every tick every worker has decrypted an onion. -/
theorem C124_long_batch_refuted {env : Env} {topo : Topology} {mixes : List LogicalMix} {w : GoMap Str Int} {s0 : Mixer.State} (h0 : newMixers topo mixes w = .ok s0)
    (hcpu : 0 < env.nCPU) (htc : 0 < env.taskCap) (T : Nat) (m : Messages) (hknown : ∃ mix ∈ mixes, mix.name = m.logicalReceiver)
    (hfine : ∀ o ∈ m.messages, env.decrypt o ≠ .error .panic) (hfew : m.messages.length ≤ workloadOf w m.logicalReceiver)
    (hmany : env.taskCap + env.nCPU * (T + 1) ≤ m.messages.length) :
    ∃ es s, run env T (start s0) es = some s ∧ s.exited = true ∧ s.inner.crashed = false ∧ asked es = [m] ∧ ticks es = T ∧ finished es = env.nCPU * ticks es := by
  have hb : Batch env mixes w m := ⟨hknown, hfine, hfew⟩
  obtain ⟨c, hc⟩ : ∃ c, env.nCPU = c + 1 := ⟨env.nCPU - 1, by omega⟩
  obtain ⟨q, hq⟩ : ∃ q, env.taskCap = q + 1 := ⟨env.taskCap - 1, by omega⟩
  have hspec := Mixer.newMixers_spec h0
  obtain ⟨mix, hm, hn⟩ := hknown
  obtain ⟨ms0, hms0⟩ := Option.isSome_iff_exists.1 (hspec.2.1 mix hm)
  rw [hn] at hms0
  obtain ⟨-, -, eq1, eq2, eq3, -, -, eq4, eq5, -⟩ := hspec
  obtain ⟨t, ht⟩ : ∃ t, m.messages.length = t + (c + 1) * T + env.taskCap + env.nCPU := by
    refine ⟨m.messages.length - ((c + 1) * T + env.taskCap + env.nCPU), ?_⟩
    rw [Nat.mul_succ, hc] at hmany
    omega
  -- the batch is accepted
  obtain ⟨s1, h1, h1'⟩ : ∃ s1, run env T (start s0) [.ask (.add [m]), .enter 0, .act .addStep] = some s1 ∧
      Sh env s0 m s1 0 0 (t + (c + 1) * T + env.taskCap + env.nCPU) [] 0 := by
    refine ⟨⟨{ s0.set m.logicalReceiver (Mixer.handleNewInputs ms0 m).1 with holder := some ⟨some (m.logicalReceiver, (Mixer.handleNewInputs ms0 m).2), []⟩ }, [], 0, false⟩, ?_, ?_⟩
    · simp [run, step, start, eq5, eq3, Mixer.step, Mixer.addStep, hms0, Mixer.State.set]
    · refine ⟨⟨[.addStep], by simp [Action.internal], ?_⟩, by simp [Mixer.State.set, eq1], by simp [Mixer.State.set, eq2], ⟨_, _, rfl, ?_⟩, by simp [Mixer.State.set, eq4], rfl, rfl, rfl⟩
      · simp [exec, Mixer.step, eq5, eq3, Mixer.addStep, hms0, Mixer.State.set]
      · simp [Mixer.handleNewInputs, Mixer.mkTasks_length, ht]
  obtain ⟨s2, h2, h2'⟩ := fillWorkers (T := T) h0 hb htc env.nCPU h1' (by omega)
  obtain ⟨s3, h3, h3'⟩ := fillQueue (T := T) h0 hb env.taskCap h2' (by omega)
  have hcr3 := h3'.crash h0 hb
  obtain ⟨s4, h4, h4'⟩ : ∃ s4, run env T s3 [.ask (.get m.logicalReceiver)] = some s4 ∧ Sh env s0 m s4 (0 + env.taskCap) (0 + env.nCPU) (t + (c + 1) * T) [(.get m.logicalReceiver, 0)] 0 :=
    ⟨{ s3 with waiting := [(.get m.logicalReceiver, 0)] }, by simp [run, step, h3'.up, hcr3, h3'.wt, h3'.ck],
      h3'.ex, h3'.q, h3'.b, h3'.t, h3'.op, rfl, h3'.ck, h3'.up⟩
  obtain ⟨s5, h5, h5'⟩ := work (T := T) h0 hb T hc hq (s := s4) (t := t) (by rw [hc, hq, Nat.zero_add, Nat.zero_add] at h4'; exact h4')
  have hcr5 := h5'.crash h0 hb
  refine ⟨slow env T m, { s5 with exited := true }, ?_, rfl, hcr5, ?_, ?_, ?_⟩
  · unfold slow
    rw [run_append, run_append, run_append, run_append, run_append, h1]
    simp only [Option.bind_some, h2, h3, h4]
    rw [hc, h5]
    simp [run, step, h5'.up, hcr5, h5'.wt, h5'.ck]
  · exact asked_slow env T m
  · exact ticks_slow env T m
  · rw [ticks_slow, finished_slow]

/-! ### Short rounds -/

/-- Onions that the holder of the mutex, and those that wait for it, have yet to queue. -/
def holding (h : Option Mixer.AddOp) : Nat :=
  match h with
  | none => 0
  | some ⟨none, rest⟩ => (rest.flatMap (·.messages)).length
  | some ⟨some (_, ts), rest⟩ => ts.length + (rest.flatMap (·.messages)).length

def reqOnions : Req → Nat
  | .add ms => (ms.flatMap (·.messages)).length
  | .get _ => 0

def waitingOnions (l : List (Req × Nat)) : Nat := (l.map fun x => reqOnions x.1).sum

def held (h : Option Mixer.AddOp) (st : Str → Option MixState) : Prop :=
  match h with
  | some ⟨some (n, _), _⟩ => (st n).isSome
  | _ => True

def load (m : Mixer.State) : Nat := m.queue.length + m.busy.length + holding m.holder

theorem finishTask_keeps (env : Env) (c : Mixer.State) (x : Task) : (Mixer.finishTask env c x).queue = c.queue ∧ (Mixer.finishTask env c x).busy = c.busy ∧
    (Mixer.finishTask env c x).holder = c.holder ∧ ∀ n, (c.states n).isSome → ((Mixer.finishTask env c x).states n).isSome := by
  unfold Mixer.finishTask
  split
  · exact ⟨rfl, rfl, rfl, fun _ h => h⟩
  · split
    · exact ⟨rfl, rfl, rfl, fun _ h => h⟩
    · split
      · split
        · exact ⟨rfl, rfl, rfl, fun _ h => h⟩
        · refine ⟨rfl, rfl, rfl, fun n h => ?_⟩
          simp only [Mixer.State.set]
          split <;> simp [h]
      · exact ⟨rfl, rfl, rfl, fun _ h => h⟩

/-- An internal step of the round keeps the load, but for a decryption. -/
theorem load_step {env : Env} {s s' : Mixer.State} {a : Action} (ha : ∀ ms, a ≠ .call ms) (h : Mixer.step env s a = some s') (hh : held s.holder s.states) :
    load s' + finished [.act a] = load s ∧ held s'.holder s'.states := by
  unfold Mixer.step at h
  split at h
  · simp at h
  cases a with
  | call ms => exact absurd rfl (ha ms)
  | addStep =>
    dsimp only [Mixer.addStep] at h
    split at h
    · simp at h
    · rename_i he; simp at h; subst h; simp [load, holding, he, held, finished]
    · rename_i mm rest he
      split at h
      · simp at h; subst h; exact ⟨rfl, hh⟩
      · simp at h; subst h
        simp [load, holding, he, held, finished, Mixer.State.set, Mixer.handleNewInputs, Mixer.mkTasks_length]
    · rename_i n x ts rest he
      split at h
      · simp at h; subst h; exact ⟨rfl, hh⟩
      · split at h
        · simp at h; subst h
          rw [he] at hh
          simp [load, holding, he, finished]
          exact ⟨by omega, hh⟩
        · simp at h
    · rename_i n rest he
      split at h
      · simp at h
      · split at h <;> (simp at h; subst h; simp [load, holding, he, held, finished])
  | take =>
    dsimp only at h
    split at h
    · simp at h
    · rename_i x q he
      split at h
      · simp at h; subst h; simp [load, he, finished]; exact ⟨by omega, hh⟩
      · simp at h
  | finish i =>
    dsimp only at h
    split at h
    · simp at h
    · rename_i x he
      simp at h; subst h
      obtain ⟨f1, f2, f3, f4⟩ := finishTask_keeps env { s with busy := s.busy.eraseIdx i } x
      refine ⟨?_, ?_⟩
      · have hi : i < s.busy.length := by
          rcases Nat.lt_or_ge i s.busy.length with h | h
          · exact h
          · rw [List.getElem?_eq_none h] at he; cases he
        unfold load
        rw [f1, f2, f3]
        simp only [finished, List.length_eraseIdx, hi, if_true]
        simp
        omega
      · rw [f3]
        dsimp only at f4 ⊢
        revert hh
        unfold held
        split
        · exact fun h => f4 _ h
        · exact fun _ => trivial
  | shuffle i words =>
    dsimp only [Mixer.shuffleStep] at h
    have key : ∀ (sh : List Mixer.Shuf) n ms, held s.holder (Mixer.State.set { s with shufs := sh } n ms).states := by
      intro sh n ms
      revert hh
      unfold held
      split
      · intro h; simp only [Mixer.State.set]; split <;> simp [h]
      · exact fun _ => trivial
    split at h
    · split at h
      · simp at h
      · split at h
        · split at h
          · simp at h; subst h; exact ⟨rfl, hh⟩
          · split at h
            · simp at h; subst h; exact ⟨rfl, hh⟩
            · simp at h; subst h; exact ⟨rfl, key _ _ _⟩
        · simp at h
    · simp at h
  | send i =>
    dsimp only [Mixer.sendStep] at h
    split at h
    · split at h
      · simp at h
      · split at h
        · simp at h
        · split at h
          · simp at h; subst h; exact ⟨rfl, hh⟩
          · simp at h
    · simp at h
  | recv =>
    dsimp only at h
    split at h
    · simp at h
    · simp at h; subst h; exact ⟨rfl, hh⟩
  | close =>
    dsimp only at h
    split at h <;> (simp at h; subst h; exact ⟨rfl, hh⟩)

theorem sum_eraseIdx (l : List Nat) (i : Nat) {x : Nat} (h : l[i]? = some x) : (l.eraseIdx i).sum + x = l.sum := by
  induction l generalizing i with
  | nil => simp at h
  | cons a l ih =>
    cases i with
    | zero => simp at h; subst h; simp; omega
    | succ i => simp at h; have := ih i h; simp; omega

theorem waitingOnions_erase {l : List (Req × Nat)} {i : Nat} {x : Req × Nat} (h : l[i]? = some x) : waitingOnions (l.eraseIdx i) + reqOnions x.1 = waitingOnions l := by
  have : (l.map fun x => reqOnions x.1)[i]? = some (reqOnions x.1) := by simp [h]
  have := sum_eraseIdx _ i this
  unfold waitingOnions
  rw [← this]
  congr 2
  rw [List.eraseIdx_map]

/-- All onions are accounted for. -/
def Count (s : State) (es : List Ev) : Prop :=
  finished es + load s.inner + waitingOnions s.waiting = (askedOnions es).length ∧ held s.inner.holder s.inner.states

theorem askedOnions_append (a b : List Ev) : askedOnions (a ++ b) = askedOnions a ++ askedOnions b := by simp [askedOnions, asked]

theorem count_step {env : Env} {T : Nat} {s s' : State} {e : Ev} {es : List Ev} (hc : Count s es) (h : step env T s e = some s') : Count s' (es ++ [e]) := by
  obtain ⟨h1, h2⟩ := hc
  unfold Count
  rw [finished_append, askedOnions_append, List.length_append]
  unfold step at h
  split at h
  · simp at h
  cases e with
  | act a =>
    have ha : ∀ ms, a ≠ .call ms := by
      rintro ms rfl
      simp at h
    have h' : (Mixer.step env s.inner a).map (fun m => { s with inner := m }) = some s' := by
      cases a <;> first | exact h | exact absurd rfl (ha _)
    obtain ⟨m, hm, rfl⟩ := Option.map_eq_some_iff.1 h'
    obtain ⟨l1, l2⟩ := load_step ha hm h2
    refine ⟨?_, l2⟩
    dsimp only
    have : (askedOnions [Ev.act a]).length = 0 := rfl
    omega
  | ask r =>
    simp at h; subst h
    refine ⟨?_, h2⟩
    cases r <;> simp [waitingOnions, reqOnions, finished, askedOnions, asked] at h1 ⊢ <;> omega
  | enter i =>
    dsimp only at h
    split at h
    · simp at h
    · rename_i r t0 hw
      have hwo := waitingOnions_erase hw
      split at h
      · simp at h
      · rename_i hno
        have hno' : s.inner.holder = none := by simpa using hno
        split at h
        · simp at h; subst h
          refine ⟨?_, h2⟩
          simp [reqOnions] at hwo
          simp [finished, askedOnions, asked] at h1 ⊢
          omega
        · rename_i ms
          obtain ⟨m, hm, rfl⟩ := Option.map_eq_some_iff.1 h
          simp [Mixer.step, hno'] at hm
          obtain ⟨-, rfl⟩ := hm
          refine ⟨?_, trivial⟩
          simp [reqOnions] at hwo
          simp [finished, askedOnions, asked, load, holding, hno'] at h1 ⊢
          omega
  | tick =>
    simp at h; subst h
    refine ⟨?_, h2⟩
    have : (askedOnions [Ev.tick]).length = 0 := rfl
    have : finished [Ev.tick] = 0 := rfl
    dsimp only
    omega
  | fire i =>
    dsimp only at h
    split at h
    · simp at h
    · split at h
      · simp at h; subst h
        refine ⟨?_, h2⟩
        have : (askedOnions [Ev.fire i]).length = 0 := rfl
        have : finished [Ev.fire i] = 0 := rfl
        dsimp only
        omega
      · simp at h

theorem run_snoc {env : Env} {T : Nat} {s s' : State} {es : List Ev} {e : Ev} (h : run env T s (es ++ [e]) = some s') :
    ∃ s1, run env T s es = some s1 ∧ step env T s1 e = some s' := by
  rw [run_append] at h
  cases h1 : run env T s es with
  | none => simp [h1] at h
  | some s1 =>
    rw [h1] at h
    simp only [Option.bind_some, run] at h
    cases h2 : step env T s1 e with
    | none => simp [h2] at h
    | some s2 => simp [h2] at h; subst h; exact ⟨s1, rfl, h2⟩

theorem count_run {env : Env} {topo : Topology} {mixes : List LogicalMix} {w : GoMap Str Int} {s0 : Mixer.State} (h0 : newMixers topo mixes w = .ok s0) {T : Nat}
    {es : List Ev} {s : State} (h : run env T (start s0) es = some s) : Count s es := by
  induction es using List.reverseRecOn generalizing s with
  | nil =>
    simp [run] at h; subst h
    obtain ⟨-, -, eq1, eq2, eq3, -⟩ := Mixer.newMixers_spec h0
    simp [Count, start, finished, load, eq1, eq2, eq3, holding, waitingOnions, askedOnions, asked, held]
  | append_singleton es e ih =>
    obtain ⟨s1, h1, h2⟩ := run_snoc h
    exact count_step (ih h1) h2

/-- A blocked holder: the channel is full, and there is more to queue. -/
theorem blocked_full {env : Env} {s : State} {es : List Ev} (hc : Count s es) (hb : Blocked env s) : finished es + env.taskCap + 1 ≤ (askedOnions es).length := by
  obtain ⟨h1, h2⟩ := hc
  obtain ⟨hcr, hne, hst⟩ := hb
  simp only [Mixer.step, hcr, Bool.false_eq_true, if_false, Mixer.addStep] at hst
  split at hst
  · contradiction
  · simp at hst
  · split at hst <;> simp at hst
  · rename_i n x ts rest he
    split at hst
    · simp at hst
    · split at hst
      · simp at hst
      · rename_i hfull
        simp [load, he, holding] at h1
        omega
  · rename_i n rest he
    rw [he] at h2
    simp only [held] at h2
    split at hst
    · rename_i hn; rw [hn] at h2; simp at h2
    · split at hst <;> simp at hst

/-- How long each caller has waited, and how much was done meanwhile. -/
def Waits (env : Env) (T r : Nat) (s0 : State) (es : List Ev) (s : State) : Prop :=
  ∀ x ∈ s.waiting, x.2 = s.clock ∨ (x.2 < s.clock ∧ ∃ pre mid s1, es = pre ++ .tick :: mid ∧ ticks mid = 0 ∧ run env T s0 pre = some s1 ∧ Blocked env s1 ∧
    r * (s.clock - x.2 - 1) ≤ finished pre)

theorem Waits.keep {env : Env} {T r : Nat} {s0 s s' : State} {es : List Ev} {e : Ev} (h : Waits env T r s0 es s) (he : ticks [e] = 0) (hc : s'.clock = s.clock)
    (hw : ∀ x ∈ s'.waiting, x ∈ s.waiting ∨ x.2 = s.clock) : Waits env T r s0 (es ++ [e]) s' := by
  intro x hx
  rw [hc]
  rcases hw x hx with hx | hx
  · rcases h x hx with h | ⟨h, pre, mid, s1, h1, h2, h3⟩
    · exact .inl h
    · exact .inr ⟨h, pre, mid ++ [e], s1, by rw [h1]; simp, by rw [ticks_append, h2, he], h3⟩
  · exact .inl hx

theorem waits_run {env : Env} {T r : Nat} {s0 s : State} (hs0 : s0.waiting = []) {es post : List Ev} (h : run env T s0 es = some s)
    (hp : Prompt env T s0 (es ++ post)) (hr : Rate env T r s0 (es ++ post)) : Waits env T r s0 es s := by
  induction es using List.reverseRecOn generalizing s post with
  | nil => simp [run] at h; subst h; intro x hx; rw [hs0] at hx; cases hx
  | append_singleton es e ih =>
    obtain ⟨s1, h1, h2⟩ := run_snoc h
    have hw := ih (post := e :: post) h1 (by simpa using hp) (by simpa using hr)
    have h2' := h2
    unfold step at h2
    split at h2
    · simp at h2
    cases e with
    | act a =>
      have ha : ∀ ms, a ≠ .call ms := by
        rintro ms rfl
        simp at h2
      have h' : (Mixer.step env s1.inner a).map (fun m => { s1 with inner := m }) = some s := by
        cases a <;> first | exact h2 | exact absurd rfl (ha _)
      obtain ⟨m, hm, rfl⟩ := Option.map_eq_some_iff.1 h'
      exact hw.keep rfl rfl fun x hx => .inl hx
    | ask q =>
      simp at h2; subst h2
      refine hw.keep rfl rfl fun x hx => ?_
      rcases List.mem_append.1 hx with hx | hx
      · exact .inl hx
      · rw [List.mem_singleton] at hx; subst hx; exact .inr rfl
    | enter i =>
      have : s.clock = s1.clock ∧ s.waiting = s1.waiting.eraseIdx i := by
        dsimp only at h2
        split at h2
        · simp at h2
        · split at h2
          · simp at h2
          · split at h2
            · simp at h2; subst h2; exact ⟨rfl, rfl⟩
            · obtain ⟨m, hm, rfl⟩ := Option.map_eq_some_iff.1 h2
              exact ⟨rfl, rfl⟩
      exact hw.keep rfl this.1 fun x hx => .inl (List.mem_of_mem_eraseIdx (this.2 ▸ hx))
    | fire i =>
      have : s.clock = s1.clock ∧ s.waiting = s1.waiting := by
        dsimp only at h2
        split at h2
        · simp at h2
        · split at h2
          · simp at h2; subst h2; exact ⟨rfl, rfl⟩
          · simp at h2
      exact hw.keep rfl this.1 fun x hx => .inl (this.2 ▸ hx)
    | tick =>
      simp at h2; subst h2
      intro x hx
      have hbl : Blocked env s1 := by
        rcases hp es post s1 (by simp) h1 with ⟨-, hn⟩ | hb
        · dsimp only at hx; rw [hn] at hx; cases hx
        · exact hb
      right
      rcases hw x hx with h | ⟨h, pre, mid, s2, e1, e2, e3, e4, e5⟩
      · refine ⟨by dsimp only; omega, es, [], s1, rfl, rfl, h1, hbl, ?_⟩
        rw [show (s1.clock + 1 - x.2 - 1) = 0 by omega]; simp
      · refine ⟨by dsimp only; omega, es, [], s1, rfl, rfl, h1, hbl, ?_⟩
        have := hr pre mid post s2 s1 (by rw [e1]; simp) e2 e3 (by rw [← e1]; exact h1) e4 hbl
        have hf : finished es = finished pre + finished mid := by
          rw [e1, finished_append, show Ev.tick :: mid = [Ev.tick] ++ mid from rfl, finished_append]
          simp [finished]
        show r * (s1.clock + 1 - x.2 - 1) ≤ finished es
        rw [show (s1.clock + 1 - x.2 - 1) = (s1.clock - x.2 - 1) + 1 by omega, Nat.mul_succ, hf]
        omega

/-- C124, what holds: if the code itself takes no time, and while the task channel is full at least `r` onions are decrypted per tick, then in every run in
which at most `taskCap + r * (timeout - 1)` onions are sent to the round (with r = 0: no more than fit in the channel), the watchdog never fires. -/
theorem C124_short_rounds_partial {env : Env} {topo : Topology} {mixes : List LogicalMix} {w : GoMap Str Int} {s0 : Mixer.State} (h0 : newMixers topo mixes w = .ok s0)
    {T r : Nat} (hT : 1 ≤ T) {es : List Ev} {s : State} (h : run env T (start s0) es = some s) (hp : Prompt env T (start s0) es) (hr : Rate env T r (start s0) es)
    (hfew : (askedOnions es).length ≤ env.taskCap + r * (T - 1)) : s.exited = false := by
  by_contra hex
  have hex : s.exited = true := by simpa using hex
  -- the step at which it exits
  have key : ∀ (es : List Ev) (s : State), run env T (start s0) es = some s → s.exited = true → ∃ pre post i s1 x, es = pre ++ .fire i :: post ∧ run env T (start s0) pre = some s1 ∧
      x ∈ s1.waiting ∧ x.2 + T ≤ s1.clock := by
    intro es
    induction es using List.reverseRecOn with
    | nil => intro s h he; simp [run] at h; subst h; cases he
    | append_singleton es e ih =>
      intro s h he
      obtain ⟨s1, h1, h2⟩ := run_snoc h
      cases he1 : s1.exited with
      | true =>
        obtain ⟨pre, post, i, s2, x, e1, e2⟩ := ih s1 h1 he1
        exact ⟨pre, post ++ [e], i, s2, x, by rw [e1]; simp, e2⟩
      | false =>
        unfold step at h2
        split at h2
        · simp at h2
        cases e with
        | act a =>
          have ha : ∀ ms, a ≠ .call ms := by
            rintro ms rfl
            simp at h2
          have h' : (Mixer.step env s1.inner a).map (fun m => { s1 with inner := m }) = some s := by
            cases a <;> first | exact h2 | exact absurd rfl (ha _)
          obtain ⟨m, hm, rfl⟩ := Option.map_eq_some_iff.1 h'
          simp [he1] at he
        | ask q => simp at h2; subst h2; simp [he1] at he
        | tick => simp at h2; subst h2; simp [he1] at he
        | enter i =>
          dsimp only at h2
          split at h2
          · simp at h2
          · split at h2
            · simp at h2
            · split at h2
              · simp at h2; subst h2; simp [he1] at he
              · obtain ⟨m, hm, rfl⟩ := Option.map_eq_some_iff.1 h2
                simp [he1] at he
        | fire i =>
          dsimp only at h2
          split at h2
          · simp at h2
          · rename_i q t0 hw
            split at h2
            · rename_i ht
              exact ⟨es, [], i, s1, (q, t0), rfl, h1, List.mem_of_getElem? hw, ht⟩
            · simp at h2
  obtain ⟨pre, post, i, s1, x, e1, e2, e3, e4⟩ := key es s h hex
  have hw := waits_run (post := .fire i :: post) (r := r) rfl e2 (e1 ▸ hp) (e1 ▸ hr) x e3
  rcases hw with hw | ⟨-, p1, mid, s2, f1, -, f2, f3, f4⟩
  · omega
  · have hfull := blocked_full (count_run h0 f2) f3
    have hsub : (askedOnions p1).length ≤ (askedOnions es).length := by
      rw [e1, f1]; simp [askedOnions_append]
    have : r * (T - 1) ≤ r * (s1.clock - x.2 - 1) := Nat.mul_le_mul_left r (by omega)
    omega

/-! ### Examples -/

namespace Ex
def isTick : Ev → Bool | .tick => true | _ => false
theorem isTick_tick {e : Ev} (h : e = .tick) : isTick e = true := by subst h; rfl

/-- One worker, room for one task. -/
def env : Env := { Mixer.Ex.env with nCPU := 1, taskCap := 1 }
def w : GoMap Str Int := [(mixNameOf 0 0, 4), (mixNameOf 1 1, 4), (mixNameOf 0 1, 0), (mixNameOf 1 0, 0)]
def s0 : Mixer.State := match newMixers Mixer.Ex.topo Mixer.Ex.mixes w with | .ok s => s | .error _ => ⟨fun _ => none, [], [], none, [], [], false, true, []⟩
theorem new_ok : newMixers Mixer.Ex.topo Mixer.Ex.mixes w = .ok s0 := by rfl
def four : Messages := Mixer.Ex.batch [Mixer.Ex.o1, Mixer.Ex.o2, Mixer.Ex.o1, Mixer.Ex.o2]

/-- The hypotheses of the refutation, with a time-out of two ticks. -/
example : ∃ es s, run env 2 (start s0) es = some s ∧ s.exited = true ∧ asked es = [four] ∧ ticks es = 2 ∧ finished es = 2 := by
  obtain ⟨es, s, h1, h2, -, h3, h4, h5⟩ := C124_long_batch_refuted new_ok (env := env) (by decide) (by decide) 2 four ⟨Mixer.Ex.m00, by decide, rfl⟩
    (by decide) (by decide) (by decide)
  exact ⟨es, s, h1, h2, h3, h4, by rw [h5, h4]; rfl⟩

/-- The same batch with a time-out of four ticks: the caller of GetMixOutputs waits for two ticks, and gets the mutex. -/
def ok : List Ev := [.ask (.add [four]), .enter 0, .act .addStep, .act .addStep, .act .take, .act .addStep, .ask (.get four.logicalReceiver), .tick, .act (.finish 0), .act .take,
  .act .addStep, .tick, .act (.finish 0), .act .take, .act .addStep, .act .addStep, .act .addStep, .enter 0]

def okAt (i : Nat) : Bool :=
  match run env 4 (start s0) (ok.take i) with
  | none => false
  | some s => !s.inner.crashed && s.inner.holder.isSome && (Mixer.step env s.inner .addStep).isNone

theorem ok_prompt : Prompt env 4 (start s0) ok := by
  intro pre post s1 he hr
  right
  have hi : pre.length < ok.length := by rw [he]; simp
  have hpre : pre = ok.take pre.length := by rw [he]; simp
  have ht : (ok[pre.length]?).map isTick = some true := by rw [he]; simp [isTick]
  have key : ∀ i < ok.length, (ok[i]?).map isTick = some true → okAt i = true := by decide +kernel
  have := key _ hi ht
  rw [hpre] at hr
  simp only [okAt, hr, Bool.and_eq_true, Bool.not_eq_true', Option.isNone_iff_eq_none, Option.isSome_iff_ne_none] at this
  exact ⟨this.1.1, this.1.2, this.2⟩

theorem ok_rate : Rate env 4 1 (start s0) ok := by
  intro pre mid post s1 s2 he hm _ _ _ _
  have hi : pre.length < ok.length := by rw [he]; simp
  have hj : mid.length < ok.length := by rw [he]; simp; omega
  have hmid : mid = (ok.drop (pre.length + 1)).take mid.length := by rw [he]; simp
  have ht : (ok[pre.length]?).map isTick = some true := by rw [he]; simp [isTick]
  have ht2 : (ok[pre.length + 1 + mid.length]?).map isTick = some true := by
    rw [he, List.getElem?_append_right (by omega), show pre.length + 1 + mid.length - pre.length = mid.length + 1 by omega]
    simp [isTick]
  have key : ∀ i < ok.length, ∀ k < ok.length, (ok[i]?).map isTick = some true → (ok[i + 1 + k]?).map isTick = some true →
      1 ≤ finished ((ok.drop (i + 1)).take k) := by decide +kernel
  have := key _ hi _ hj ht ht2
  rw [← hmid] at this
  exact this

example : ∃ s, run env 4 (start s0) ok = some s ∧ s.exited = false ∧ s.waiting = [] ∧ s.clock = 2 ∧ (askedOnions ok).length = 4 ∧ 4 ≤ env.taskCap + 1 * (4 - 1) := by
  refine ⟨_, rfl, ?_, rfl, rfl, by decide, by decide⟩
  exact C124_short_rounds_partial new_ok (r := 1) (by decide) (es := ok) rfl ok_prompt ok_rate (by decide)
end Ex

end Resmix.MixerWatch
