import Verif.Model.Incoming
set_option autoImplicit false
/-
C78 (the race of Close with responses), C83, C84.
-/
namespace Resmix.Rrpc.Incoming
variable {ρ : Type}

theorem run_append (s : State ρ) (a b : List (Ev ρ)) : run s (a ++ b) = (run s a).bind fun s' => run s' b := by
  induction a generalizing s with
  | nil => rfl
  | cons e a ih =>
    simp only [List.cons_append, run]
    cases step s e with
    | none => rfl
    | some s' => exact ih s'

/-- What the receiving goroutine of server `i` holds. -/
def held (s : State ρ) (i : Nat) : List (Nat × ρ) :=
  match s.receivers[i]? with
  | some ⟨.holding x, _⟩ => [(i, x)]
  | _ => []

/-- The part of a list that came from server `i`. -/
def of (i : Nat) (l : List (Nat × ρ)) : List (Nat × ρ) := l.filter fun x => decide (x.1 = i)

/-- C83: in every interleaving, for every server: what the reader has taken of it, what is in the channel and what its goroutine holds are exactly the responses
received from it, in order: none is lost, duplicated or overtaken. -/
theorem C83_in_order (n : Nat) (evs : List (Ev ρ)) (s : State ρ) (hr : run (init n) evs = some s) (i : Nat) :
    of i s.taken ++ of i s.queue ++ held s i = of i s.received := by
  have key : ∀ (evs : List (Ev ρ)) (s0 s : State ρ), of i s0.taken ++ of i s0.queue ++ held s0 i = of i s0.received → run s0 evs = some s →
      of i s.taken ++ of i s.queue ++ held s i = of i s.received := by
    intro evs
    induction evs with
    | nil => intro s0 s h hr; simp only [run, Option.some.injEq] at hr; subst hr; exact h
    | cons e evs ih =>
      intro s0 s h hr
      rw [run] at hr
      cases hst : step s0 e with
      | none => rw [hst] at hr; cases hr
      | some s1 =>
        rw [hst] at hr
        refine ih s1 s ?_ hr
        unfold step at hst
        split at hst
        · cases hst
        · cases e with
          | response j x =>
            simp only at hst
            split at hst
            · next hj =>
              injection hst with hst; subst hst
              by_cases hij : j = i
              · subst hij
                obtain ⟨hlt, hget⟩ := List.getElem?_eq_some_iff.1 hj
                have h0 : held s0 j = [] := by simp [held, hlt, hget]
                rw [h0] at h
                simp [held, of, hlt] at h ⊢
                rw [← h]; simp
              · have h1 : held ({ s0 with receivers := s0.receivers.set j ⟨.holding x, none⟩, received := s0.received ++ [(j, x)] } : State ρ) i = held s0 i := by
                  simp [held, List.getElem?_set_ne hij]
                rw [h1]
                simp [of, hij] at h ⊢
                exact h
            · cases hst
          | push j =>
            simp only at hst
            split at hst
            · next x g hj =>
              split at hst
              · injection hst with hst; subst hst; exact h
              · split at hst
                · injection hst with hst; subst hst
                  by_cases hij : j = i
                  · subst hij
                    obtain ⟨hlt, hget⟩ := List.getElem?_eq_some_iff.1 hj
                    have h0 : held s0 j = [(j, x)] := by simp [held, hlt, hget]
                    rw [h0] at h
                    simp [held, of, hlt] at h ⊢
                    exact h
                  · have h1 : held ({ s0 with receivers := s0.receivers.set j ⟨.receiving, g⟩, queue := s0.queue ++ [(j, x)] } : State ρ) i = held s0 i := by
                      simp [held, List.getElem?_set_ne hij]
                    rw [h1]
                    simp [of, hij] at h ⊢
                    exact h
                · cases hst
            · cases hst
          | ends j x =>
            simp only at hst
            split at hst
            · next p hj =>
              injection hst with hst; subst hst
              obtain ⟨hlt, hget⟩ := List.getElem?_eq_some_iff.1 hj
              rw [← h]
              congr 1
              by_cases hij : j = i
              · subst hij; simp [held, hlt, hget]; cases p <;> rfl
              · simp [held, List.getElem?_set_ne hij]
            · cases hst
          | recvErr j =>
            simp only at hst
            split at hst
            · next x hj =>
              obtain ⟨hlt, hget⟩ := List.getElem?_eq_some_iff.1 hj
              split at hst
              · injection hst with hst; subst hst
                rw [← h]
                congr 1
                by_cases hij : j = i
                · subst hij; simp [held, hlt, hget]
                · simp [held, List.getElem?_set_ne hij]
              · injection hst with hst; subst hst; exact h
            · cases hst
          | take =>
            simp only at hst
            split at hst
            · next x q hq =>
              injection hst with hst; subst hst
              rw [hq] at h
              rw [← h]
              simp only [of, List.filter_append, List.filter_cons, List.filter_nil, held]
              split <;> simp
            · cases hst
          | close =>
            simp only at hst
            split at hst <;> (injection hst with hst; subst hst; exact h)
          | cancel =>
            simp only at hst
            split at hst
            · injection hst with hst; subst hst
              rw [← h]
              congr 1
              simp only [held, List.getElem?_map]
              cases hc : s0.receivers[i]? with
              | none => simp
              | some g => obtain ⟨p, g⟩ := g; cases p <;> simp [Receiver.cancel]
            · cases hst
  refine key evs (init n) s ?_ hr
  have : held (init n : State ρ) i = [] := by
    simp only [held, init]
    by_cases h : i < n
    · simp [List.getElem?_replicate, h]
    · simp [List.getElem?_replicate, h]
  rw [this]; rfl

/-- C78 fails: in any state of a running coordinator in which some goroutine has received a response and not yet put it into the channel, calling `Close` can
crash the process. -/
theorem C78_race_refuted (s : State ρ) (hup : s.crashed = false) (hopen : s.closed = false) (i : Nat) (x : ρ) (g : Option End) (hi : s.receivers[i]? = some ⟨.holding x, g⟩) :
    (∃ s', run s [.close, .push i] = some s' ∧ s'.crashed = true) ∧ ∃ s', run s [.close, .cancel, .push i] = some s' ∧ s'.crashed = true := by
  obtain ⟨hlt, hget⟩ := List.getElem?_eq_some_iff.1 hi
  constructor <;> simp [run, step, hup, hopen, hlt, hget, Receiver.cancel]

/-- Such a state: after one response. -/
example (x : ρ) : ∃ s : State ρ, run (init 3) [.response 1 x] = some s ∧ s.crashed = false ∧ s.closed = false ∧ s.receivers[1]? = some ⟨.holding x, none⟩ := ⟨_, rfl, rfl, rfl, rfl⟩

/-- No goroutine holds a response. -/
def Quiet (s : State ρ) : Prop := ∀ (i : Nat) (g : Receiver ρ), s.receivers[i]? = some g → ∀ x, g.pc ≠ .holding x

theorem forall_set {α : Type} (P : α → Prop) (l : List α) (i : Nat) (a : α) (h : ∀ (k : Nat) (g : α), l[k]? = some g → P g) (ha : P a) (k : Nat) (g : α)
    (hg : (l.set i a)[k]? = some g) : P g := by
  rw [List.getElem?_set] at hg
  split at hg
  · split at hg
    · injection hg with hg; subst hg; exact ha
    · cases hg
  · exact h k g hg

/-- The stream ended regularly or broke off, or the server cannot be reached (Unavailable), or the call was cancelled (Canceled). -/
def Gone (e : End) : Prop := e = .eof ∨ e = .unexpectedEof ∨ e = .status 14 ∨ e = .status 1

theorem gone_iff (e : End) : isEOFFromServer e = true ↔ Gone e := by
  cases e <;> simp [isEOFFromServer, Gone]

/-- C78, the part that holds: before `Close` nothing crashes; and if no goroutine holds a response when `Close` begins and none receives one afterwards, a
single `Close` does not crash in any interleaving, and after it every goroutine can end. -/
theorem C78_quiet_partial (n : Nat) (pre post : List (Ev ρ)) (s0 s : State ρ) (hpre : .close ∉ pre) (h0 : run (init n) pre = some s0) :
    s0.crashed = false ∧ (Quiet s0 → .close ∉ post → (∀ i x, .response i x ∉ post) → run s0 (.close :: post) = some s →
      s.crashed = false ∧ (s.cancelled = true → ∀ (i : Nat) (g : Receiver ρ), s.receivers[i]? = some g → g.pc = .stopped ∨ ∃ e, g = ⟨.receiving, some e⟩ ∧
        (Gone e → ∃ s', step s (.recvErr i) = some s' ∧ s'.receivers[i]? = some ⟨.stopped, some e⟩))) := by
  have key1 : ∀ (pre : List (Ev ρ)) (s s0 : State ρ), .close ∉ pre → s.crashed = false → s.closed = false → run s pre = some s0 → s0.crashed = false ∧ s0.closed = false := by
    intro pre
    induction pre with
    | nil => intro s s0 _ h1 h2 hr; simp only [run, Option.some.injEq] at hr; subst hr; exact ⟨h1, h2⟩
    | cons e pre ih =>
      intro s s0 hm h1 h2 hr
      rw [run] at hr
      cases hst : step s e with
      | none => rw [hst] at hr; cases hr
      | some s1 =>
        rw [hst] at hr
        simp only [List.mem_cons, not_or] at hm
        have : s1.crashed = false ∧ s1.closed = false := by
          unfold step at hst
          cases e <;> grind
        exact ih s1 s0 hm.2 this.1 this.2 hr
  have hs0 := key1 pre (init n) s0 hpre rfl rfl h0
  refine ⟨hs0.1, ?_⟩
  intro hq hpost hresp hr
  have hstep : step s0 .close = some { s0 with closed := true } := by simp [step, hs0.1, hs0.2]
  rw [run, hstep] at hr
  have key2 : ∀ (post : List (Ev ρ)) (s1 s : State ρ), .close ∉ post → (∀ i x, .response i x ∉ post) → s1.crashed = false → s1.closed = true → Quiet s1 →
      (s1.cancelled = true → ∀ (i : Nat) (g : Receiver ρ), s1.receivers[i]? = some g → g.ended ≠ none) →
      run s1 post = some s → s.crashed = false ∧ Quiet s ∧ (s.cancelled = true → ∀ (i : Nat) (g : Receiver ρ), s.receivers[i]? = some g → g.ended ≠ none) := by
    intro post
    induction post with
    | nil => intro s1 s _ _ h1 _ h3 h4 hr; simp only [run, Option.some.injEq] at hr; subst hr; exact ⟨h1, h3, h4⟩
    | cons e post ih =>
      intro s1 s hm hm2 h1 h2 h3 h4 hr
      rw [run] at hr
      cases hst : step s1 e with
      | none => rw [hst] at hr; cases hr
      | some s2 =>
        rw [hst] at hr
        simp only [List.mem_cons, not_or] at hm hm2
        have : s2.crashed = false ∧ s2.closed = true ∧ Quiet s2 ∧ (s2.cancelled = true → ∀ (i : Nat) (g : Receiver ρ), s2.receivers[i]? = some g → g.ended ≠ none) := by
          unfold step at hst
          rw [h1] at hst
          simp only [Bool.false_eq_true, if_false] at hst
          unfold Quiet at *
          cases e with
          | response i x => exact absurd rfl (hm2 i x).1
          | push i => grind
          | ends i e =>
            simp only at hst
            split at hst
            · next p hi =>
              injection hst with hst; subst hst
              exact ⟨rfl, h2, forall_set (fun g : Receiver ρ => ∀ x, g.pc ≠ .holding x) _ _ _ h3 (h3 i ⟨p, none⟩ hi), fun hc => forall_set (fun g : Receiver ρ => g.ended ≠ none) _ _ _ (h4 hc) (by simp)⟩
            · cases hst
          | recvErr i =>
            simp only at hst
            split at hst
            · next x hi =>
              split at hst
              · injection hst with hst; subst hst
                exact ⟨rfl, h2, forall_set (fun g : Receiver ρ => ∀ x, g.pc ≠ .holding x) _ _ _ h3 (by simp), fun hc => forall_set (fun g : Receiver ρ => g.ended ≠ none) _ _ _ (h4 hc) (by simp)⟩
              · injection hst with hst; subst hst; exact ⟨h1, h2, h3, h4⟩
            · cases hst
          | take => grind
          | close => exact absurd rfl hm.1
          | cancel =>
            simp only [h2, if_true, Option.some.injEq] at hst
            subst hst
            refine ⟨rfl, rfl, ?_, ?_⟩
            · intro i g hg x
              simp only [List.getElem?_map, Option.map_eq_some_iff] at hg
              obtain ⟨g', hg', rfl⟩ := hg
              exact h3 i g' hg' x
            · intro _ i g hg
              simp only [List.getElem?_map, Option.map_eq_some_iff] at hg
              obtain ⟨g', hg', rfl⟩ := hg
              simp [Receiver.cancel]
        exact ih s2 s hm.2 (fun i x => (hm2 i x).2) this.1 this.2.1 this.2.2.1 this.2.2.2 hr
  have hc0 : s0.cancelled = false := by
    have key3 : ∀ (pre : List (Ev ρ)) (s s0 : State ρ), .close ∉ pre → s.closed = false → s.cancelled = false → run s pre = some s0 → s0.cancelled = false := by
      intro pre
      induction pre with
      | nil => intro s s0 _ _ h2 hr; simp only [run, Option.some.injEq] at hr; subst hr; exact h2
      | cons e pre ih =>
        intro s s0 hm h1 h2 hr
        rw [run] at hr
        cases hst : step s e with
        | none => rw [hst] at hr; cases hr
        | some s1 =>
          rw [hst] at hr
          simp only [List.mem_cons, not_or] at hm
          have : s1.closed = false ∧ s1.cancelled = false := by
            unfold step at hst
            cases e <;> grind
          exact ih s1 s0 hm.2 this.1 this.2 hr
    exact key3 pre (init n) s0 hpre rfl rfl h0
  obtain ⟨k1, k2, k3⟩ := key2 post { s0 with closed := true } s hpost hresp hs0.1 rfl hq (by intro h; exact absurd h (by simp [hc0])) hr
  refine ⟨k1, fun hcan i g hg => ?_⟩
  obtain ⟨p, e⟩ := g
  cases p with
  | stopped => exact .inl rfl
  | holding x => exact absurd rfl (k2 i _ hg x)
  | receiving =>
    cases e with
    | none => exact absurd rfl (k3 hcan i _ hg)
    | some e =>
      refine .inr ⟨e, rfl, fun hgone => ?_⟩
      have he := (gone_iff e).2 hgone
      obtain ⟨hlt, hget⟩ := List.getElem?_eq_some_iff.1 hg
      simp [step, k1, hlt, hget, he]

/-- C84 fails: a goroutine whose stream has ended with a status other than Unavailable and Canceled (for example Unauthenticated, when the server does not know the
caller) never returns, not even after `Close`: it receives the same error for ever. -/
theorem C84_refuted (i : Nat) (e : End) (hne : ¬ Gone e) (evs : List (Ev ρ)) (s s' : State ρ) (g : Receiver ρ) (hg : s.receivers[i]? = some g)
    (hp : g.pc ≠ .stopped) (hend : g.ended = some e) (hr : run s evs = some s') : ∃ g', s'.receivers[i]? = some g' ∧ g'.pc ≠ .stopped ∧ g'.ended = some e := by
  have he : isEOFFromServer e = false := by rw [← Bool.not_eq_true, gone_iff]; exact hne
  induction evs generalizing s g with
  | nil => simp only [run, Option.some.injEq] at hr; subst hr; exact ⟨g, hg, hp, hend⟩
  | cons v evs ih =>
    rw [run] at hr
    cases hst : step s v with
    | none => rw [hst] at hr; cases hr
    | some s1 =>
      rw [hst] at hr
      have : ∃ g', s1.receivers[i]? = some g' ∧ g'.pc ≠ .stopped ∧ g'.ended = some e := by
        unfold step at hst
        split at hst
        · cases hst
        · cases v with
          | cancel =>
            simp only at hst
            split at hst
            · injection hst with hst; subst hst
              exact ⟨g.cancel, by simp [hg], hp, by simp [Receiver.cancel, hend]⟩
            · cases hst
          | _ => grind
      obtain ⟨g', a, b, c⟩ := this
      exact ih s1 g' a b c hr

/-- For example the status Unauthenticated (16): the goroutine spins before and after `Close`. -/
example : ∃ s : State ρ, run (init 2) [.ends 0 (.status 16), .recvErr 0, .recvErr 0, .close, .cancel, .recvErr 0] = some s ∧ ¬ Gone (.status 16) ∧
    s.receivers[0]? = some ⟨.receiving, some (.status 16)⟩ := ⟨_, rfl, by simp [Gone], rfl⟩

/-- C84, the part that holds: a goroutine whose stream ended because the server is gone or the context was cancelled returns with its next `Recv`; and one that
holds a response gets there as soon as the channel has room. -/
theorem C84_gone_partial (s : State ρ) (hup : s.crashed = false) (i : Nat) (e : End) (hgone : Gone e) :
    (s.receivers[i]? = some ⟨.receiving, some e⟩ → ∃ s', step s (.recvErr i) = some s' ∧ s'.receivers[i]? = some ⟨.stopped, some e⟩) ∧
    ∀ x, s.receivers[i]? = some ⟨.holding x, some e⟩ → s.closed = false → s.queue.length < capacity →
      ∃ s', run s [.push i, .recvErr i] = some s' ∧ s'.receivers[i]? = some ⟨.stopped, some e⟩ ∧ (i, x) ∈ s'.queue := by
  have he := (gone_iff e).2 hgone
  constructor
  · intro h
    obtain ⟨hlt, hget⟩ := List.getElem?_eq_some_iff.1 h
    simp [step, hup, hlt, hget, he]
  · intro x h hc hq
    obtain ⟨hlt, hget⟩ := List.getElem?_eq_some_iff.1 h
    simp [run, step, hup, hlt, hget, he, hc, hq]

/-- Non-vacuity of C84_gone: a server answers and goes away; its goroutine hands the answer over and ends. -/
example (x : ρ) : ∃ s : State ρ, run (init 2) [.response 1 x, .ends 1 (.status 14)] = some s ∧ s.crashed = false ∧ Gone (.status 14) ∧ s.closed = false ∧
    s.queue.length < capacity ∧ s.receivers[1]? = some ⟨.holding x, some (.status 14)⟩ := ⟨_, rfl, rfl, by simp [Gone], rfl, by simp [init, capacity], rfl⟩

end Resmix.Rrpc.Incoming
