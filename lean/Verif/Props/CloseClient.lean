import Verif.Model.CloseClient
import Verif.Props.DirectClient
set_option autoImplicit false
/-
C98: closing a client.
-/
namespace Resmix.Rrpc.DirectClient
variable {ρ : Type}

/-- All three goroutines have ended. -/
def Ended (s : Closable ρ) : Prop := s.receiving = false ∧ s.sending = false ∧ s.cleaning = false

theorem ended_step (ttl : Nat) (s s' : Closable ρ) (e : CEv ρ) (he : Ended s) (hst : cstep ttl s e = some s') : Ended s' := by
  obtain ⟨h1, h2, h3⟩ := he
  cases e with
  | inner e =>
    simp only [cstep] at hst
    split at hst
    · simp only [Option.map_eq_some_iff] at hst
      obtain ⟨i, -, rfl⟩ := hst
      exact ⟨h1, h2, h3⟩
    · cases hst
  | close => simp only [cstep] at hst; split at hst <;> grind [Ended]
  | endRecv => simp only [cstep] at hst; split at hst <;> grind [Ended]
  | endSend => simp only [cstep] at hst; split at hst <;> grind [Ended]
  | endClean => simp only [cstep] at hst; split at hst <;> grind [Ended]

/-- Once the goroutines have ended nobody gets a result any more, except from channels that were closed before. -/
theorem ended_run (ttl : Nat) (evs : List (CEv ρ)) (s s' : Closable ρ) (he : Ended s) (hr : crun ttl s evs = some s') (i : Nat)
    (h : ∀ c, s.inner.calls[i]? = some c → c.got = none ∧ c.closed = false) : ∀ c, s'.inner.calls[i]? = some c → c.got = none ∧ c.closed = false := by
  induction evs generalizing s with
  | nil => simp only [crun, Option.some.injEq] at hr; subst hr; exact h
  | cons e evs ih =>
    rw [crun] at hr
    cases hst : cstep ttl s e with
    | none => rw [hst] at hr; cases hr
    | some s1 =>
      rw [hst] at hr
      refine ih s1 (ended_step ttl s s1 e he hst) hr ?_
      obtain ⟨h1, h2, h3⟩ := he
      cases e with
      | close => simp only [cstep] at hst; split at hst <;> grind
      | endRecv => simp only [cstep] at hst; split at hst <;> grind
      | endSend => simp only [cstep] at hst; split at hst <;> grind
      | endClean => simp only [cstep] at hst; split at hst <;> grind
      | inner e =>
        simp only [cstep] at hst
        split at hst
        · next hruns =>
          simp only [Option.map_eq_some_iff] at hst
          obtain ⟨t, ht, rfl⟩ := hst
          simp only
          unfold step at ht
          split at ht
          · cases ht
          · cases e with
            | call u now =>
              injection ht with ht; subst ht
              intro c hc
              simp only at hc
              rcases Nat.lt_or_ge i s.inner.calls.length with hi | hi
              · rw [List.getElem?_append_left hi] at hc; exact h c hc
              · rw [List.getElem?_append_right hi] at hc
                cases hk : i - s.inner.calls.length with
                | zero => rw [hk] at hc; simp at hc; subst hc; exact ⟨rfl, rfl⟩
                | succ k => rw [hk] at hc; simp at hc
            | enqueue j => grind
            | await j => grind
            | readClosed j => grind
            | sendOk => simp [Closable.runs, h2] at hruns
            | sendFail => simp [Closable.runs, h2] at hruns
            | reportFail => simp [Closable.runs, h2] at hruns
            | respond u x => simp [Closable.runs, h1] at hruns
            | dispatch => simp [Closable.runs, h1] at hruns
            | close => simp [Closable.runs, h1] at hruns
            | visit u now => simp [Closable.runs, h3] at hruns
            | notify => simp [Closable.runs, h3] at hruns
            | delete => simp [Closable.runs, h3] at hruns
        · cases hst

/-- C98 fails for calls that are pending: a client is closed while it waits for an answer, its goroutines end, and whatever happens then, the caller never gets a
result. -/
theorem C98_pending_refuted (ttl : Nat) (u : Str) :
    ∃ s1 : Closable ρ, crun ttl .init [.inner (.call u 0), .inner (.enqueue 0), .inner (.await 0), .inner .sendOk, .close, .endRecv, .endSend, .endClean] = some s1 ∧
      ∀ evs s2, crun ttl s1 evs = some s2 → ∀ c, s2.inner.calls[0]? = some c → c.got = none := by
  refine ⟨{ inner := { calls := [⟨u, 0, false, true, none⟩], waiting := [(u, 0)], queue := [], disp := .idle, sender := .idle, cleaner := .idle, crashed := false },
            cancelled := true, receiving := false, sending := false, cleaning := false }, ?_, ?_⟩
  · simp [crun, cstep, Closable.runs, Closable.init, step, init, GoMap.insert, GoMap.erase]
  · intro evs s2 h c hc
    exact (ended_run ttl evs _ s2 ⟨rfl, rfl, rfl⟩ h 0 (by intro c hc; simp at hc; subst hc; exact ⟨rfl, rfl⟩) c hc).1

/-- C98 fails for calls made after Close: once the goroutines have ended, a new call is accepted without error and never gets a result. -/
theorem C98_after_close_refuted (ttl now : Nat) (u : Str) (s : Closable ρ) (he : Ended s) (hup : s.inner.crashed = false) (evs : List (CEv ρ)) (s2 : Closable ρ)
    (hr : crun ttl s (.inner (.call u now) :: evs) = some s2) : ∀ c, s2.inner.calls[s.inner.calls.length]? = some c → c.got = none := by
  intro c hc
  simp only [crun, cstep, Closable.runs, if_true, step, hup, Bool.false_eq_true, if_false, Option.map_some] at hr
  refine (ended_run ttl evs _ s2 ?_ hr s.inner.calls.length ?_ c hc).1
  · exact he
  · intro c hc
    simp at hc
    subst hc
    exact ⟨rfl, rfl⟩

/-- Steps of the goroutines only: none of a user. -/
def OwnSteps (evs : List (CEv ρ)) : Prop := ∀ e ∈ evs, e = .inner .dispatch ∨ e = .inner .close ∨ e = .inner .notify ∨ e = .inner .delete ∨ e = .endRecv ∨ e = .endSend ∨ e = .endClean

theorem crun_append (ttl : Nat) (a b : List (CEv ρ)) (s : Closable ρ) : crun ttl s (a ++ b) = (crun ttl s a).bind fun t => crun ttl t b := by
  induction a generalizing s with
  | nil => rfl
  | cons e a ih =>
    simp only [List.cons_append, crun]
    cases cstep ttl s e with
    | none => rfl
    | some t => exact ih t

theorem crun_inner (ttl : Nat) (l : List (Ev ρ)) (s : Closable ρ) (t : State ρ) (hr : run ttl s.inner l = some t) (hl : ∀ e ∈ l, s.runs e = true) :
    crun ttl s (l.map .inner) = some { s with inner := t } := by
  induction l generalizing s with
  | nil => simp only [run, Option.some.injEq] at hr; subst hr; rfl
  | cons e l ih =>
    rw [run] at hr
    simp only [List.map_cons, crun, cstep, hl e List.mem_cons_self, if_true]
    cases hst : step ttl s.inner e with
    | none => rw [hst] at hr; cases hr
    | some t1 =>
      rw [hst] at hr
      simp only [Option.map_some]
      exact ih { s with inner := t1 } hr (fun e he => by
        have := hl e (List.mem_cons_of_mem _ he)
        cases e <;> exact this)

/-- C98, the part that holds: if the run before Close was calm (C61) and all callers wait for their results, then after Close the goroutines can always end, by steps of
their own, without a crash: none is stuck. -/
theorem C98_goroutines_end_partial (ttl : Nat) (evs : List (Ev ρ)) (s : Closable ρ) (hcalm : CalmRun ttl evs s.inner) (hall : ∀ c ∈ s.inner.calls, c.awaiting = true)
    (hc : s.cancelled = true) (hrecv : s.receiving = true) (hclean : s.cleaning = true) (hsend : s.sending = true) :
    ∃ fin s', OwnSteps fin ∧ crun ttl s fin = some s' ∧ Ended s' ∧ s'.inner.crashed = false := by
  obtain ⟨⟨f1, hf1, t1, hr1, hu1, hd1⟩, -⟩ := C76_calm_partial ttl evs s.inner hcalm hall
  -- the state after the receiving goroutine is idle is calm as well
  have hcalm1 : CalmRun ttl (evs ++ f1) t1 := by
    refine calm_of_run ttl evs f1 s.inner t1 hcalm ?_ hr1
    rcases hf1 with rfl | rfl | rfl <;> simp [CalmFrom]
  have hall1 : ∀ c ∈ t1.calls, c.awaiting = true := by
    have hstep : ∀ (a b : State ρ) (e : Ev ρ), (e = .dispatch ∨ e = .close) → step ttl a e = some b → (∀ c ∈ a.calls, c.awaiting = true) → ∀ c ∈ b.calls, c.awaiting = true := by
      intro a b e he hst ha
      unfold step at hst
      split at hst
      · cases hst
      · rcases he with rfl | rfl
        · simp only at hst
          split at hst
          · simp only [deliver] at hst
            split at hst
            · cases hst
            · next c0 hc0 =>
              have := ha c0 (List.mem_of_getElem? hc0)
              split at hst
              · injection hst with hst; subst hst; exact ha
              · split at hst
                · injection hst with hst; subst hst
                  intro c hcm
                  rcases List.mem_or_eq_of_mem_set hcm with h | h
                  · exact ha c h
                  · rw [h]; exact this
                · cases hst
          · cases hst
        · simp only at hst
          split at hst
          · split at hst
            · cases hst
            · next c0 hc0 =>
              have := ha c0 (List.mem_of_getElem? hc0)
              split at hst
              · injection hst with hst; subst hst; exact ha
              · injection hst with hst; subst hst
                intro c hcm
                rcases List.mem_or_eq_of_mem_set hcm with h | h
                · exact ha c h
                · rw [h]; exact this
          · cases hst
    have hrun : ∀ (l : List (Ev ρ)) (a b : State ρ), (∀ e ∈ l, e = .dispatch ∨ e = .close) → run ttl a l = some b → (∀ c ∈ a.calls, c.awaiting = true) → ∀ c ∈ b.calls, c.awaiting = true := by
      intro l
      induction l with
      | nil => intro a b _ h ha; simp only [run, Option.some.injEq] at h; subst h; exact ha
      | cons e l ih =>
        intro a b he h ha
        rw [run] at h
        cases hst : step ttl a e with
        | none => rw [hst] at h; cases h
        | some a1 =>
          rw [hst] at h
          exact ih a1 b (fun e' h' => he e' (List.mem_cons_of_mem _ h')) h (hstep a a1 e (he e List.mem_cons_self) hst ha)
    refine hrun f1 s.inner t1 ?_ hr1 hall
    rcases hf1 with rfl | rfl | rfl <;> simp
  obtain ⟨-, f2, hf2, t2, hr2, hu2, hd2⟩ := C76_calm_partial ttl (evs ++ f1) t1 hcalm1 hall1
  have hdisp2 : t2.disp = .idle := by
    have hstep : ∀ (a b : State ρ) (e : Ev ρ), (e = .notify ∨ e = .delete) → step ttl a e = some b → a.disp = .idle → b.disp = .idle := by
      intro a b e he hst ha
      unfold step at hst
      split at hst
      · cases hst
      · rcases he with rfl | rfl
        · grind [deliver]
        · grind
    rcases hf2 with rfl | rfl | rfl
    · simp only [run, Option.some.injEq] at hr2; subst hr2; exact hd1
    · simp only [run] at hr2
      cases hst : step ttl t1 .delete with
      | none => rw [hst] at hr2; cases hr2
      | some a1 => rw [hst] at hr2; simp only [Option.some.injEq] at hr2; subst hr2; exact hstep _ _ _ (.inr rfl) hst hd1
    · simp only [run] at hr2
      cases hst : step ttl t1 .notify with
      | none => rw [hst] at hr2; cases hr2
      | some a1 =>
        rw [hst] at hr2
        simp only at hr2
        cases hst2 : step ttl a1 .delete with
        | none => rw [hst2] at hr2; cases hr2
        | some a2 => rw [hst2] at hr2; simp only [Option.some.injEq] at hr2; subst hr2; exact hstep _ _ _ (.inr rfl) hst2 (hstep _ _ _ (.inl rfl) hst hd1)
  have hcalm2 : CalmRun ttl (evs ++ f1 ++ f2) t2 := by
    refine calm_of_run ttl (evs ++ f1) f2 t1 t2 hcalm1 ?_ hr2
    rcases hf2 with rfl | rfl | rfl <;> simp [CalmFrom]
  have hs2 := (calm_inv ttl _ t2 hcalm2).sender
  have hc1 := crun_inner ttl f1 s t1 hr1 (by rcases hf1 with rfl | rfl | rfl <;> simp [Closable.runs, hrecv])
  have hc2 := crun_inner ttl f2 { s with inner := t1 } t2 hr2 (by rcases hf2 with rfl | rfl | rfl <;> simp [Closable.runs, hclean])
  refine ⟨f1.map .inner ++ (f2.map .inner ++ [.endRecv, .endSend, .endClean]), { inner := t2, cancelled := true, receiving := false, sending := false, cleaning := false }, ?_, ?_, ⟨rfl, rfl, rfl⟩, hu2⟩
  · intro e he
    rcases hf1 with rfl | rfl | rfl <;> rcases hf2 with rfl | rfl | rfl <;> simp at he <;> grind
  · rw [crun_append, hc1, Option.bind_some, crun_append, hc2, Option.bind_some]
    simp [crun, cstep, hdisp2, hs2, hd2, hc, hrecv, hclean, hsend, hu2]

/-- A closed client with a pending call that is being timed out. -/
example (u : Str) : ∃ (evs : List (Ev ρ)) (s : Closable ρ), CalmRun 5 evs s.inner ∧ (∀ c ∈ s.inner.calls, c.awaiting = true) ∧ s.cancelled = true ∧ s.inner.cleaner = .notifying 0 := by
  refine ⟨[.call u 0, .enqueue 0, .await 0, .sendOk, .visit u 9],
    { inner := { calls := [⟨u, 0, false, true, none⟩], waiting := [(u, 0)], queue := [], disp := .idle, sender := .idle, cleaner := .notifying 0, crashed := false },
      cancelled := true, receiving := true, sending := true, cleaning := true }, ?_, by simp, rfl, rfl⟩
  refine calm_of_run 5 [] _ init _ .init ?_ ?_
  · simp [CalmFrom, step, init, GoMap.insert, GoMap.lookup, GoMap.erase]
  · simp [run, step, init, GoMap.insert, GoMap.lookup, GoMap.erase]

end Resmix.Rrpc.DirectClient
