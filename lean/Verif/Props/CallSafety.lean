import Verif.Props.CallSystem
set_option autoImplicit false
/-
C111: what robust calls and servers never do, in every execution of the whole system (Model/CallSystem).
-/
namespace Resmix.Rrpc.CallSystem
open Resmix.Ecc
variable {μ : Type} {K m n : Nat} {cfg : Config μ K m n}

theorem robustLoop_more (a b : Int) (evs more : List RobustEv) (errs : Int) (acc : List (Option CallStreamResponse)) (res : Except CallErr (List (Option CallStreamResponse)))
    (h : robustLoop a b evs errs acc = some res) : robustLoop a b (evs ++ more) errs acc = some res := by
  induction evs generalizing errs acc with
  | nil => cases h
  | cons e evs ih =>
    cases e with
    | done => exact h
    | answer r ver =>
      simp only [List.cons_append, robustLoop] at h ⊢
      split at h
      · simpa using h
      · split at h
        · next h1 => rw [if_pos h1]; exact h
        · next h1 => rw [if_neg h1]; exact ih _ _ h
      · split at h
        · next h1 => rw [if_pos h1]; exact h
        · next h1 => rw [if_neg h1]; exact ih _ _ h

theorem robustRequest_more {net : Network} {evs : List RobustEv} (h : robustRequest net evs ≠ none) (more : List RobustEv) : robustRequest net (evs ++ more) = robustRequest net evs := by
  cases hr : robustRequest net evs with
  | none => exact (h hr).elim
  | some res => exact robustLoop_more _ _ _ _ _ _ _ hr

/-- **C111 (servers).** In every execution, whatever is delayed, cancelled, cleaned up or silent: no process crashes, and every task that a server's collector starts
runs the registered method of a call that was made to this server, on that call's id and arguments; for no call is more than one task started. -/
theorem C111_only_asked (hh : Honest cfg) (es : List (Event μ K m n)) (hes : ∀ e ∈ es, e.Proper) (s : State μ K m n) (hr : Run cfg init es s) :
    s.crashed = false ∧
    (∀ d t, COut.run t ∈ collector cfg.net (cfg.lookup d) (s.history d) → ∃ k mm, s.begun k = true ∧ (cfg.calls k).server = d ∧
      cfg.lookup d (cfg.calls k).method = .ok mm ∧ Invokes cfg.C t mm (cfg.uuid k) (cfg.calls k).args) ∧
    ∀ k, (tasksFor cfg s k).length ≤ 1 := by
  have h := reachable_inv hh hes hr
  refine ⟨h.alive, ?_, fun k => h.one_task hh k⟩
  intro d t ht
  have ht' : t ∈ runsOf t.savedNote.calluuid (collector cfg.net (cfg.lookup d) (s.history d)) := List.mem_filterMap.2 ⟨_, ht, by simp⟩
  obtain ⟨h1, h2⟩ := hh.min
  obtain ⟨-, -, -, h3, -⟩ := collector_any cfg.net.minimalRelayedParcels.toNat h2 5000000000 (cfg.lookup d) t.savedNote.calluuid (s.history d)
  rw [h1] at h3
  obtain ⟨⟨a1, -, q, hq, hn⟩, -⟩ := h3 t ht'
  have hq1 : q ∈ Rrpc.callParcels t.savedNote.calluuid (s.history d) := a1.subset (List.mem_of_mem_head? hq)
  rw [callParcels_arrivals, h.hist d] at hq1
  obtain ⟨x, hx, hxq⟩ := List.mem_map.1 (List.mem_filter.1 hq1).1
  have hd : (cfg.calls x.1).server = d := h.placeP _ x hx
  have hu : t.savedNote.calluuid = cfg.uuid x.1 := by
    rw [hn, ← hxq]; exact ((hh.parcels x.1).1 x.2).uuid
  obtain ⟨f, -⟩ := h.taskFacts hh x.1 t (by unfold tasksFor; rw [hd, ← hu]; exact ht')
  exact ⟨x.1, t.method, h.begun hx, hd, by rw [← hd]; exact f.method, rfl, f.uuid, f.args⟩

/-- **C111 (clients).** A call that has stopped waiting has returned what its method did in its one run, or, if it was cancelled, possibly the error of its context. -/
theorem C111_true_or_cancelled (hh : Honest cfg) (es : List (Event μ K m n)) (hes : ∀ e ∈ es, e.Proper) (s : State μ K m n) (hr : Run cfg init es s) (k : Fin K)
    (hl : loopResult cfg s k ≠ none) : Succeeded cfg s k ∨ (s.cancelled k = true ∧ Returned cfg s k (.error .ctxDone)) := by
  have h := reachable_inv hh hes hr
  by_cases hn : robustRequest cfg.net ((s.taken k).map Answer.ev) = none
  · cases hc : s.cancelled k with
    | false =>
      unfold loopResult at hl
      rw [hc] at hl
      simp [hn] at hl
    | true =>
      refine .inr ⟨rfl, fun r => ?_⟩
      have := C50_cancelled cfg.net (s.taken k) [] hn
      unfold RobustReply
      rw [hc, if_pos rfl, this]
  · exact .inl (succeeded_of h hh hn)

/-- **C111 (finality).** What a call has returned does not change any more. -/
theorem C111_final (s s' : State μ K m n) (es : List (Event μ K m n)) (hr : Run cfg s es s') (k : Fin K) (hl : loopResult cfg s k ≠ none) :
    loopResult cfg s' k = loopResult cfg s k ∧ ∀ res, Returned cfg s k res → Returned cfg s' k res := by
  have key : ∀ (s s' : State μ K m n) e, Step cfg s e s' → loopResult cfg s k ≠ none → ∃ more,
      (s'.taken k).map Answer.ev ++ (if s'.cancelled k then [.done] else []) = ((s.taken k).map Answer.ev ++ (if s.cancelled k then [.done] else [])) ++ more := by
    intro s s' e st hl
    cases st with
    | take k' cache a rest h0 hw hask hl' =>
      dsimp only
      by_cases hk : k = k'
      · subst hk; exact (hl hw).elim
      · rw [Function.update_of_ne hk]; exact ⟨[], (List.append_nil _).symm⟩
    | cancel k' h0 hb =>
      dsimp only
      by_cases hk : k = k'
      · subst hk
        cases hc : s.cancelled k
        · exact ⟨[.done], by simp⟩
        · exact ⟨[], by simp⟩
      · exact ⟨[], by simp [Function.update_of_ne hk]⟩
    | _ => exact ⟨[], (List.append_nil _).symm⟩
  have step : ∀ (s s' : State μ K m n) e, Step cfg s e s' → loopResult cfg s k ≠ none → loopResult cfg s' k = loopResult cfg s k := by
    intro s s' e st hl
    obtain ⟨more, hm⟩ := key s s' e st hl
    unfold loopResult at hl ⊢
    rw [hm, robustRequest_more hl]
  have all : loopResult cfg s' k = loopResult cfg s k := by
    induction hr with
    | nil s => rfl
    | cons st _ ih =>
      have h1 := step _ _ _ st hl
      rw [ih (by rw [h1]; exact hl), h1]
  refine ⟨all, fun res hres r => ?_⟩
  rw [← hres r]
  have e1 : ∀ s : State μ K m n, RobustReply cfg.C false cfg.net ((s.taken k).map Answer.ev ++ if s.cancelled k then [.done] else []) r ↔
      match loopResult cfg s k with
      | none => r = none
      | some (.error e) => r = some (.error e)
      | some (.ok rs) => ∃ out, Reconstruct cfg.C false (rs.map fun r => r.bind (·.response)) out ∧ r = some (liftGo out) := fun s => Iff.rfl
  rw [e1, e1, all]

/-- Executions in which calls return exist: see the example after `C105_overtaken_refuted` and in Props/Silent; here one in which a call is cancelled at once. -/
example : ∃ (cfg : Config Unit 2 2 3) (es : List (Event Unit 2 2 3)) (s : State Unit 2 2 3), Honest cfg ∧ (∀ e ∈ es, e.Proper) ∧ Run cfg init es s ∧
    loopResult cfg s 0 ≠ none ∧ s.cancelled 0 = true := by
  obtain ⟨cfg, hh⟩ := exists_honest
  have st1 : Step cfg init (.begin 0) _ := .begin init 0 rfl rfl
  have st2 := Step.cancel (cfg := cfg) (k := 0) (s := { (init : State Unit 2 2 3) with
    begun := Function.update (init : State Unit 2 2 3).begun 0 true
    parcels := Function.update (init : State Unit 2 2 3).parcels (.ask 0) ((List.finRange 3).map fun r => (0, r)) }) rfl (by simp)
  refine ⟨cfg, [.begin 0, .cancel 0], _, hh, by simp [Event.Proper], .cons st1 (.cons st2 (.nil _)), ?_, by simp⟩
  simp [loopResult, init, robustRequest, robustLoop]

end Resmix.Rrpc.CallSystem
