import Verif.Proofs.CallU
import Verif.Props.CallSystem
set_option autoImplicit false
/-
C109, C110: robust calls while some relays are silent: they stop reading, passing on and routing, but their streams stay open (Spec/CallSystem `Event.relay`,
`AtRestBut`).
-/
namespace Resmix.Rrpc.CallSystem
open Resmix.Ecc
variable {μ : Type} {K m n : Nat} {cfg : Config μ K m n}

/-- **C109.** At most `MaxErrors` relays make no step from some state before call `k` is made. Once everybody else is at rest, the call, unless it was
cancelled, has returned what its one run on the call's arguments did. (No other relay routes the call's response before it has recorded the client or
loses the record to its cleanup, C105; no cleanup of the server's collector strikes the parcels, C53; at most 100 calls of a client and to a server, C89.) -/
theorem C109_silent_relays (hh : Honest cfg) (k : Fin K) (D : Finset (Fin n)) (hD : (D.card : Int) ≤ cfg.net.maxErrors)
    (es : List (Event μ K m n)) (s : State μ K m n) (hr : CalmRun cfg k init es s) (hk : s.begun k = false)
    (es' : List (Event μ K m n)) (s' : State μ K m n) (hr' : CalmRun cfg k s es' s') (hsilent : ∀ e ∈ es', e.NotBy D)
    (hes : ∀ e ∈ es ++ es', e.Proper) (hrest : AtRestBut cfg D s') (hf : FewCalls cfg s') (hb : s'.begun k = true) (hc : s'.cancelled k = false)
    (ht : Timely cfg.net.minimalRelayedParcels.toNat 5000000000 (cfg.uuid k) (s'.history (cfg.calls k).server)) : Succeeded cfg s' k := by
  have hall := hr.append hr'
  have h := reachable_inv hh (fun e he => hes e (List.mem_append_left _ he)) hr.run
  have h' := reachable_inv hh hes hall.run
  have hcalm := Calm.run hall (calm_init cfg k) (inv_init cfg) hh hes
  have hun : Unpassed k D s' := (unpassed_of_unbegun h hk D).run h hh (fun e he => hes e (List.mem_append_right _ he)) hr'.run hsilent
  have h1 := h'.at_rest_but hh hf D hrest
  obtain ⟨r0, t, b, hj⟩ := h'.ran_but hh h1 hD hb ht
  have ht' : t ∈ tasksFor cfg s' k := by rw [h'.the_task hh hj]; simp
  exact succeeded_of h' hh (h'.returned_but hh h1 hc hj (hcalm.few_but h' hh hun ht'))

/-- From every reachable state everybody but the silent relays comes to rest by itself, whichever relays are silent. -/
theorem C109_silent_rest (hh : Honest cfg) (D : Finset (Fin n)) (es : List (Event μ K m n)) (hes : ∀ e ∈ es, e.Proper) (s : State μ K m n) (hr : Run cfg init es s) :
    ∃ es' s', (∀ k, CalmRun cfg k s es' s') ∧ (∀ e ∈ es', e.Own ∧ e.Proper ∧ e.NotBy D) ∧ AtRestBut cfg D s' := by
  obtain ⟨es', s', h1, h2, -, h3⟩ := (reachable_inv hh hes hr).rest_calm_but hh (fun e => e.NotBy D) (fun _ => True) trivial
    (fun _ _ _ _ _ _ _ _ _ => trivial) (fun _ r _ _ _ h _ => by
      intro r' hr'
      simp only [Event.relay, Option.some.injEq] at hr'
      subst hr'
      exact h r rfl)
  exact ⟨es', s', h1, h2, h3⟩

/-- **C110.** Relays `D` fall silent at any time. Once everybody else is at rest, a call that was made and not cancelled has returned if at most `MaxErrors`
relays are in `D` or ignored its response. What is missing: see `C110_silenced_refuted`. -/
theorem C110_silent_any_time_partial (hh : Honest cfg) (k : Fin K) (D : Finset (Fin n)) (es : List (Event μ K m n)) (hes : ∀ e ∈ es, e.Proper) (s : State μ K m n)
    (hr : Run cfg init es s) (hrest : AtRestBut cfg D s) (hf : FewCalls cfg s) (hb : s.begun k = true) (hc : s.cancelled k = false)
    (ht : Timely cfg.net.minimalRelayedParcels.toNat 5000000000 (cfg.uuid k) (s.history (cfg.calls k).server))
    (hD : ((D ∪ ignoredBy s k).card : Int) ≤ cfg.net.maxErrors) : Succeeded cfg s k := by
  have h := reachable_inv hh hes hr
  have h1 := h.at_rest_but hh hf D hrest
  have hD' : (D.card : Int) ≤ cfg.net.maxErrors := by
    have := Finset.card_le_card (Finset.subset_union_left (s₁ := D) (s₂ := ignoredBy s k))
    omega
  obtain ⟨r0, t, b, hj⟩ := h.ran_but hh h1 hD' hb ht
  exact succeeded_of h hh (h.returned_but hh h1 hc hj hD)

/-- **C110, refuted in general.** In every honest system that is to tolerate `MaxErrors ≥ 1` relays, for every call and any `MaxErrors` relays: these relays may
pass on their parcels and then fall silent, while one more relay is merely slow, and the call waits for ever although its method has run. Nothing is
cancelled, ticks or is cleaned up, and no record is overtaken. -/
theorem C110_silenced_refuted (hh : Honest cfg) (k : Fin K) (D : Finset (Fin n)) (hD : (D.card : Int) = cfg.net.maxErrors) (hD1 : D.Nonempty) :
    ∃ es s es' s', CalmRun cfg k init (.begin k :: es) s ∧ CalmRun cfg k s es' s' ∧ (∀ e ∈ es ++ es', e.Own ∧ e.Proper) ∧ (∀ e ∈ es', e.NotBy D) ∧ AtRestBut cfg D s' ∧
      FewCalls cfg s' ∧ s'.begun k = true ∧ s'.cancelled k = false ∧ (∃ t, tasksFor cfg s' k = [t]) ∧ loopResult cfg s' k = none :=
  silenced hh k D hD hD1

theorem exists_honest' : ∃ cfg : Config Unit 2 2 3, Honest cfg ∧ cfg.net.maxErrors = 1 := by
  obtain ⟨cfg, hh, h⟩ := exists_honest_net
  refine ⟨cfg, hh, ?_⟩
  rw [h, Network.maxErrors, exNet_tau]; rfl

/-- Both calls of an honest system return although the first relay never does anything. -/
example : ∃ (cfg : Config Unit 2 2 3) (es es' : List (Event Unit 2 2 3)) (s' : State Unit 2 2 3), Honest cfg ∧ cfg.net.maxErrors = 1 ∧ (∀ e ∈ es ++ es', e.Proper) ∧
    (∀ k, CalmRun cfg k init (es ++ es') s') ∧ (∀ e ∈ es ++ es', e.NotBy {0}) ∧ AtRestBut cfg {0} s' ∧ ∀ k, s'.begun k = true ∧ Succeeded cfg s' k := by
  obtain ⟨cfg, hh, hmax⟩ := exists_honest'
  let s1 : State Unit 2 2 3 := { (init : State Unit 2 2 3) with
    begun := Function.update (init : State Unit 2 2 3).begun 0 true
    parcels := Function.update (init : State Unit 2 2 3).parcels (.ask 0) ((List.finRange 3).map fun r => (0, r)) }
  let s2 : State Unit 2 2 3 := { s1 with
    begun := Function.update s1.begun 1 true
    parcels := Function.update s1.parcels (.ask 1) ((List.finRange 3).map fun r => (1, r)) }
  have st1 : Step cfg init (.begin 0) s1 := .begin init 0 rfl rfl
  have st2 : Step cfg s1 (.begin 1) s2 := .begin s1 1 rfl (by simp [s1, init])
  have r12 : Run cfg init [.begin 0, .begin 1] s2 := .cons st1 (.cons st2 (.nil _))
  obtain ⟨es, s, hcalm, hown, hrest⟩ := C109_silent_rest hh {0} [.begin 0, .begin 1] (by simp [Event.Proper]) s2 r12
  have hall : ∀ k, CalmRun cfg k init ([.begin 0, .begin 1] ++ es) s := fun k => CalmRun.append (.cons st1 trivial (.cons st2 trivial (.nil _))) (hcalm k)
  have hprop : ∀ e ∈ [.begin 0, .begin 1] ++ es, e.Proper := by
    intro e he
    rcases List.mem_append.1 he with he | he
    · simp at he; rcases he with rfl | rfl <;> trivial
    · exact (hown e he).2.1
  have hby : ∀ e ∈ [.begin 0, .begin 1] ++ es, e.NotBy ({0} : Finset (Fin 3)) := by
    intro e he
    rcases List.mem_append.1 he with he | he
    · simp at he; rcases he with rfl | rfl <;> (intro r hr; cases hr)
    · exact (hown e he).2.2
  obtain ⟨hc, hb⟩ := cancelled_run (hcalm 0).run (fun e he => (hown e he).1)
  have hb' : ∀ k, s.begun k = true := by
    intro k; rw [hb]
    fin_cases k <;> simp [s2, s1]
  have ht : NoTick s := NoTick.run (hall 0).run (by intro d now; simp [init]) (by
    intro d now hm
    rcases List.mem_append.1 hm with h | h
    · simp at h
    · exact (hown _ h).1)
  have hfew : FewCalls cfg s := ⟨fun c => (Finset.card_le_univ _).trans (by decide), fun d => (Finset.card_le_univ _).trans (by decide)⟩
  refine ⟨cfg, _, es, s, hh, hmax, hprop, hall, hby, hrest, fun k => ⟨hb' k, ?_⟩⟩
  exact C109_silent_relays hh k {0} (by rw [hmax]; simp) [] init (.nil _) rfl _ s (hall k) hby hprop hrest hfew (hb' k) (by rw [hc]; rfl) (timely_of_no_tick _ _ _ _ (ht _))

/-- There are such systems, calls and relays for `C110_silenced_refuted`. -/
example : ∃ (cfg : Config Unit 2 2 3) (D : Finset (Fin 3)), Honest cfg ∧ (D.card : Int) = cfg.net.maxErrors ∧ D.Nonempty := by
  obtain ⟨cfg, hh, hmax⟩ := exists_honest'
  exact ⟨cfg, {1}, hh, by rw [hmax]; rfl, ⟨1, by simp⟩⟩

end Resmix.Rrpc.CallSystem
