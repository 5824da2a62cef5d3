import Verif.Proofs.ServerB
import Verif.Props.Mixer
set_option autoImplicit false
/-
C06, C07 and the crash/leak properties C66-C68: the round API of a mix server (server.go).
-/
namespace Resmix.Server
open Resmix.Topology (Closed closedMix newMix)

namespace Ex
def c : Config := ⟨Mixer.Ex.topo, Mixer.Ex.a, fun _ => Mixer.Ex.env⟩
def loads : GoMap Str Nat := [(mixNameOf 0 0, 2), (mixNameOf 1 0, 77), (mixNameOf 0 1, 0)]
def round1 : Action := .newRound 1 loads Mixer.Ex.topo.mixes
end Ex

/-! ### C06 -/

/-- C06. For a cascade of at least one layer and a request whose numbers fit a Go int: NewRound succeeds iff connections exist and
the request names every first-layer mix; then the server has exactly one new round object, made with a workload table that gives
every mix of every chain the workload requested for the chain's first mix, and made for exactly the mixes of this host; otherwise it
answers FailedPrecondition and the server state is unchanged. -/
theorem C06_newRound_propagates_workload {servers : List Str} {L : Nat} {t : Topology} (hL : 0 < L)
    (ht : Topology.createCascade servers L = .ok t) (c : Config) (hc : c.topo = t) (s : State) (hs : s.crashed = false)
    (r : Nat) (loads : GoMap Str Nat) (hfit : ∀ e ∈ loads, e.2 < 2^63) (order : GoMap Str (Nat × Nat)) (ho : order.Perm t.mixes) :
    (s.connections = true ∧ (∀ i first, t.mixAt 0 i = some first → (loads.lookup first.name).isSome) →
      ∃ w m, step c s (.newRound r loads order) =
          some ({ s with objs := s.objs ++ [(r, m)], rounds := s.rounds.insert r s.objs.length }, .ok) ∧
        Mixer.newMixers t (ownMixes t c.host order) w = .ok m ∧
        (∀ mix, mix ∈ ownMixes t c.host order ↔ mix ∈ t.layers.flatten ∧ mix.hostname = c.host) ∧
        ((ownMixes t c.host order).map (·.name)).Nodup ∧
        (∀ mix ∈ ownMixes t c.host order, ∃ pk, Mixer.ExpectsOnly t w mix pk) ∧
        ∀ l i mix first, t.mixAt l i = some mix → t.mixAt 0 i = some first →
          ∃ load, loads.lookup first.name = some load ∧ Mixer.workloadOf w mix.name = load) ∧
    (¬ (s.connections = true ∧ (∀ i first, t.mixAt 0 i = some first → (loads.lookup first.name).isSome)) →
      ∃ msg, step c s (.newRound r loads order) = some (s, .fail (.err .failedPrecondition msg))) := by
  subst hc
  have hcl := Topology.closed_of_create ht
  obtain ⟨rest, hlay⟩ := layers_cons hcl hL
  obtain ⟨hok, hbad⟩ := propagate_spec hcl hL (List.finRange servers.length) (List.nodup_finRange _) (convertLoads loads)
  have hat : ∀ l (i : Fin servers.length), l < L → c.topo.mixAt l i = some (closedMix servers L l i) :=
    fun l i hl => hcl.mixAt_eq l i hl i.isLt
  have hfit' : ∀ nm load, loads.lookup nm = some load → toInt load = load := by
    intro nm load h; exact toInt_small (hfit _ (GoMap.lookup_mem h))
  constructor
  · rintro ⟨hconn, hall⟩
    have hsome : ∀ i : Fin servers.length, (loads.lookup (newMix servers 0 i).name).isSome := fun i => hall i (closedMix servers L 0 i) (hat 0 i hL)
    obtain ⟨w, hw, hlook⟩ := hok (by
      intro i _
      rw [convert_lookup, Option.isSome_map]; exact hsome i)
    have hlook' : ∀ l i, l < L → w.lookup (newMix servers l i).name = (loads.lookup (newMix servers 0 i).name).map toInt := by
      intro l i hl
      rw [hlook l i hl, if_pos (List.mem_finRange _), convert_lookup]
    have hwl : ∀ l i, l < L → ∃ load, loads.lookup (newMix servers 0 i).name = some load ∧
        w.lookup (newMix servers l i).name = some (load : Int) := by
      intro l i hl
      obtain ⟨load, hload⟩ := Option.isSome_iff_exists.1 (hsome i)
      refine ⟨load, hload, ?_⟩
      rw [hlook' l i hl, hload, Option.map_some, hfit' _ _ hload]
    obtain ⟨m, hm⟩ := newMixers_ok hcl (w := w) (mixes := ownMixes c.topo c.host order)
      (fun mix h => ((mem_ownMixes hcl ho).1 h).1) (by
        intro mix h
        obtain ⟨l, i, hl, rfl⟩ := hcl.mem_flatten.1 ((mem_ownMixes hcl ho).1 h).1
        obtain ⟨load, _, h2⟩ := hwl l i hl
        show 0 ≤ (w.lookup (newMix servers l i).name).getD 0
        rw [h2]; simp)
    refine ⟨w, m, ?_, hm, fun mix => mem_ownMixes hcl ho, ownMixes_nodup hcl ho, ?_, ?_⟩
    · simp only [step, hs, newRound, hconn, hlay, hw, hm]
      simp
    · intro mix h
      exact expectsOnly hcl hlook' ((mem_ownMixes hcl ho).1 h).1
    · intro l i mix first hmix hfirst
      obtain ⟨hl, hi, rfl⟩ := hcl.mixAt_some hmix
      obtain ⟨_, _, rfl⟩ := hcl.mixAt_some hfirst
      obtain ⟨load, h1, h2⟩ := hwl l ⟨i, hi⟩ hl
      refine ⟨load, h1, ?_⟩
      show ((w.lookup (newMix servers l ⟨i, hi⟩).name).getD 0).toNat = load
      rw [h2]; simp
  · intro hneg
    by_cases hconn : s.connections = true
    · have : ∃ i : Fin servers.length, loads.lookup (newMix servers 0 i).name = none := by
        by_contra hno
        apply hneg
        refine ⟨hconn, ?_⟩
        intro i first hfirst
        obtain ⟨_, hi, rfl⟩ := hcl.mixAt_some hfirst
        cases hl : loads.lookup (newMix servers 0 ⟨i, hi⟩).name with
        | none => exact absurd ⟨⟨i, hi⟩, hl⟩ hno
        | some x => show (loads.lookup (newMix servers 0 ⟨i, hi⟩).name).isSome; rw [hl]; rfl
      obtain ⟨i, hi⟩ := this
      have hp := hbad ⟨i, List.mem_finRange _, by rw [convert_lookup, hi]; rfl⟩
      exact ⟨_, by simp [step, hs, newRound, hconn, hlay, hp]; rfl⟩
    · have hconn : s.connections = false := by simpa using hconn
      exact ⟨_, by simp [step, hs, newRound, hconn]; rfl⟩

example : (∀ i first, Mixer.Ex.topo.mixAt 0 i = some first → (Ex.loads.lookup first.name).isSome) ∧
    ∃ s', step Ex.c (init true) Ex.round1 = some (s', .ok) ∧ s'.rounds.lookup 1 = some 0 := by
  refine ⟨?_, _, rfl, rfl⟩
  intro i first h
  match i with
  | 0 => cases h; decide
  | 1 => cases h; decide
  | i + 2 => simp [Topology.mixAt, Mixer.Ex.topo, Topology.createCascade, Topology.setPredecessors] at h; cases h

/-! ### C07 -/

/-- C07, responses. After any history of API calls and internal steps (server alive): AddMessages and EndRound answer NotFound,
and GetMessages FailedPrecondition, exactly for rounds that are not open, where open means that the last successful NewRound of that
round was not followed by a successful EndRound; EndRound of an open round succeeds, does not crash, and closes it. -/
theorem C07_open_rounds_are_a_map (c : Config) (conn : Bool) (acts : List Action) (s : State) (rs : List Resp)
    (hx : exec c (init conn) acts = some (s, rs)) (hs : s.crashed = false) (r : Nat) :
    (isOpen (acts.zip rs) r = false →
      (∀ ms, ∃ msg, step c s (.addMessages r ms) = some (s, .fail (.err .notFound msg))) ∧
      (∃ msg, step c s (.endRound r) = some (s, .fail (.err .notFound msg))) ∧
      (∀ mix, ∃ msg, step c s (.getMessages r mix) = some (s, .fail (.err .failedPrecondition msg)))) ∧
    (isOpen (acts.zip rs) r = true →
      (∀ ms, ∃ i s', step c s (.addMessages r ms) = some (s', .pending i) ∧ s.rounds.lookup r = some i) ∧
      (∃ s', step c s (.endRound r) = some (s', .ok) ∧ s'.crashed = false ∧ isOpen ((acts ++ [Action.endRound r]).zip (rs ++ [Resp.ok])) r = false) ∧
      (∀ mix, ∃ i s', step c s (.getMessages r mix) = some (s', .pending i) ∧ s.rounds.lookup r = some i)) := by
  have h := exec_sinv (sinv_init conn) hx
  simp only [List.nil_append] at h
  have hlen : acts.length = rs.length := by
    clear h hs
    generalize init conn = s0 at hx
    induction acts generalizing s0 rs with
    | nil => cases hx; rfl
    | cons a as ih =>
      obtain ⟨s1, r, rs', _, h2, rfl⟩ := exec_cons_some hx
      simp [ih _ _ h2]
  have hop := h.open_ r
  constructor
  · intro hf
    rw [hf] at hop
    have hnone : s.rounds.lookup r = none := by simpa using hop
    refine ⟨fun ms => ⟨"round not found", ?_⟩, ⟨"round not found", ?_⟩, fun mix => ⟨"no round state", ?_⟩⟩ <;> simp [step, hs, hnone]
  · intro ht
    rw [ht] at hop
    obtain ⟨i, hi⟩ := Option.isSome_iff_exists.1 hop
    obtain ⟨m, hm, hcl⟩ := h.bound r i hi
    have hmc : m.crashed = false := h.live hs _ (List.mem_of_getElem? hm)
    refine ⟨fun ms => ⟨i, { s with waiting := s.waiting ++ [(i, ms)] }, ?_, hi⟩, ?_, fun mix => ⟨i, s, ?_, hi⟩⟩
    · simp [step, hs, hi]
    · refine ⟨{ s.setObj i r { m with closed := true } with rounds := s.rounds.erase r }, ?_, ?_, ?_⟩
      · simp [step, hs, hi, hm, Mixer.step, hmc, hcl]
      · simp [State.setObj, hs, hmc]
      · rw [List.zip_append hlen]
        simp only [List.zip_cons_cons, List.zip_nil_right]
        rw [isOpen_snoc]
        simp [openAfter]
    · simp [step, hs, hi]

/-- C07, isolation. An API call about round `r` leaves what any other round refers to untouched, and a step of the goroutines of
one round object leaves every other round object untouched. -/
theorem C07_rounds_are_isolated (c : Config) (conn : Bool) (acts : List Action) (s s' : State) (rs : List Resp) (a : Action) (resp : Resp)
    (hx : exec c (init conn) acts = some (s, rs)) (hst : step c s a = some (s', resp)) :
    (∀ r r', a.about = some r → r' ≠ r → s'.roundObj r' = s.roundObj r') ∧
    (∀ i b, a = .work i b → s'.rounds = s.rounds ∧ ∀ j, j ≠ i → s'.objs[j]? = s.objs[j]?) := by
  have h := exec_sinv (sinv_init conn) hx
  constructor
  · intro r r' ha hne
    unfold step at hst
    split at hst
    · cases hst
    cases a with
    | newRound r0 loads order =>
      cases ha
      simp only at hst
      split at hst
      · next s1 hn =>
        cases hst
        obtain ⟨first, rest, w, m, _, _, _, hm, rfl⟩ := newRound_eq hn
        simp only [State.roundObj, GoMap.lookup_insert_ne _ _ hne]
        cases hl : s.rounds.lookup r' with
        | none => rfl
        | some i =>
          obtain ⟨m', hm', _⟩ := h.bound r' i hl
          have := (List.getElem?_eq_some_iff.1 hm').1
          simp only [Option.bind_some, List.getElem?_append_left this]
      · cases hst; rfl
      · cases hst; rfl
    | endRound r0 =>
      cases ha
      simp only at hst
      split at hst
      · cases hst; rfl
      · next i hr =>
        split at hst
        · cases hst
        · next rr m hi =>
          split at hst
          · cases hst
          · next m' hm =>
            cases hst
            simp only [State.roundObj, GoMap.lookup_erase_ne _ hne]
            cases hl : s.rounds.lookup r' with
            | none =>
              have : (s.setObj i rr m').rounds = s.rounds := rfl
              rfl
            | some j =>
              obtain ⟨m2, hm2, _⟩ := h.bound r' j hl
              obtain ⟨m3, hm3, _⟩ := h.bound r i hr
              have hij : j ≠ i := by
                rintro rfl
                rw [hm2] at hm3; cases hm3; exact hne rfl
              simp only [Option.bind_some, State.setObj]
              rw [List.getElem?_set_ne (Ne.symm hij)]
    | addMessages r0 ms =>
      simp only at hst
      split at hst <;> (cases hst; rfl)
    | getMessages r0 mix =>
      simp only at hst
      split at hst <;> (cases hst; rfl)
    | enter k => cases ha
    | work i b => cases ha
  · rintro i b rfl
    unfold step at hst
    split at hst
    · cases hst
    simp only at hst
    split at hst
    · cases hst
    · split at hst
      · cases hst
      · cases hst
      · split at hst
        · cases hst
        · cases hst
          refine ⟨rfl, fun j hj => ?_⟩
          simp only [State.setObj]
          rw [List.getElem?_set_ne (Ne.symm hj)]

example : ∃ s rs, exec Ex.c (init true) [Ex.round1, .newRound 2 Ex.loads Mixer.Ex.topo.mixes, .endRound 1, .endRound 1] = some (s, rs) ∧
    s.crashed = false ∧ isOpen ([Ex.round1, .newRound 2 Ex.loads Mixer.Ex.topo.mixes, .endRound 1, .endRound 1].zip rs) 2 = true ∧
    isOpen ([Ex.round1, .newRound 2 Ex.loads Mixer.Ex.topo.mixes, .endRound 1, .endRound 1].zip rs) 1 = false := ⟨_, _, rfl, rfl, rfl, rfl⟩

/-! ### C66 -/

/-- C66 does not hold: opening a round number that is still open replaces its round object without closing it. After ending every
open round no later API call can reach that object, so its worker pool is never told to stop: whatever actions follow, the object
stays unclosed. -/
theorem C66_replaced_round_never_closed_refuted : ∃ (c : Config) (s : State) (rs : List Resp),
    exec c (init true) [Ex.round1, Ex.round1, .endRound 1] = some (s, rs) ∧ s.crashed = false ∧
    (∀ r, isOpen ([Ex.round1, Ex.round1, .endRound 1].zip rs) r = false) ∧
    ∀ later s' rs', exec c s later = some (s', rs') → ∃ m, s'.objs[0]? = some (1, m) ∧ m.closed = false := by
  refine ⟨Ex.c, _, _, rfl, rfl, ?_, ?_⟩
  · intro r
    simp only [isOpen, List.zip_cons_cons, List.zip_nil_right, List.foldl_cons, List.foldl_nil, openAfter, Ex.round1]
    by_cases h : 1 = r <;> simp [h]
  · -- invariant: object 0 is unclosed and no round refers to it
    have key : ∀ (later : List Action) (s s' : State) (rs' : List Resp),
        (∃ m, s.objs[0]? = some (1, m) ∧ m.closed = false) → (∀ r, s.rounds.lookup r ≠ some 0) →
        exec Ex.c s later = some (s', rs') → ∃ m, s'.objs[0]? = some (1, m) ∧ m.closed = false := by
      intro later
      induction later with
      | nil => intro s s' rs' h _ hx; cases hx; exact h
      | cons a as ih =>
        intro s s' rs' ⟨m, hm, hcl⟩ hr hx
        obtain ⟨s1, r, rs1, h1, h2, rfl⟩ := exec_cons_some hx
        have hlen : 0 < s.objs.length := (List.getElem?_eq_some_iff.1 hm).1
        have upd : ∀ (i rr : Nat) (mm mm' : Mixer.State) (l : List (Nat × Mixer.State)), s.objs[i]? = some (rr, mm) →
            mm'.closed = mm.closed → l = s.objs.set i (rr, mm') → ∃ m, l[0]? = some (1, m) ∧ m.closed = false := by
          intro i rr mm mm' l hi hc hl
          subst hl
          by_cases h0 : i = 0
          · subst h0
            rw [hm] at hi; cases hi
            exact ⟨mm', by simp [hlen], by rw [hc]; exact hcl⟩
          · exact ⟨m, by rw [List.getElem?_set_ne h0]; exact hm, hcl⟩
        have hgoal : (∃ m, s1.objs[0]? = some (1, m) ∧ m.closed = false) ∧ (∀ r, s1.rounds.lookup r ≠ some 0) := by
          unfold step at h1
          split at h1
          · cases h1
          cases a with
          | newRound r0 loads order =>
            simp only at h1
            split at h1
            · next s2 hn =>
              cases h1
              obtain ⟨first, rest, w, mm, _, _, _, hmm, rfl⟩ := newRound_eq hn
              refine ⟨⟨m, by simp only [List.getElem?_append_left hlen]; exact hm, hcl⟩, ?_⟩
              intro r'
              simp only [GoMap.lookup_insert]
              split
              · intro e; injection e; omega
              · exact hr r'
            · cases h1; exact ⟨⟨m, hm, hcl⟩, hr⟩
            · cases h1; exact ⟨⟨m, hm, hcl⟩, hr⟩
          | endRound r0 =>
            simp only at h1
            split at h1
            · cases h1; exact ⟨⟨m, hm, hcl⟩, hr⟩
            · next i hi =>
              split at h1
              · cases h1
              · split at h1
                · cases h1
                · cases h1
                  have hne : i ≠ 0 := fun e => hr r0 (e ▸ hi)
                  refine ⟨⟨m, by simp only [State.setObj]; rw [List.getElem?_set_ne hne]; exact hm, hcl⟩, ?_⟩
                  intro r'
                  simp only [GoMap.lookup_erase]
                  split
                  · simp
                  · exact hr r'
          | addMessages r0 ms =>
            simp only at h1
            split at h1 <;> (cases h1; exact ⟨⟨m, hm, hcl⟩, hr⟩)
          | getMessages r0 mix =>
            simp only at h1
            split at h1 <;> (cases h1; exact ⟨⟨m, hm, hcl⟩, hr⟩)
          | enter k =>
            simp only at h1
            split at h1
            · cases h1
            · split at h1
              · cases h1
              · next hi =>
                split at h1
                · cases h1
                · next hm' => cases h1; exact ⟨upd _ _ _ _ _ hi (mixer_closed hm' (by simp)) rfl, hr⟩
          | work i b =>
            simp only at h1
            split at h1
            · cases h1
            · next hi =>
              split at h1
              · cases h1
              · cases h1
              · next hn1 hn2 =>
                split at h1
                · cases h1
                · next hm' => cases h1; exact ⟨upd _ _ _ _ _ hi (mixer_closed hm' (fun e => hn2 e)) rfl, hr⟩
        exact ih s1 s' rs1 hgoal.1 hgoal.2 h2
    intro later s' rs' hx
    refine key later _ s' rs' ⟨_, rfl, rfl⟩ ?_ hx
    intro r
    simp [GoMap.lookup, GoMap.erase, GoMap.insert, init]

/-! ### C67 -/

/-- C67 does not hold: a NewRound request with a workload of 2^63 makes the conversion to int negative and `make` panics. -/
theorem C67_huge_workload_crashes_refuted : ∃ (c : Config) (r : Nat) (loads : GoMap Str Nat) (s' : State) (resp : Resp),
    (∀ e ∈ loads, e.2 < 2^64) ∧
    step c (init true) (.newRound r loads c.topo.mixes) = some (s', resp) ∧ s'.crashed = true :=
  ⟨Ex.c, 1, [(mixNameOf 0 0, 2^63), (mixNameOf 0 1, 0)], _, _, by decide, rfl, rfl⟩

/-- C67, the part that holds: with workloads below 2^63 a cascade server survives every NewRound request.
Missing: larger workloads (C67_huge_workload_crashes_refuted); exhaustion of memory by huge `make` is not modelled. -/
theorem C67_newRound_is_safe_partial {servers : List Str} {L : Nat} {t : Topology} (hL : 0 < L)
    (ht : Topology.createCascade servers L = .ok t) (c : Config) (hc : c.topo = t) (s : State) (hs : s.crashed = false)
    (r : Nat) (loads : GoMap Str Nat) (hfit : ∀ e ∈ loads, e.2 < 2^63) (order : GoMap Str (Nat × Nat)) (ho : order.Perm t.mixes) :
    ∃ s' resp, step c s (.newRound r loads order) = some (s', resp) ∧ s'.crashed = false := by
  obtain ⟨h1, h2⟩ := C06_newRound_propagates_workload hL ht c hc s hs r loads hfit order ho
  by_cases hcase : (s.connections = true ∧ (∀ i first, t.mixAt 0 i = some first → (loads.lookup first.name).isSome))
  · obtain ⟨w, m, h, _⟩ := h1 hcase
    exact ⟨_, _, h, hs⟩
  · obtain ⟨msg, h⟩ := h2 hcase
    exact ⟨_, _, h, hs⟩

/-! ### C68 -/

/-- C68 does not hold: EndRound of a round while an AddMessages handler is pushing onions into it closes the task channel under the
handler, whose next send panics. Every request involved is well-formed. -/
theorem C68_endRound_during_addMessages_crashes_refuted : ∃ (c : Config) (s : State) (rs : List Resp),
    exec c (init true) [Ex.round1, .addMessages 1 [Mixer.Ex.batch [Mixer.Ex.o1, Mixer.Ex.o2]], .enter 0, .work 0 .addStep, .work 0 .addStep,
      .endRound 1, .work 0 .addStep] = some (s, rs) ∧ s.crashed = true := ⟨Ex.c, _, _, rfl, rfl⟩

theorem close_sim {env : Mixer.Env} {m : Mixer.State} {a : Mixer.Action} (hh : m.holder = none) (ha : a.internal) :
    Mixer.step env { m with closed := true } a = (Mixer.step env m a).map (fun m' => { m' with closed := true }) ∧
      ∀ m', Mixer.step env m a = some m' → m'.holder = none := by
  unfold Mixer.step
  cases hc : m.crashed with
  | true => simp
  | false =>
    simp only [Bool.false_eq_true, if_false]
    cases a with
    | call ms => exact absurd ha (by simp [Mixer.Action.internal])
    | close => exact absurd ha (by simp [Mixer.Action.internal])
    | addStep => simp [Mixer.addStep, hh]
    | take =>
      simp only
      cases m.queue with
      | nil => simp
      | cons t q => simp only; split <;> simp [hh]
    | finish i =>
      simp only
      cases m.busy[i]? with
      | none => simp
      | some t =>
        simp only [Mixer.finishTask, Option.map_some]
        cases env.decrypt t.input with
        | ok r =>
          simp only
          cases m.states t.mix with
          | none => simp [Mixer.State.crash, hh]
          | some ms => simp only; (repeat' split) <;> simp [Mixer.State.crash, Mixer.State.set, hh]
        | error e =>
          cases e with
          | panic => simp [Mixer.State.crash, hh]
          | err c msg =>
            simp only
            cases m.states t.mix with
            | none => simp [Mixer.State.crash, hh]
            | some ms => simp only; (repeat' split) <;> simp [Mixer.State.crash, Mixer.State.set, hh]
          | hang =>
            simp only
            cases m.states t.mix with
            | none => simp [Mixer.State.crash, hh]
            | some ms => simp only; (repeat' split) <;> simp [Mixer.State.crash, Mixer.State.set, hh]
    | shuffle i words =>
      simp only [Mixer.shuffleStep]
      (repeat' split) <;> simp_all [Mixer.State.crash, Mixer.State.set]
      all_goals (first | (rintro _ rfl; simp [hh]) | skip)
    | send i =>
      simp only [Mixer.sendStep]
      (repeat' split) <;> simp_all
      all_goals (first | (rintro _ rfl; simp [hh]) | skip)
    | recv =>
      simp only
      cases m.output with
      | nil => simp
      | cons b q => simp [hh]

theorem close_sim_exec {env : Mixer.Env} {steps : List Mixer.Action} (hi : ∀ a ∈ steps, a.internal) :
    ∀ {m : Mixer.State}, m.holder = none →
    Mixer.exec env { m with closed := true } steps = (Mixer.exec env m steps).map (fun m' => { m' with closed := true }) := by
  induction steps with
  | nil => intro m _; rfl
  | cons a as ih =>
    intro m hh
    obtain ⟨h1, h2⟩ := close_sim (env := env) hh (hi a (by simp))
    simp only [Mixer.exec, h1]
    cases hst : Mixer.step env m a with
    | none => rfl
    | some m' =>
      simp only [Option.map_some, Option.bind_some]
      exact ih (fun b hb => hi b (by simp [hb])) (h2 m' hst)

/-- C68, the part that holds: closing a round object (EndRound) when no AddMessages call is inside it is safe: the decryption
workers and shuffle goroutines still running finish without a crash under every schedule.
Missing: AddMessages handlers that are inside the object, or enter it later (C68_endRound_during_addMessages_crashes_refuted). -/
theorem C68_endRound_after_addMessages_is_safe_partial {env : Mixer.Env} {topo : Topology} {mixes : List LogicalMix}
    {w : GoMap Str Int} {m0 m m' : Mixer.State} {acts steps : List Mixer.Action}
    (h0 : Mixer.newMixers topo mixes w = .ok m0) (hx : Mixer.exec env m0 acts = some m)
    (hg : Mixer.GoodRequests env mixes w acts) (hidle : m.holder = none) (hi : ∀ a ∈ steps, a.internal)
    (hclose : Mixer.exec env m (.close :: steps) = some m') : m'.crashed = false := by
  have hc := Mixer.C12_good_requests_are_safe_partial h0 hx hg
  have hspec := Mixer.newMixers_spec h0
  have hopen := Mixer.exec_closed hx hc hg.notClosed hspec.2.2.2.2.2.2.2.1
  have hstep : Mixer.step env m .close = some { m with closed := true } := by simp [Mixer.step, hc, hopen]
  simp only [Mixer.exec, hstep, Option.bind_some] at hclose
  rw [close_sim_exec hi hidle] at hclose
  cases hm : Mixer.exec env m steps with
  | none => simp [hm] at hclose
  | some m1 =>
    simp [hm] at hclose
    subst hclose
    show m1.crashed = false
    exact Mixer.C12_good_requests_are_safe_partial h0 (acts := acts ++ steps) (by rw [Mixer.exec_append, hx]; exact hm)
      (hg.append_internal hi)

example : ∃ m m', Mixer.exec Mixer.Ex.env Mixer.Ex.s0 (Mixer.Ex.run.take 13) = some m ∧ m.holder = none ∧
    Mixer.exec Mixer.Ex.env m [.close, .finish 0, .shuffle 0 []] = some m' := ⟨_, _, rfl, rfl, rfl⟩

end Resmix.Server
