import Verif.Proofs.FineH
import Verif.Spec.MixerFine
set_option autoImplicit false
/- Executions of the fine-grained mixer from a new round (C122, C123). -/
namespace Resmix.MixerFine
open Resmix.Mixer (Messages Task Env MixState AddOp Shuf MixOutput Action mkTasks newMixers)
open Resmix.Race

theorem mixes_new {topo : Topology} {mixes : List LogicalMix} {w : GoMap Str Int} {s0 : Mixer.State} (h : newMixers topo mixes w = .ok s0) {n : Str} {M : Mem}
    (hM : (ofNew s0).mixes n = some M) : ∃ ms, s0.states n = some ms ∧ M = ⟨ms.predecessors, ms.isLastLayer, ms.totalReceived, ms.totalWorkload, ms.outputs, ms.wg, 1, .fresh⟩ ∧
      ms.wg = ms.totalWorkload ∧ 0 ≤ ms.wg ∧ ms.shuffleWait = 1 ∧ ms.once = false := by
  obtain ⟨ms, hms, hM'⟩ := Option.map_eq_some_iff.1 hM
  obtain ⟨mix, -, -, hm⟩ := (Mixer.newMixers_spec h).1 n ms hms
  obtain ⟨hw, hlen, hadd, honce, hsw, hwg, htw, -⟩ := Mixer.newMixState_spec hm
  exact ⟨ms, hms, by rw [← hM', hsw], by rw [hwg, htw], by rw [hwg]; exact hw, hsw, honce⟩

theorem TInv.init {topo : Topology} {mixes : List LogicalMix} {w : GoMap Str Int} {s0 : Mixer.State} (h : newMixers topo mixes w = .ok s0) : TInv (ofNew s0) where
  cnt := fun n M hM => by
    obtain ⟨ms, -, rfl, h1, h2, -⟩ := mixes_new h hM
    have : tasks (ofNew s0) = [] := rfl
    rw [this]
    show (0 : Int) + max ms.totalWorkload 0 = ms.wg
    rw [max_eq_left (by omega)]; omega
  nd := List.Pairwise.nil
  low := fun t ht => by cases ht
  hold := fun g pc rest hh => by cases hh
  bid := List.nodup_nil
  bval := fun w t he => by cases he

theorem SInv.init {topo : Topology} {mixes : List LogicalMix} {w : GoMap Str Int} {s0 : Mixer.State} (h : newMixers topo mixes w = .ok s0) : SInv (ofNew s0) where
  ids := List.nodup_nil
  lt := fun g n pc he => by cases he
  ok := fun g n pc he => by cases he
  body := fun g g' n pc pc' he => by cases he
  mix := fun n M hM => by
    obtain ⟨ms, -, rfl, -⟩ := mixes_new h hM
    exact ⟨fun _ => rfl, fun hf => absurd rfl hf, (fun hd => by cases hd), (fun hd => by cases hd), .inr rfl⟩
  get := fun n pc he => by cases he
  out := fun n he => by cases he

theorem KInv.init (s0 : Mixer.State) : KInv (ofNew s0) [] where
  rf := .nil
  mu := fun i e he => by simp at he
  kn := fun n =>
    { fresh := fun M hM hf i e he => by simp at he
      enter := fun M g hM he => by cases he
      copy := fun g o he => by cases he
      put := fun g o p w i he => by cases he
      leave := fun g he => by cases he
      after := fun g he => by cases he
      wait := fun g he => by cases he
      send := fun g he => by cases he
      sw := fun M hM h0 i e he => by simp at he
      done := fun M hM h0 i e he => by simp at he
      out := fun k hk => by simp [ofNew] at hk
      recv := fun hn => by cases hn
      get := fun k hk => by simp [ofNew] at hk }

def lastOf (s0 : Mixer.State) (n : Str) : Bool := ((s0.states n).map (·.isLastLayer)).getD false

theorem R.init {env : Env} {topo : Topology} {mixes : List LogicalMix} {w : GoMap Str Int} {s0 : Mixer.State} (h : newMixers topo mixes w = .ok s0) :
    R env (lastOf s0) (ofNew s0) s0 := by
  obtain ⟨-, -, hq, hb, hh, hsh, ho, hcl, hcr, hse⟩ := Mixer.newMixers_spec h
  exact
  { crashed := hcr
    closed := hcl
    queue := hq
    busy := hb
    holder := hh
    none := fun n hn => by
      simp only [ofNew, Option.map_eq_none_iff] at hn; exact hn
    mix := fun n M hM => by
      obtain ⟨ms, hms, rfl, h1, h2, h3, h4⟩ := mixes_new h hM
      exact ⟨ms, hms, rfl, rfl, rfl, by simp [pendN, ofNew], by simp [wrN, ofNew], h3, by simp [h4], fun _ => rfl, fun g o p w i he => by cases he⟩
    more := fun g pc rest hh => by cases hh
    shufs := hsh
    lastOk := fun n M hM => by
      obtain ⟨ms, hms, rfl, -⟩ := mixes_new h hM
      simp [lastOf, hms]
    output := by rw [ho]; rfl
    sent := ⟨[], by rw [hse, ho]; rfl, rfl⟩
    cont := fun o hm => by rw [hse] at hm; cases hm
    cpu := fun e he => by cases he }

theorem exec_sim {env : Env} {topo : Topology} {mixes : List LogicalMix} {w : GoMap Str Int} {s0 : Mixer.State} {tr : List Ev} {f : State}
    (h0 : newMixers topo mixes w = .ok s0) (hx : Exec env (ofNew s0) tr f) :
    RaceFree tr ∧ (f.crashed = false → TInv f ∧ SInv f) ∧ ∃ acts s, Mixer.exec env s0 acts = some s ∧ callsOf acts = f.calls ∧ (Action.close ∈ acts → f.closed = true) ∧
      s.crashed = f.crashed ∧ (f.crashed = false → R env (lastOf s0) f s) := by
  have hinv := exec_inv hx rfl (.init h0) (.init h0) (.init s0)
  refine ⟨hinv.1, fun hc => ⟨(hinv.2 hc).1, (hinv.2 hc).2.1⟩, ?_⟩
  clear hinv
  induction hx with
  | nil => exact ⟨[], s0, rfl, rfl, by simp, (R.init (env := env) h0).crashed, fun _ => .init h0⟩
  | @snoc tr evs f f' hx hcr hst ih =>
    obtain ⟨acts, s, hex, hca, hcl, hc, hr⟩ := ih
    obtain ⟨ht, hs, -⟩ := (exec_inv hx rfl (.init h0) (.init h0) (.init s0)).2 hcr
    obtain ⟨calls, h1, as, s', h2, h3, h4, h5, h6⟩ := sim_step (hr hcr) ht hs hcr hst
    refine ⟨acts ++ as, s', ?_, ?_, ?_, h3, h4⟩
    · rw [Mixer.exec_append, hex]; exact h2
    · have h5' : callsOf as = calls := h5
      rw [callsOf, List.filterMap_append, ← callsOf, ← callsOf, h5', h1, ← hca]
    · intro hm
      rcases List.mem_append.1 hm with hm | hm
      · have hcf := hcl hm
        have hmono : f'.closed = true := by
          cases hst with
          | add h => cases h <;> exact hcf
          | work h => cases h <;> exact hcf
          | shuf h => cases h <;> exact hcf
          | read h => cases h <;> first | exact hcf | rfl
        exact hmono
      · exact h6 hm

/-- Once the shuffle has been signalled the outputs are those of Model/Mixer. -/
theorem R.get {env : Env} {last : Str → Bool} {f : State} {c : Mixer.State} (h : R env last f c) (ht : TInv f) (hs : SInv f) {n : Str} {M : Mem} (hM : f.mixes n = some M)
    (hsw : M.shuffleWait = 0) : Mixer.getMixOutputs c n = some (.ok M.outputs) := by
  obtain ⟨ms, hms, hr⟩ := h.mix _ _ hM
  have hwg := not_fresh_of_sw hs hM hsw
  have hle := ht.wr_le hM
  have hw0 : ms.wg = 0 := by have := hr.wg; omega
  have hou : ms.outputs = M.outputs := hr.outs fun g o p w i he => by
    obtain ⟨N, hN, -, h1, -⟩ := hs.ok _ _ _ he
    rw [hM] at hN; cases hN; omega
  simp [Mixer.getMixOutputs, h.crashed, hms, Mixer.getOutputs, hw0, hr.sw, hsw, hou]

/-- The outputs do not change any more. -/
theorem step_final {env : Env} {f f' : State} {evs : List Ev} (ht : TInv f) (hs : SInv f) (hst : Step env f evs f') {n : Str} {M : Mem} (hM : f.mixes n = some M)
    (hsw : M.shuffleWait = 0) : ∃ M', f'.mixes n = some M' ∧ M'.outputs = M.outputs ∧ M'.shuffleWait = 0 := by
  have hwg := not_fresh_of_sw hs hM hsw
  have hset : ∀ (n0 : Str) (M0 M1 : Mem), f.mixes n0 = some M0 → (n0 = n → M0 = M → M1.outputs = M.outputs ∧ M1.shuffleWait = 0) →
      ∃ M', (f.set n0 M1).mixes n = some M' ∧ M'.outputs = M.outputs ∧ M'.shuffleWait = 0 := by
    intro n0 M0 M1 hM0 h
    rw [set_mixes]
    by_cases e : n = n0
    · subst e; rw [hM] at hM0; cases hM0
      exact ⟨M1, if_pos rfl, h rfl rfl⟩
    · exact ⟨M, by rw [if_neg e]; exact hM, rfl, hsw⟩
  have hsame : ∃ M', f.mixes n = some M' ∧ M'.outputs = M.outputs ∧ M'.shuffleWait = 0 := ⟨M, hM, rfl, hsw⟩
  cases hst with
  | add h =>
    cases h with
    | store hh hM0 => exact hset _ _ _ hM0 (fun _ e => by subst e; exact ⟨rfl, hsw⟩)
    | counted hh hM0 => exact hset _ _ _ hM0 (fun _ e => by subst e; exact ⟨rfl, hsw⟩)
    | _ => exact hsame
  | work h =>
    cases h with
    | @write j w t M0 hj hp hM0 hi =>
      refine hset _ _ _ hM0 (fun e1 e => ?_)
      subst e
      have := ht.wg_pos (busy_mem hj) hM0 hi.1
      omega
    | done hj hM0 hg => exact hset _ _ _ hM0 (fun _ e => by subst e; exact ⟨rfl, hsw⟩)
    | _ => exact hsame
  | shuf h =>
    cases h with
    | first hj hM0 ho => exact hset _ _ _ hM0 (fun _ e => by subst e; exact ⟨rfl, hsw⟩)
    | leave hj hM0 => exact hset _ _ _ hM0 (fun _ e => by subst e; exact ⟨rfl, hsw⟩)
    | @put j g n0 orig p words i k x M0 hj hM0 hi hk hx =>
      refine hset _ _ _ hM0 (fun e1 e => ?_)
      subst e e1
      obtain ⟨N, hN, -, h1, -⟩ := hs.ok _ _ _ (List.mem_of_getElem? hj)
      rw [hM] at hN; cases hN; omega
    | @signal j g n0 orig p words i M0 hj hM0 hi =>
      refine hset _ _ _ hM0 (fun e1 e => ?_)
      subst e e1
      obtain ⟨N, hN, -, h1, -⟩ := hs.ok _ _ _ (List.mem_of_getElem? hj)
      rw [hM] at hN; cases hN; omega
    | _ => exact hsame
  | read h => cases h <;> exact hsame

theorem exec_final {env : Env} {f f' : State} {tr : List Ev} (hx : Exec env f tr f') (h0 : f.crashed = false) (ht : TInv f) (hs : SInv f) {n : Str} {M : Mem}
    (hM : f.mixes n = some M) (hsw : M.shuffleWait = 0) :
    (f'.crashed = false → TInv f' ∧ SInv f') ∧ ∃ M', f'.mixes n = some M' ∧ M'.outputs = M.outputs ∧ M'.shuffleWait = 0 := by
  induction hx with
  | nil => exact ⟨fun _ => ⟨ht, hs⟩, M, hM, rfl, hsw⟩
  | @snoc tr evs f1 f2 hx hcr hst ih =>
    obtain ⟨hi, M1, hM1, ho1, hs1⟩ := ih
    obtain ⟨ht1, hs1'⟩ := hi hcr
    refine ⟨fun hc => ⟨ht1.step hst hc, hs1'.step ht1 hst hc⟩, ?_⟩
    obtain ⟨M2, hM2, ho2, hs2⟩ := step_final ht1 hs1' hst hM1 hs1
    exact ⟨M2, hM2, ho2.trans ho1, hs2⟩

theorem delivered_calls (acts : List Action) (n : Str) : Mixer.delivered acts n = onionsOf (callsOf acts) n := by
  induction acts with
  | nil => rfl
  | cons a as ih =>
    rw [Mixer.delivered, List.flatMap_cons]
    rw [Mixer.delivered] at ih
    rw [ih]
    cases a <;> simp [onionsOf, callsOf, Mixer.deliveredBy]

end Resmix.MixerFine
