import Verif.Props.Mixer
import Verif.Proofs.FineK
set_option autoImplicit false
/-
C122, C123: the mixer at the granularity of single memory accesses (Model/MixerFine).
-/
namespace Resmix.MixerFine
open Resmix.Mixer (Messages Task Env MixState Action newMixers getMixOutputs workloadOf)
open Resmix.Race

/-- C122. The mixer has no data race: for every workload, whatever the AddMessages calls contain, whenever GetMixOutputs is called and however the goroutines
are scheduled, any two conflicting accesses to the shared memory of a round are ordered by happens-before. -/
theorem C122_no_data_races {env : Env} {topo : Topology} {mixes : List LogicalMix} {w : GoMap Str Int} {s0 : Mixer.State} {tr : List Ev} {s : State}
    (h0 : newMixers topo mixes w = .ok s0) (hx : Exec env (ofNew s0) tr s) : RaceFree tr :=
  (exec_sim h0 hx).1

/-- The outputs that a reader (a caller to whom GetMixOutputs has returned, or the sender) holds. -/
def Holds (s : State) (n : Str) : Prop := (∃ k : Nat, s.getters[k]? = some (n, .reading)) ∨ n ∈ s.received

theorem holds_mem {s : State} (h : SInv s) {n : Str} (hh : Holds s n) : ∃ M, s.mixes n = some M ∧ M.shuffleWait = 0 := by
  rcases hh with ⟨k, hk⟩ | hr
  · obtain ⟨M, hM, h2⟩ := h.get n _ (List.mem_of_getElem? hk)
    exact ⟨M, hM, h2⟩
  · obtain ⟨M, hM, h1, -⟩ := h.out n (List.mem_append_left _ hr)
    exact ⟨M, hM, (h.mix n M hM).done h1⟩

/-- C123. Interleaving single memory accesses adds no behaviour: for every execution there is one of Model/Mixer, in which AddMessages' batches, the workers'
results and the shuffle are single steps, with the same AddMessages calls in the same order, that crashes if and only if this one does, and in which (if there
is no crash) GetMixOutputs returns exactly the outputs that every reader here finds in memory, and the same mixes have been passed on, in the same order and
with the outputs that are in memory now. -/
theorem C123_no_more_behaviours {env : Env} {topo : Topology} {mixes : List LogicalMix} {w : GoMap Str Int} {s0 : Mixer.State} {tr : List Ev} {s : State}
    (h0 : newMixers topo mixes w = .ok s0) (hx : Exec env (ofNew s0) tr s) :
    ∃ acts c, Mixer.exec env s0 acts = some c ∧ callsOf acts = s.calls ∧ (.close ∈ acts → s.closed = true) ∧ c.crashed = s.crashed ∧
      (s.crashed = false →
        (∀ n, Holds s n → ∃ M, s.mixes n = some M ∧ getMixOutputs c n = some (.ok M.outputs)) ∧
        c.sent.map (·.logicalSender) = s.received ++ s.output ∧
        ∀ o ∈ c.sent, ∃ M, s.mixes o.logicalSender = some M ∧ M.outputs = o.onions) := by
  obtain ⟨-, hinv, acts, c, hex, hca, hcl, hcr, hr⟩ := exec_sim h0 hx
  refine ⟨acts, c, hex, hca, hcl, hcr, fun hc => ?_⟩
  obtain ⟨ht, hs⟩ := hinv hc
  have hR := hr hc
  refine ⟨fun n hh => ?_, ?_, hR.cont⟩
  · obtain ⟨M, hM, h2⟩ := holds_mem hs hh
    exact ⟨M, hM, hR.get ht hs hM h2⟩
  · obtain ⟨pre, h1, h2⟩ := hR.sent
    rw [h1, List.map_append, h2, hR.output]

/-- C123, what a reader finds: if no more onions than announced were sent to mix `n`, then whenever a reader holds its outputs they are, in memory, a
permutation of the decryptions of exactly the announced number of onions, all of them sent by the AddMessages calls so far; -/
theorem C123_readers_find_the_decryptions {env : Env} {topo : Topology} {mixes : List LogicalMix} {w : GoMap Str Int} {s0 : Mixer.State} {tr : List Ev} {s : State}
    (h0 : newMixers topo mixes w = .ok s0) (hx : Exec env (ofNew s0) tr s) (hc : s.crashed = false) {n : Str} (hh : Holds s n)
    (hle : (onionsOf s.calls n).length ≤ workloadOf w n) :
    ∃ M, s.mixes n = some M ∧ (onionsOf s.calls n).length = workloadOf w n ∧
      M.outputs.Perm ((onionsOf s.calls n).map fun o => match env.decrypt o with | .ok r => r | .error _ => []) := by
  obtain ⟨acts, c, hex, hca, -, -, h⟩ := C123_no_more_behaviours h0 hx
  obtain ⟨M, hM, hg⟩ := (h hc).1 n hh
  rw [← hca, ← delivered_calls] at hle ⊢
  exact ⟨M, hM, Mixer.C08_outputs_are_the_decryptions h0 hex hle hg⟩

/-- and nothing any goroutine does later, whatever calls still arrive, changes what the reader holds. -/
theorem C123_reads_are_final {env : Env} {topo : Topology} {mixes : List LogicalMix} {w : GoMap Str Int} {s0 : Mixer.State} {tr later : List Ev} {s s' : State}
    (h0 : newMixers topo mixes w = .ok s0) (hx : Exec env (ofNew s0) tr s) (hc : s.crashed = false) {n : Str} (hh : Holds s n)
    (hx' : Exec env s later s') : ∃ M M', s.mixes n = some M ∧ s'.mixes n = some M' ∧ M'.outputs = M.outputs := by
  obtain ⟨ht, hs⟩ := (exec_sim h0 hx).2.1 hc
  obtain ⟨M, hM, h2⟩ := holds_mem hs hh
  obtain ⟨-, M', hM', ho, -⟩ := exec_final hx' hc ht hs hM h2
  exact ⟨M, M', hM, hM', ho⟩

/-- C123, no crash: if the receivers are known, the onions long enough, no mix is sent more than announced and the round is not closed, no goroutine panics,
however the accesses interleave. -/
theorem C123_safe {env : Env} {topo : Topology} {mixes : List LogicalMix} {w : GoMap Str Int} {s0 : Mixer.State} {tr : List Ev} {s : State}
    (h0 : newMixers topo mixes w = .ok s0) (hx : Exec env (ofNew s0) tr s) (hcl : s.closed = false)
    (hrec : ∀ ms ∈ s.calls, ∀ m ∈ ms, ∃ mix ∈ mixes, mix.name = m.logicalReceiver)
    (hon : ∀ ms ∈ s.calls, ∀ m ∈ ms, ∀ o ∈ m.messages, env.decrypt o ≠ .error .panic)
    (hle : ∀ mix ∈ mixes, (onionsOf s.calls mix.name).length ≤ workloadOf w mix.name) : s.crashed = false := by
  obtain ⟨acts, c, hex, hca, hclo, hcr, -⟩ := C123_no_more_behaviours h0 hx
  have hmem : ∀ a ∈ acts, ∀ ms, a = Action.call ms → ms ∈ s.calls := by
    intro a ha ms e
    rw [← hca]
    exact List.mem_filterMap.2 ⟨a, ha, by rw [e]⟩
  rw [← hcr]
  refine Mixer.C12_good_requests_are_safe_partial h0 hex ⟨fun a ha ms e => hrec ms (hmem a ha ms e), fun a ha ms e => hon ms (hmem a ha ms e), fun mix hm => ?_, fun hm => ?_⟩
  · rw [delivered_calls, hca]; exact hle mix hm
  · rw [hclo hm] at hcl; cases hcl

/-- C123, progress: after good requests the process takes only finitely many steps on its own (a bound that depends on the state only), so under every schedule
it comes to rest; and whenever it has come to rest, every AddMessages call has returned, and for each mix with a positive workload to which the expected sender
sent everything, every GetMixOutputs call has returned, and it returned a permutation of the decryptions.
(Mixes with workload zero: C11_empty_mix_blocks_refuted.) -/
theorem C123_progress {env : Env} {topo : Topology} {mixes : List LogicalMix} {w : GoMap Str Int} {s0 : Mixer.State} {tr : List Ev} {s : State}
    (h0 : newMixers topo mixes w = .ok s0) (hnd : (mixes.map (·.name)).Nodup) (hexp : ∀ mix ∈ mixes, ∃ pk, Mixer.ExpectsOnly topo w mix pk)
    (hcpu : 0 < env.nCPU) (htc : 0 < env.taskCap) (hoc : 0 < env.outCap) (hx : Exec env (ofNew s0) tr s) (hcl : s.closed = false)
    (hrec : ∀ ms ∈ s.calls, ∀ m ∈ ms, ∃ mix ∈ mixes, mix.name = m.logicalReceiver)
    (hon : ∀ ms ∈ s.calls, ∀ m ∈ ms, ∀ o ∈ m.messages, env.decrypt o ≠ .error .panic)
    (hle : ∀ mix ∈ mixes, (onionsOf s.calls mix.name).length ≤ workloadOf w mix.name) :
    (∃ N, ∀ k s', OwnRun env s k s' → k ≤ N) ∧
    ∀ k s', OwnRun env s k s' → s'.crashed = false ∧ (Rest env s' → s'.holder = none ∧
      ∀ mix ∈ mixes, ∀ pk, Mixer.ExpectsOnly topo w mix pk → 0 < workloadOf w mix.name →
        (onionsFrom s.calls pk mix.name).length = workloadOf w mix.name →
        (∀ (k : Nat) (pc : GPc), s'.getters[k]? = some (mix.name, pc) → pc = .reading) ∧
        ∃ M, s'.mixes mix.name = some M ∧
          M.outputs.Perm ((onionsOf s.calls mix.name).map fun o => match env.decrypt o with | .ok r => r | .error _ => [])) := by
  refine ⟨⟨mu (shapeOf s) s, fun k s' h => by have := (ownRun_le h).2; omega⟩, fun k s' h => ?_⟩
  obtain ⟨⟨tr', hx'⟩, hca, hcl'⟩ := ownRun_exec hx h
  rw [← hca] at hrec hon hle
  have hsafe := C123_safe h0 hx' (hcl'.trans hcl) hrec hon hle
  refine ⟨hsafe, fun hr => ?_⟩
  obtain ⟨-, hinv, acts, c, hex, hcalls, hclo, hcr, hrel⟩ := exec_sim h0 hx'
  obtain ⟨ht, hs⟩ := hinv hsafe
  have hR := hrel hsafe
  refine ⟨rest_holder ht hr hcpu htc, fun mix hm pk hpk hpos hfull => ?_⟩
  have hmem : ∀ a ∈ acts, ∀ ms, a = Action.call ms → ms ∈ s'.calls := by
    intro a ha ms e
    rw [← hcalls]
    exact List.mem_filterMap.2 ⟨a, ha, by rw [e]⟩
  have hgood : Mixer.GoodRequests env mixes w acts :=
    ⟨fun a ha ms e => hrec ms (hmem a ha ms e), fun a ha ms e => hon ms (hmem a ha ms e), fun mix hm => by rw [delivered_calls, hcalls]; exact hle mix hm,
      fun hm => by have := hclo hm; rw [hcl', hcl] at this; cases this⟩
  obtain ⟨out, hg, -⟩ := (Mixer.C11_fully_delivered_round_completes_partial h0 hnd hexp hcpu htc hoc hex hgood).2 [] c (by simp) rfl
    (rest_coarse hR ht hs hr hcpu htc hoc) mix hm pk hpk hpos (by rw [deliveredFrom_calls, hcalls, hca]; exact hfull)
  obtain ⟨⟨M, hM, ho⟩, hrd⟩ := rest_get hR ht hs hr hg
  refine ⟨hrd, M, hM, ?_⟩
  have := (Mixer.C08_outputs_are_the_decryptions h0 hex (hgood.amounts mix hm) hg).2
  rw [delivered_calls, hcalls, hca] at this
  rw [ho]; exact this

/-! A run of the example of Props/Mixer. -/

namespace Ex
open Mixer.Ex (env s0 m00 o1 o2 batch)

/-- Two calls with one onion each; two workers finish while calls are being served, a caller of GetMixOutputs and the sender read the shuffled outputs. Two
accesses of different goroutines conflict. -/
theorem run : ∃ tr s, Exec env (ofNew s0) tr s ∧ s.crashed = false ∧ s.closed = false ∧ Holds s m00.name ∧ s.received = [m00.name] ∧ s.calls = [[batch [o1]], [batch [o2]]] ∧
    s.holder = none ∧ s.queue = [] ∧ s.busy = [] ∧ s.shufs = [] ∧ s.output = [] ∧ s.getters = [(m00.name, .reading)] ∧
    (s.mixes m00.name).map (·.outputs) = some [[41], [42]] ∧
    (∃ i j : Nat, i < j ∧ tr[i]? = some ⟨.worker 1, .write (.slot m00.name 1)⟩ ∧ tr[j]? = some ⟨.getter 0, .read (.slot m00.name 1)⟩) := by
  have h1 := Exec.snoc (Exec.nil (env := env) (s0 := ofNew s0)) rfl (.add (.lock [batch [o1]] rfl))
  have h2 := Exec.snoc h1 rfl (.add (.batch rfl (by decide)))
  have h3 := Exec.snoc h2 rfl (.add (.index rfl rfl))
  have h4 := Exec.snoc h3 rfl (.add (.load rfl rfl))
  have h5 := Exec.snoc h4 rfl (.add (.store rfl rfl))
  have h6 := Exec.snoc h5 rfl (.add (.count rfl rfl))
  have h7 := Exec.snoc h6 rfl (.add (.counted rfl rfl))
  have h8 := Exec.snoc h7 rfl (.add (.push rfl rfl (by decide)))
  have h9 := Exec.snoc h8 rfl (.add (.check _ rfl rfl (.refl _)))
  have h10 := Exec.snoc h9 rfl (.add (.differs rfl rfl (by decide)))
  have h11 := Exec.snoc h10 rfl (.add (.unlock rfl))
  have h12 := Exec.snoc h11 rfl (.work (.take (t := _) 1 rfl (by decide) (fun e he => by cases he)))
  have h13 := Exec.snoc h12 rfl (.add (.lock [batch [o2]] rfl))
  have h14 := Exec.snoc h13 rfl (.add (.batch rfl (by decide)))
  have h15 := Exec.snoc h14 rfl (.add (.index rfl rfl))
  have h16 := Exec.snoc h15 rfl (.add (.load rfl rfl))
  have h17 := Exec.snoc h16 rfl (.add (.store rfl rfl))
  have h18 := Exec.snoc h17 rfl (.work (.write (j := 0) rfl (by decide) rfl (by decide)))
  have h19 := Exec.snoc h18 rfl (.add (.count rfl rfl))
  have h20 := Exec.snoc h19 rfl (.add (.counted rfl rfl))
  have h21 := Exec.snoc h20 rfl (.add (.push rfl rfl (by decide)))
  have h22 := Exec.snoc h21 rfl (.add (.check _ rfl rfl (.refl _)))
  have h23 := Exec.snoc h22 rfl (.add (.same rfl rfl (by decide)))
  have h24 := Exec.snoc h23 rfl (.add (.spawn rfl))
  have h25 := Exec.snoc h24 rfl (.work (.done (j := 0) rfl rfl (by decide)))
  have h26 := Exec.snoc h25 rfl (.add (.unlock rfl))
  have h27 := Exec.snoc h26 rfl (.read (.get (n := m00.name) rfl))
  have h28 := Exec.snoc h27 rfl (.work (.take (t := _) 0 rfl (by decide) (fun e he => by cases he)))
  have h29 := Exec.snoc h28 rfl (.work (.write (j := 0) rfl (by decide) rfl (by decide)))
  have h30 := Exec.snoc h29 rfl (.work (.done (j := 0) rfl rfl (by decide)))
  have h31 := Exec.snoc h30 rfl (.shuf (.start (j := 0) rfl rfl rfl))
  have h32 := Exec.snoc h31 rfl (.read (.getWg (k := 0) rfl rfl rfl))
  have h33 := Exec.snoc h32 rfl (.shuf (.first (j := 0) rfl rfl rfl))
  have h34 := Exec.snoc h33 rfl (.shuf (.copy (j := 0) rfl rfl rfl))
  have h35 := Exec.snoc h34 rfl (.shuf (.copy (j := 0) rfl rfl rfl))
  have h36 := Exec.snoc h35 rfl (.shuf (.draw (j := 0) (words := [[0,0,0,0],[0,0,0,0],[0,0,0,0],[0,0,0,0]]) rfl rfl rfl rfl))
  have h37 := Exec.snoc h36 rfl (.shuf (.put (j := 0) rfl rfl (by decide) rfl rfl))
  have h38 := Exec.snoc h37 rfl (.shuf (.put (j := 0) rfl rfl (by decide) rfl rfl))
  have h39 := Exec.snoc h38 rfl (.shuf (.signal (j := 0) rfl rfl (by decide)))
  have h40 := Exec.snoc h39 rfl (.read (.getShuffled (k := 0) rfl rfl rfl))
  have h41 := Exec.snoc h40 rfl (.read (.getRead (k := 0) (i := 1) rfl rfl (by decide)))
  have h42 := Exec.snoc h41 rfl (.shuf (.leave (j := 0) rfl rfl))
  have h43 := Exec.snoc h42 rfl (.shuf (.waited (j := 0) rfl rfl rfl rfl))
  have h44 := Exec.snoc h43 rfl (.shuf (.outputs (j := 0) rfl rfl rfl))
  have h45 := Exec.snoc h44 rfl (.shuf (.send (j := 0) rfl (by decide)))
  have h46 := Exec.snoc h45 rfl (.read (.recv rfl))
  have h47 := Exec.snoc h46 rfl (.read (.senderRead (n := m00.name) (i := 1) (by decide) rfl (by decide)))
  exact ⟨_, _, h47, rfl, rfl, .inl ⟨0, rfl⟩, rfl, rfl, rfl, rfl, rfl, rfl, rfl, rfl, rfl, ⟨14, 35, by decide, rfl, rfl⟩⟩

/-- Not every trace is race free. -/
theorem racy : ¬ RaceFree [(⟨.worker 0, .write (.slot [] 0)⟩ : Ev), ⟨.getter 0, .read (.slot [] 0)⟩] := by
  intro h
  have := h 0 1 _ _ (by decide) rfl rfl ⟨.slot [] 0, .inl ⟨rfl, .inl rfl⟩⟩
  have key : ∀ i j, HB [(⟨.worker 0, .write (.slot [] 0)⟩ : Ev), ⟨.getter 0, .read (.slot [] 0)⟩] i j → False := by
    intro i j h
    induction h with
    | @program i j a b h hi hj hg =>
      rcases i with _ | _ | i <;> rcases j with _ | _ | j <;> simp at h hi hj <;> (subst hi hj; simp at hg)
    | @sync i j a b s h hi hj ha hb =>
      rcases i with _ | _ | i <;> rcases j with _ | _ | j <;> simp at h hi hj <;> (subst hi hj; simp at ha)
    | trans _ _ h1 _ => exact h1
  exact key _ _ this
end Ex

example : ∃ tr s, newMixers Mixer.Ex.topo Mixer.Ex.mixes Mixer.Ex.w = .ok Mixer.Ex.s0 ∧ Exec Mixer.Ex.env (ofNew Mixer.Ex.s0) tr s ∧ s.crashed = false ∧
    s.closed = false ∧ Holds s Mixer.Ex.m00.name ∧ (onionsOf s.calls Mixer.Ex.m00.name).length = 2 ∧ workloadOf Mixer.Ex.w Mixer.Ex.m00.name = 2 ∧ RaceFree tr := by
  obtain ⟨tr, s, hx, hc, hcl, hh, -, hca, -⟩ := Ex.run
  exact ⟨tr, s, Mixer.Ex.new_ok, hx, hc, hcl, hh, by rw [hca]; rfl, by decide, C122_no_data_races Mixer.Ex.new_ok hx⟩

/-- The run ends at rest. -/
theorem Ex.rest {s : State} (hc : s.crashed = false) (h1 : s.holder = none) (h2 : s.queue = []) (h3 : s.busy = []) (h4 : s.shufs = []) (h5 : s.output = [])
    (h6 : s.getters = [(Mixer.Ex.m00.name, .reading)]) : Rest Mixer.Ex.env s := by
  refine ⟨hc, fun evs s' h => ?_⟩
  cases h with
  | add h hh => exact hh h1
  | work h => cases h <;> simp_all
  | shuf h => cases h <;> simp_all
  | read h ha =>
    have hg : ∀ (k : Nat) n pc, s.getters[k]? = some (n, pc) → pc = .reading := by
      intro k n pc hk
      rw [h6] at hk
      rcases k with _ | k <;> simp at hk
      exact hk.2.symm
    cases h with
    | recv h => rw [h5] at h; cases h
    | getWg h _ _ => cases hg _ _ _ h
    | getShuffled h _ _ => cases hg _ _ _ h
    | _ => simp at ha

example : ∃ tr s, Exec Mixer.Ex.env (ofNew Mixer.Ex.s0) tr s ∧ Rest Mixer.Ex.env s ∧ s.closed = false ∧
    (∀ mix ∈ Mixer.Ex.mixes, ∃ pk, Mixer.ExpectsOnly Mixer.Ex.topo Mixer.Ex.w mix pk) ∧
    (onionsFrom s.calls (genesisName, genesisName) Mixer.Ex.m00.name).length = workloadOf Mixer.Ex.w Mixer.Ex.m00.name ∧
    0 < workloadOf Mixer.Ex.w Mixer.Ex.m00.name := by
  obtain ⟨tr, s, hx, hc, hcl, -, -, hca, h1, h2, h3, h4, h5, h6, -⟩ := Ex.run
  refine ⟨tr, s, hx, Ex.rest hc h1 h2 h3 h4 h5 h6, hcl, ?_, by rw [hca]; decide, by decide⟩
  intro mix hm
  rcases List.mem_cons.1 hm with rfl | hm
  · exact ⟨_, .inl ⟨rfl, rfl⟩⟩
  · rw [List.mem_singleton] at hm
    subst hm
    exact ⟨(Mixer.Ex.b, mixNameOf 0 1), .inr ⟨mixNameOf 0 1, _, rfl, by decide, rfl, rfl, by decide⟩⟩

end Resmix.MixerFine
