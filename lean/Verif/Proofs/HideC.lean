import Verif.Proofs.HideB
set_option autoImplicit false
/-
The counts of HideB for a round object.
-/
namespace Resmix.Shuffle
open Finset

open Classical in
/-- Distinct elements: exactly one sequence of draws gives a certain order. -/
theorem ways_nodup {α : Type} {inp out : List α} (hnd : inp.Nodup) {d : (k : Fin inp.length) → Fin (inp.length - k)} (hd : Good inp out d) :
    ways inp out = ∏ k : Fin inp.length, (2 ^ 32 / (inp.length - k) + if (d k).val < 2 ^ 32 % (inp.length - k) then 1 else 0) := by
  rw [ways_eq]
  have : univ.filter (Good inp out) = {d} := by
    ext e
    simp only [mem_filter, mem_univ, true_and, mem_singleton]
    constructor
    · intro he
      refine drawn_inj he.1 ?_
      have h1 := he.2.trans hd.2.symm
      have hA : ∀ i ∈ drawn e, i < inp.length := fun i hi => by simpa using he.1.mem_iff.1 hi
      have hB : ∀ i ∈ drawn d, i < inp.length := fun i hi => by simpa using hd.1.mem_iff.1 hi
      generalize drawn e = A at h1 hA
      generalize drawn d = B at h1 hB
      clear * - h1 hA hB hnd
      induction A generalizing B with
      | nil => cases B with
        | nil => rfl
        | cons => simp at h1
      | cons a A ih => cases B with
        | nil => simp at h1
        | cons b B =>
          simp only [List.map_cons, List.cons.injEq] at h1
          have ha := hA a (by simp)
          have hb := hB b (by simp)
          rw [List.getElem?_eq_getElem ha, List.getElem?_eq_getElem hb, Option.some.injEq, List.Nodup.getElem_inj_iff hnd] at h1
          rw [h1.1, ih (fun i hi => hA i (by simp [hi])) B h1.2 (fun i hi => hB i (by simp [hi]))]
    · rintro rfl; exact hd
  rw [this, Finset.sum_singleton]

end Resmix.Shuffle

namespace Resmix.Mixer

/-- The outputs of a mix about to be shuffled. -/
theorem about_outputs {env : Env} {topo : Topology} {mixes : List LogicalMix} {w : GoMap Str Int} {s0 s : State} {acts : List Action} {i : Nat} {n : Str}
    (h0 : newMixers topo mixes w = .ok s0) (hx : exec env s0 acts = some s) (hle : (delivered acts n).length ≤ workloadOf w n)
    (ha : AboutToShuffle env s i n) :
    s.crashed = false ∧ ∃ ms, s.states n = some ms ∧ ms.wg = 0 ∧ ms.once = false ∧ ms.shuffleWait = 1 ∧ ms.outputs.length = workloadOf w n ∧
      ms.outputs = ((delivered acts n).map (opened env)).reverse := by
  have hc : s.crashed = false := by
    by_contra hcc
    exact ha.ready (by simp [step, hcc])
  obtain ⟨hnew, -, -, -, hh0, -⟩ := newMixers_spec h0
  have hI := exec_inv (inv_init h0) hx hc
  have hr := ha.ready
  simp only [step, hc, shuffleStep, ha.goroutine, Bool.false_eq_true, if_false] at hr
  cases hn : s.states n with
  | none => simp [hn] at hr
  | some ms =>
    simp only [hn] at hr
    by_cases hw : ms.wg = 0
    · have hsw := (hI.mix n ms hn).sw.1
      have hon : ms.once = false := by
        cases ho : ms.once with
        | false => rfl
        | true =>
          have := ha.before
          rw [ho, if_pos rfl] at hsw
          simp [getMixOutputs, hc, hn, getOutputs, hw, hsw] at this
      obtain ⟨ms0, hn0, hl0, _, _, hd⟩ := exec_some hx hc (init_added h0) hh0 hn
      obtain ⟨mix, _, hmn, hm⟩ := hnew n ms0 hn0
      have hlen : ms.outputs.length = workloadOf w n := by
        rw [hl0, (newMixState_spec hm).2.1, hmn]; rfl
      have hal : ms.added.length ≤ ms.outputs.length := by
        rw [← hd, List.length_append] at hle
        omega
      have hb := (hI.mix n ms hn).body hal
      obtain ⟨hP, e⟩ := hb.outputs_eq hon hal hw
      have hcnt := hb.cnt
      rw [hP, hw] at hcnt
      simp only [List.length_nil] at hcnt
      have h9 : restFor s n = [] := by
        rw [← hd, List.length_append] at hle
        exact List.eq_nil_of_length_eq_zero (by omega)
      rw [h9, List.append_nil] at hd
      rw [hon] at hsw
      exact ⟨hc, ms, rfl, hw, hon, by simpa using hsw, hlen, by rw [← hd]; exact e⟩
    · rw [if_neg hw] at hr; simp at hr

theorem shuffleWays_eq {env : Env} {topo : Topology} {mixes : List LogicalMix} {w : GoMap Str Int} {s0 s : State} {acts : List Action} {i : Nat} {n : Str}
    (h0 : newMixers topo mixes w = .ok s0) (hx : exec env s0 acts = some s) (hle : (delivered acts n).length ≤ workloadOf w n)
    (ha : AboutToShuffle env s i n) (out : List Bytes) :
    shuffleWays env s i (workloadOf w n) n out = Shuffle.ways (((delivered acts n).map (opened env)).reverse) out ∧
      (((delivered acts n).map (opened env)).reverse).length = workloadOf w n := by
  obtain ⟨hc, ms, hn, hw, hon, hsw, hlen, e⟩ := about_outputs h0 hx hle ha
  rw [← e]
  refine ⟨?_, hlen⟩
  unfold shuffleWays Shuffle.ways
  rw [← hlen]
  congr 1
  apply congrArg Subtype
  funext ws
  apply propext
  obtain ⟨out', shf, hok, -⟩ := shuffle_ok (List.ofFn fun j => be32 (ws j).val) ms.outputs
  simp only [step, hc, shuffleStep, ha.goroutine, hn, hw, hon, hok, Bool.false_eq_true, if_false, if_true]
  constructor
  · rintro ⟨s1, h1, h2⟩
    cases h1
    simp [getMixOutputs, State.set, hc, getOutputs, hsw] at h2
    subst h2
    exact ⟨_, rfl⟩
  · rintro ⟨shf', h⟩
    cases h
    exact ⟨_, rfl, by simp [getMixOutputs, State.set, hc, getOutputs, hsw]⟩

end Resmix.Mixer
