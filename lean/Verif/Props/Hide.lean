import Verif.Proofs.HideC
import Verif.Props.Mixer
import Mathlib.Algebra.Order.BigOperators.Ring.Finset
import Mathlib.Algebra.BigOperators.Fin
set_option autoImplicit false
/-
C114, C115: what an observer of one mix learns (mixer.go, shuffle.go).
-/
namespace Resmix.Mixer

/-! ### C114 -/

/-- C114. A mix hides which of its onions contained which message. Take any execution of a round object: any requests (from an adversary too: unknown
receivers, forged senders, unparsable onions, empty batches, a closed round, a crash), any schedule, as long as no mix is given more than announced. Take
any other key under which the onions delivered have other contents, the same up to their order in every mix that received all its onions. Then with that
key there is an execution with the same requests and the same schedule, step by step, that differs only in the random words of the shuffles, and after
every step everything that leaves the mix is the same: the batches forwarded and their order, every answer of GetMixOutputs, who blocks, who crashes. -/
theorem C114_mix_hides_contents {env env' : Env} {topo : Topology} {mixes : List LogicalMix} {w : GoMap Str Int} {s0 s : State} {acts : List Action}
    (h0 : newMixers topo mixes w = .ok s0) (hx : exec env s0 acts = some s) (hle : ∀ n, (delivered acts n).length ≤ workloadOf w n)
    (hsz : ∀ n, workloadOf w n ≤ 2 ^ 32) (he : Exchanged env env' w acts) :
    ∃ acts', List.Forall₂ SameButWords acts acts' ∧
      ∀ k sk, exec env s0 (acts.take k) = some sk → ∃ sk', exec env' s0 (acts'.take k) = some sk' ∧ LooksSame sk sk' := by
  obtain ⟨acts', h1, h2, -⟩ := like_exec h0 hx hle hsz he
  exact ⟨acts', h1, h2⟩

namespace Ex
/-- The key under which the two onions of the example contain each other's message. -/
def env' : Env := { env with decrypt := fun o => env.decrypt (if o = o1 then o2 else if o = o2 then o1 else o) }
theorem delivered_run (n : Str) : delivered run n = if n = m00.name then [o1, o2] else [] := by
  by_cases h : n = m00.name
  · subst h; decide
  · have : ¬ m00.name = n := fun e => h e.symm
    simp [delivered, run, deliveredBy, onionsFor, batch, h, this]
theorem exchanged : Exchanged env env' w run := by
  refine ⟨rfl, rfl, rfl, ?_, ?_⟩
  · intro n o ho
    rw [delivered_run] at ho
    split at ho
    · rcases List.mem_cons.1 ho with rfl | ho
      · decide
      · rcases List.mem_cons.1 ho with rfl | ho
        · decide
        · simp at ho
    · simp at ho
  · intro n _
    rw [delivered_run]
    split <;> decide
end Ex

/-- Non-vacuity: the example round; the two keys really disagree about the onions. -/
example : (∃ s, exec Ex.env Ex.s0 Ex.run = some s) ∧ (∀ n, (delivered Ex.run n).length ≤ workloadOf Ex.w n) ∧ Exchanged Ex.env Ex.env' Ex.w Ex.run ∧
    opened Ex.env Ex.o1 ≠ opened Ex.env' Ex.o1 := by
  refine ⟨⟨_, rfl⟩, ?_, Ex.exchanged, by decide⟩
  intro n
  rw [Ex.delivered_run]
  split
  · next h => subst h; decide
  · simp

/-- C114, for a swap: in a mix, no observer can tell two onions apart. If the onions `a` and `b` are each delivered equally often to every mix that
received all it was announced, then the execution with the contents of `a` and `b` exchanged can look exactly the same. -/
theorem C114_two_onions {env : Env} {topo : Topology} {mixes : List LogicalMix} {w : GoMap Str Int} {s0 s : State} {acts : List Action}
    (h0 : newMixers topo mixes w = .ok s0) (hx : exec env s0 acts = some s) (hle : ∀ n, (delivered acts n).length ≤ workloadOf w n)
    (hsz : ∀ n, workloadOf w n ≤ 2 ^ 32) {a b : Bytes} (ha : env.decrypt a ≠ .error .panic) (hb : env.decrypt b ≠ .error .panic)
    (heq : ∀ n, (delivered acts n).length = workloadOf w n → (delivered acts n).count a = (delivered acts n).count b) :
    ∃ acts', List.Forall₂ SameButWords acts acts' ∧ ∀ k sk, exec env s0 (acts.take k) = some sk →
      ∃ sk', exec { env with decrypt := fun o => env.decrypt (if o = a then b else if o = b then a else o) } s0 (acts'.take k) = some sk' ∧ LooksSame sk sk' := by
  refine C114_mix_hides_contents h0 hx hle hsz ⟨rfl, rfl, rfl, ?_, ?_⟩
  · intro n o _
    dsimp only
    split
    · next h => subst h; simp [ha, hb]
    · split
      · next h => subst h; simp [ha, hb]
      · rfl
  · intro n hn
    have hc := heq n hn
    have e : ∀ l : List Bytes, l.map (opened { env with decrypt := fun o => env.decrypt (if o = a then b else if o = b then a else o) }) =
        (l.map fun o => if o = a then b else if o = b then a else o).map (opened env) := fun l => by
      rw [List.map_map]; rfl
    rw [e]
    refine List.Perm.map _ ?_
    by_cases hab : a = b
    · subst hab
      rw [List.map_congr_left (g := id) (fun o _ => by simp only [id]; split <;> simp_all), List.map_id]
    · rw [List.perm_iff_count]
      intro c
      have key : ∀ l : List Bytes, (l.map fun o => if o = a then b else if o = b then a else o).count c = l.count (if c = a then b else if c = b then a else c) := by
        intro l
        induction l with
        | nil => rfl
        | cons o l ih =>
          rw [List.map_cons, List.count_cons, List.count_cons, ih]
          congr 1
          grind
      rw [key]
      split
      · next h => subst h; exact hc.symm
      · split
        · next h => subst h; exact hc
        · rfl

example : Ex.env.decrypt Ex.o1 ≠ .error .panic ∧ Ex.env.decrypt Ex.o2 ≠ .error .panic ∧ (delivered Ex.run Ex.m00.name).count Ex.o1 = 1 ∧
    (delivered Ex.run Ex.m00.name).count Ex.o2 = 1 := by decide

/-! ### C115 -/

/-- C115. How likely an order is hardly depends on which onion contained what. Two round objects that received the same onions (from any requests and
schedules) under two keys that put the same messages in other onions are about to shuffle mix `n` of `m` messages: for every `out`, the number of the
(2^32)^m random word sequences that make `out` the answer for `n` differs at most by the factor 1 - m(m+1)/2^33. -/
theorem C115_order_tells_little {env env' : Env} {topo : Topology} {mixes : List LogicalMix} {w : GoMap Str Int} {s0 s s' : State} {acts acts' : List Action}
    {i i' : Nat} {n : Str} (h0 : newMixers topo mixes w = .ok s0) (hx : exec env s0 acts = some s) (hx' : exec env' s0 acts' = some s')
    (hle : (delivered acts n).length ≤ workloadOf w n) (hle' : (delivered acts' n).length ≤ workloadOf w n)
    (hc : ((delivered acts' n).map (opened env')).Perm ((delivered acts n).map (opened env)))
    (ha : AboutToShuffle env s i n) (ha' : AboutToShuffle env' s' i' n) (out : List Bytes) :
    shuffleWays env s i (workloadOf w n) n out * (2 ^ 33 - workloadOf w n * (workloadOf w n + 1)) ≤ 2 ^ 33 * shuffleWays env' s' i' (workloadOf w n) n out := by
  obtain ⟨e1, e2⟩ := shuffleWays_eq h0 hx hle ha out
  obtain ⟨e3, -⟩ := shuffleWays_eq h0 hx' hle' ha' out
  rw [e1, e3]
  conv_lhs => rw [← e2]
  exact Shuffle.ways_close (((List.reverse_perm _).trans hc.symm).trans (List.reverse_perm _).symm) out

/-- Non-vacuity: both keys of the example, just before the shuffle. -/
example : ∃ s s', exec Ex.env Ex.s0 (Ex.run.take 14) = some s ∧ exec Ex.env' Ex.s0 (Ex.run.take 14) = some s' ∧
    AboutToShuffle Ex.env s 0 Ex.m00.name ∧ AboutToShuffle Ex.env' s' 0 Ex.m00.name ∧ delivered (Ex.run.take 14) Ex.m00.name = [Ex.o1, Ex.o2] := by
  refine ⟨_, _, rfl, rfl, ⟨rfl, ?_, by rfl⟩, ⟨rfl, ?_, by rfl⟩, by decide⟩
  · exact fun h => by cases h
  · exact fun h => by cases h

/-- C115 for the shuffler alone: for any two arrangements of the same elements. -/
theorem C115_shuffle_tells_little {α : Type} {xs ys : List α} (h : xs.Perm ys) (out : List α) :
    Shuffle.ways xs out * (2 ^ 33 - xs.length * (xs.length + 1)) ≤ 2 ^ 33 * Shuffle.ways ys out := Shuffle.ways_close h out

/-- With up to a thousand messages the counts agree up to a factor of 0.9998. -/
theorem C115_thousand {α : Type} {xs ys : List α} (h : xs.Perm ys) (hn : xs.length ≤ 1000) (out : List α) :
    Shuffle.ways xs out * 9998 ≤ 10000 * Shuffle.ways ys out := by
  have h1 := Shuffle.ways_close h out
  have h2 : xs.length * (xs.length + 1) ≤ 1000 * 1001 := Nat.mul_le_mul hn (by omega)
  have h3 : Shuffle.ways xs out * (2 ^ 33 - 1000 * 1001) ≤ 2 ^ 33 * Shuffle.ways ys out :=
    Nat.le_trans (Nat.mul_le_mul_left _ (Nat.sub_le_sub_left h2 _)) h1
  norm_num at h3
  clear h1 h2
  generalize Shuffle.ways xs out = A at h3 ⊢
  generalize Shuffle.ways ys out = B at h3 ⊢
  linarith

/-- Every rearrangement comes out in some way (so the counts compared are not zero). -/
theorem C115_every_order_possible {α : Type} {xs out : List α} (h : out.Perm xs) (hn : xs.length ≤ 2 ^ 32) : 0 < Shuffle.ways xs out := by
  classical
  obtain ⟨p, hp, hm⟩ := Shuffle.exists_index_perm h
  obtain ⟨d, rfl⟩ := Shuffle.drawn_surj hp
  rw [Shuffle.ways_eq]
  refine Finset.sum_pos' (fun _ _ => Nat.zero_le _) ⟨d, by simp [Shuffle.Good, hp, hm], ?_⟩
  refine Finset.prod_pos fun k _ => ?_
  have : 0 < 2 ^ 32 / (xs.length - k.val) := Nat.div_pos (by omega) (by have := k.2; omega)
  omega

/-- The counts are not equal: with three distinct messages the order coming out tells a little about the order going in (the modulo bias of randInt). -/
theorem C115_not_exactly_equal : ([0, 1, 2] : List Nat).Perm [1, 2, 0] ∧ Shuffle.ways [0, 1, 2] [2, 1, 0] ≠ Shuffle.ways [1, 2, 0] [2, 1, 0] := by
  refine ⟨by decide, ?_⟩
  have h1 : Shuffle.Good [0, 1, 2] [2, 1, 0] (fun k => ⟨if k.val = 1 then 1 else 0, by fin_cases k <;> simp⟩) := by
    unfold Shuffle.Good; decide
  have h2 : Shuffle.Good [1, 2, 0] [2, 1, 0] (fun k => ⟨if k.val = 0 then 2 else 0, by fin_cases k <;> simp⟩) := by
    unfold Shuffle.Good; decide
  rw [Shuffle.ways_nodup (by decide) h1, Shuffle.ways_nodup (by decide) h2]
  simp [Fin.prod_univ_succ]

end Resmix.Mixer
