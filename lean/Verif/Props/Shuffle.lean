import Verif.Proofs.Shuffle
/-
C14, C15, C16: the shuffler of shuffle.go.
-/
namespace Resmix.Shuffle

/-- C14. Whatever the randomness source does (including failing or short reads), and whatever arrays the shuffler was used on
before, every `ShuffleOnions` call returns normally and leaves in the array the same elements with the same multiplicities. -/
theorem C14_shuffle_permutes {α : Type} (rd : Reader) (s : rd.σ) (calls : List (List α)) :
    ∃ outs shf, shuffleAll (newShuffler rd s) calls = .ok (outs, shf) ∧ List.Forall₂ List.Perm outs calls := by
  obtain ⟨o, shf, h, _, hf⟩ := shuffleAll_spec (newShuffler rd s) (inv_new rd s) calls
  exact ⟨o, shf, h, hf⟩

/-- Non-vacuity (test): a script of words, three calls on one shuffler, the results are really reordered. -/
example : (shuffleAll (newShuffler scripted [be32 0, be32 1, be32 0]) [[10, 20, 30], [7, 8, 9], [1]]).toOption.map (·.1) =
    some [[30, 20, 10], [9, 8, 7], [1]] := by decide

/-- C15a. For every length (up to the 2^32 values a draw can take) and every target order `p` of the indices there is exactly
one sequence of reduced draws `js` (the k-th draw being smaller than n-k) such that every randomness source whose k-th
4-byte word reduces to `js[k]` modulo n-k makes `permutation(n)` produce `p`; and such a source exists. -/
theorem C15_every_order_exactly_one_draw_sequence (n : Nat) (hn : n ≤ 2^32) (p : List Nat) (hp : p.Perm (List.range n)) :
    ∃ js : List Nat, (js.length = n ∧ (∀ k, (h : k < js.length) → js[k] < n - k)) ∧
      (∀ words : List Bytes, words.length = n → (∀ w ∈ words, w.length = 4) →
        ((∃ s, permutation scripted words n = .ok (p, s)) ↔
          ∀ k, (h : k < words.length) → js[k]? = some (beNat words[k] % (n - k)))) ∧
      (∃ words : List Bytes, words.length = n ∧ (∀ w ∈ words, w.length = 4) ∧
        permutation scripted words n = .ok (p, [])) := by
  obtain ⟨js, ⟨hv, hl⟩, hu⟩ := pureLoop_bij n (List.range n) p (by simp) List.nodup_range hp (by
    have h1 : p.length = n := by simpa using hp.length_eq
    rw [List.drop_eq_nil_of_le (by omega), List.drop_eq_nil_of_le (by simp)])
  have key : ∀ words : List Bytes, words.length = n → (∀ w ∈ words, w.length = 4) →
      permutation scripted words n =
        .ok (pureLoop n (List.ofFn fun k : Fin n => beNat (words.getD k []) % (n - k)) (List.range n), []) := by
    intro words hwl hw4
    apply permLoop_scripted n words _ hwl hw4 (by simp) _ (by simp)
    intro i hi
    simp [List.getD, List.getElem?_eq_getElem (show i < words.length by omega)]
  have validw : ∀ words : List Bytes,
      ValidDraws n (List.ofFn fun k : Fin n => beNat (words.getD k []) % (n - k)) := by
    intro words
    refine ⟨by simp, ?_⟩
    intro i hi
    have hi : i < n := by simpa using hi
    simp only [List.getElem_ofFn]
    exact Nat.mod_lt _ (by omega)
  have iffm : ∀ words : List Bytes, words.length = n →
      ((List.ofFn fun k : Fin n => beNat (words.getD k []) % (n - k)) = js ↔
        ∀ k, (h : k < words.length) → js[k]? = some (beNat words[k] % (n - k))) := by
    intro words hwl
    constructor
    · intro he k hk
      have hk' : k < n := by omega
      rw [← he]
      simp [hk', List.getD, List.getElem?_eq_getElem hk]
    · intro h
      apply List.ext_getElem?
      intro k
      by_cases hk : k < n
      · rw [h k (by omega)]
        simp [hk, List.getD, List.getElem?_eq_getElem (show k < words.length by omega)]
      · rw [List.getElem?_eq_none (by simp; omega), List.getElem?_eq_none (by rw [hv.1]; omega)]
  refine ⟨js, hv, ?_, ?_⟩
  · intro words hwl hw4
    rw [← iffm words hwl, key words hwl hw4]
    constructor
    · rintro ⟨s, hs⟩
      injection hs with hs
      injection hs with hs _
      exact hu _ (validw words) hs
    · intro he; rw [he, hl]; exact ⟨_, rfl⟩
  · have hwl : (js.map be32).length = n := by simp [hv.1]
    have hw4 : ∀ w ∈ js.map be32, w.length = 4 := by
      intro w hw; obtain ⟨a, _, rfl⟩ := List.mem_map.1 hw; rfl
    refine ⟨js.map be32, hwl, hw4, ?_⟩
    rw [key _ hwl hw4, (iffm _ hwl).2, hl]
    intro k hk
    have hk' : k < js.length := by simpa using hk
    have := hv.2 k hk'
    have hkn : k < n := hv.1 ▸ hk'
    rw [List.getElem?_eq_getElem hk']
    simp only [List.getElem_map]
    rw [beNat_be32 _ (by omega), Nat.mod_eq_of_lt this]

example : ([2, 0, 1, 3] : List Nat).Perm (List.range 4) := by decide

/-- C15b. A reduced draw modulo `m` takes each value `j < m` for either ⌊2^32/m⌋ or ⌊2^32/m⌋+1 of the 2^32 four-byte words
(big-endian), the larger count exactly for the first `2^32 mod m` values. -/
theorem C15_modulo_bias (m j : Nat) (hm : 0 < m) (hj : j < m) :
    ((List.range (2^32)).filter (fun w => beNat (be32 w) % m = j)).length =
      2^32 / m + if j < 2^32 % m then 1 else 0 :=
  count_be32 (2^32) m j (Nat.le_refl _) hm hj

example : 2^32 / 3 + (if 0 < 2^32 % 3 then 1 else 0) = 1431655766 := by decide

/-- C16. Two calls on one shuffler (with any history before) on arrays of equal length apply the same index permutation, and
the second call does not consume randomness. With a different length the permutation stored afterwards is one of the new
length; no call ever panics. -/
theorem C16_shuffler_reuse {α : Type} (rd : Reader) (s : rd.σ) (history : List (List α)) (a b : List α) :
    ∃ outs shf0 oa shf1 ob shf2 pa pb, shuffleAll (newShuffler rd s) history = .ok (outs, shf0) ∧
      shuffleOnions shf0 a = .ok (oa, shf1) ∧ shuffleOnions shf1 b = .ok (ob, shf2) ∧
      shf1.perm = some pa ∧ shf2.perm = some pb ∧
      pa.Perm (List.range a.length) ∧ pb.Perm (List.range b.length) ∧
      pa.map (fun i => a[i]?) = oa.map some ∧ pb.map (fun i => b[i]?) = ob.map some ∧
      (a.length = b.length → pa = pb ∧ shf2.rand = shf1.rand) := by
  obtain ⟨outs, shf0, h0, hI0, _⟩ := shuffleAll_spec (newShuffler rd s) (inv_new rd s) history
  obtain ⟨oa, pa, shf1, h1, hp1, hpa, hma, _, _⟩ := shuffleOnions_spec shf0 hI0 a
  obtain ⟨ob, pb, shf2, h2, hp2, hpb, hmb, _, hk⟩ := shuffleOnions_spec shf1 (inv_step _ _ _ _ hI0 h1) b
  refine ⟨outs, shf0, oa, shf1, ob, shf2, pa, pb, h0, h1, h2, hp1, hp2, hpa, hpb, hma, hmb, ?_⟩
  intro hl
  have := hk pa hp1 (by rw [← hl]; simpa using hpa.length_eq)
  subst this
  rw [hp1] at hp2; cases hp2
  exact ⟨rfl, rfl⟩

example : ([1, 2, 3] : List Nat).length = ([4, 5, 6] : List Nat).length := rfl

end Resmix.Shuffle
