import Verif.Proofs.MerkleBind
set_option autoImplicit false
/-
C42-C44: Merkle trees.
-/
namespace Resmix.Merkle

/-- C42. For every hash function, every array (of at most 2^64 elements) and every non-empty list of positions of it, in any order and
with repetitions, `Prove` succeeds and `Verify` accepts its proof for the elements at these positions, given as a map with any
iteration order. -/
theorem C42_proofs_verify (H : HashFn) (arr : List Bytes) (hlen : arr.length ≤ 2 ^ 64) (idxs : List Nat) (hne : idxs ≠ [])
    (hin : ∀ i ∈ idxs, i < arr.length) :
    ∃ rt proof, root (build H arr) = .ok rt ∧ prove H (build H arr) idxs = .ok proof ∧
      ∀ elems : GoMap Nat Bytes, elems.NodupKeys → (∀ (i : Nat) (e : Bytes), (i, e) ∈ elems ↔ i ∈ idxs ∧ arr[i]? = some e) →
        verify H rt elems proof = .ok () := by
  have h0 : 0 < arr.length := by
    match idxs, hne with
    | i :: _, _ => have := hin i (by simp); omega
  have ht := build_isTree H arr h0
  generalize htree : build H arr = t at ht
  obtain ⟨upper, rfl⟩ := ht.head
  obtain ⟨a, ha, hroot⟩ := ht.root
  obtain ⟨pl, hpl1, hpl2, hpl3⟩ := proveItems_ok (arr.map H) none (sortNats idxs) (sortNats_sorted idxs)
    (fun p hp => by rw [List.length_map]; exact hin p ((sortNats_perm idxs).mem_iff.1 hp)) (by simp)
  have hmem : ∀ q, q ∈ pl.map Prod.fst ↔ q ∈ idxs := fun q => by rw [hpl3 q, (sortNats_perm idxs).mem_iff]; simp
  have hpsne : pl.map Prod.fst ≠ [] := by
    match idxs, hne with
    | i :: _, _ => intro h; have := (hmem i).2 (by simp); rw [h] at this; simp at this
  obtain ⟨hs, a', ha', hprove, hver⟩ := levels_complete H ht (arr.map H :: upper) [] rfl (pl.map Prod.fst) hpl2 hpsne
    (fun p hp => by rw [List.length_map]; exact hin p ((hmem p).1 hp))
  have haa : a = a' := by rw [ha] at ha'; simpa using ha'
  subst haa
  refine ⟨a, hs, hroot, ?_, ?_⟩
  · obtain ⟨pl', h1, h2⟩ := hprove pl [] rfl
    have h1 : proveLoop H upper.length 0 { tree := some (arr.map H :: upper), hints := [] } pl =
      .ok (pl', ⟨some (arr.map H :: upper), hs⟩) := by simpa using h1
    unfold prove
    rw [if_neg (by simpa using hne)]
    simp only [hpl1, bind, Except.bind]
    rw [h1]
    simp only
    rw [if_neg (by omega)]
  · intro elems hnd hel
    have helne : elems ≠ [] := by
      match idxs, hne with
      | i :: _, _ =>
        intro h
        have hi := hin i (by simp)
        have := (hel i arr[i]).2 ⟨by simp, List.getElem?_eq_getElem hi⟩
        rw [h] at this; simp at this
    have hsort : sortItems (elems.map fun e => (e.1, H e.2)) = trueItems (arr.map H) (pl.map Prod.fst) := by
      have hp := sortItems_perm (elems.map fun e => (e.1, H e.2))
      have hs' := sortItems_sorted (elems.map fun e => (e.1, H e.2))
      set sl := sortItems (elems.map fun e => (e.1, H e.2)) with hsl
      have hndf : (sl.map Prod.fst).Nodup := by
        rw [(hp.map Prod.fst).nodup_iff, List.map_map]
        exact hnd
      have hstrict : (sl.map Prod.fst).Pairwise (· < ·) := by
        have h1 : (sl.map Prod.fst).Pairwise (· ≤ ·) := List.pairwise_map.2 hs'
        exact (h1.and hndf).imp (fun h => by omega)
      have hfst : sl.map Prod.fst = pl.map Prod.fst := by
        refine strict_ext hstrict hpl2 (fun q => ?_)
        rw [hmem, (hp.map Prod.fst).mem_iff, List.map_map, List.mem_map]
        constructor
        · rintro ⟨⟨i, e⟩, he, rfl⟩; exact ((hel i e).1 he).1
        · intro hq
          exact ⟨(q, arr[q]'(hin q hq)), (hel _ _).2 ⟨hq, List.getElem?_eq_getElem (hin q hq)⟩, rfl⟩
      have hsnd : ∀ x ∈ sl, x = (x.1, at' (arr.map H) x.1) := by
        intro x hx
        obtain ⟨⟨i, e⟩, he, rfl⟩ := List.mem_map.1 (hp.mem_iff.1 hx)
        obtain ⟨_, h2⟩ := (hel i e).1 he
        have : at' (arr.map H) i = H e := by
          unfold at'
          rw [List.getD_eq_getElem?_getD, List.getElem?_map, h2]; rfl
        simp only [this]
      unfold trueItems
      rw [← hfst, List.map_map]
      conv_lhs => rw [← List.map_id sl]
      exact List.map_congr_left (fun x hx => hsnd x hx)
    unfold verify
    rw [if_neg (by simpa using helne), hsort]
    have hl := ht.length_le 64 (by simpa using hlen)
    have hv := hver 67 (by omega) (by simp only [List.length_nil]; omega)
    simp only [List.length_nil] at hv
    rw [hv]
    simp [bind, Except.bind, goIndex]

/-- C42. Positions outside the array are refused (in particular every position of an empty array), and the empty set of elements is
verified by the empty proof only. -/
theorem C42_refusals (H : HashFn) (arr : List Bytes) (idxs : List Nat) :
    ((∃ i ∈ idxs, arr.length ≤ i) → ∃ c m, prove H (build H arr) idxs = .error (.err c m)) ∧
    prove H (build H arr) [] = .ok [] ∧
    ∀ rt proof, verify H rt [] proof = .ok () ↔ proof = [] := by
  refine ⟨?_, by simp [prove], ?_⟩
  · rintro ⟨i, hi, hil⟩
    have hne : idxs.length ≠ 0 := by rintro h; rw [List.length_eq_zero_iff.1 h] at hi; simp at hi
    by_cases h0 : 0 < arr.length
    · have ht := build_isTree H arr h0
      generalize build H arr = t at ht
      obtain ⟨upper, rfl⟩ := ht.head
      have hitems : ∀ (ps : List Nat) (prev : Option Nat), i ∈ ps → ∃ c m, proveItems (arr.map H) prev ps = .error (.err c m) := by
        intro ps
        induction ps with
        | nil => intro prev h; simp at h
        | cons p ps ih =>
          intro prev hp
          unfold proveItems
          cases hget : (arr.map H)[p]? with
          | none => exact ⟨_, _, rfl⟩
          | some d =>
            have hpi : i ∈ ps := by
              rcases List.mem_cons.1 hp with rfl | h
              · rw [List.getElem?_eq_none (by simpa using hil)] at hget; cases hget
              · exact h
            simp only
            split
            · exact ih prev hpi
            · obtain ⟨c, m, h⟩ := ih (some p) hpi
              exact ⟨c, m, by rw [h]; rfl⟩
      obtain ⟨c, m, h⟩ := hitems (sortNats idxs) none ((sortNats_perm idxs).mem_iff.2 hi)
      refine ⟨c, m, ?_⟩
      unfold prove
      rw [if_neg hne]
      simp only [h, bind, Except.bind]
    · have : arr = [] := by simpa using h0
      subst this
      refine ⟨.unknown, "proving in zero-length commitment", ?_⟩
      unfold prove build
      rw [if_neg hne, if_neg (by simp)]
  · intro rt proof
    cases proof <;> simp [verify]

/-- Positions 4, 0, 4 of an array of five elements. -/
example (H : HashFn) : ∃ rt proof, root (build H [[1], [2], [3], [4], [5]]) = .ok rt ∧ prove H (build H [[1], [2], [3], [4], [5]]) [4, 0, 4] = .ok proof ∧
    verify H rt [(4, [5]), (0, [1])] proof = .ok () := by
  obtain ⟨rt, proof, h1, h2, h3⟩ := C42_proofs_verify H [[1], [2], [3], [4], [5]] (by simp) [4, 0, 4] (by simp) (by simp)
  refine ⟨rt, proof, h1, h2, h3 _ (by simp [GoMap.NodupKeys]) ?_⟩
  intro i e
  constructor
  · intro h
    simp only [List.mem_cons, Prod.mk.injEq, List.not_mem_nil, or_false] at h
    rcases h with ⟨rfl, rfl⟩ | ⟨rfl, rfl⟩ <;> simp
  · rintro ⟨h1, h2⟩
    simp only [List.mem_cons, List.not_mem_nil, or_false] at h1
    rcases h1 with rfl | rfl | rfl
    · simp at h2; simp [← h2]
    · simp at h2; simp [← h2]
    · simp at h2; simp [← h2]

/-- The number of steps from the leaves to the root. -/
def height (H : HashFn) (arr : List Bytes) : Nat := (build H arr).length - 1

/-- C43. If a proof with as many digests as the tree is high verifies for element `e` at `pos` then `pos` fits the height and `e` is the
element of the array at `pos`; otherwise the strings hashed in building the tree and in checking the proof contain a collision, or one
of those hashed in checking has the all-zero digest (always so beyond the end of the array). -/
theorem C43_binding (H : HashFn) (arr : List Bytes) (hne : arr ≠ []) (rt : Digest) (hrt : root (build H arr) = .ok rt)
    (pos : Nat) (e : Bytes) (proof : List Digest) (hp : proof.length = height H arr) (hv : verify H rt [(pos, e)] proof = .ok ()) :
    pos < 2 ^ height H arr ∧
    (arr[pos]? = some e ∨ ZeroPreimage H (hashedByVerify H pos e proof) ∨ Collision H (hashedByBuild H arr) (hashedByVerify H pos e proof)) := by
  obtain ⟨hv1, hv2, hv3⟩ := (verify_single H rt pos e proof).1 hv
  have ht := build_isTree H arr (List.length_pos_iff.2 hne)
  refine ⟨hp ▸ hv2, ?_⟩
  have hbl : 0 < (build H arr).length := List.length_pos_iff.2 ht.ne_nil
  have hy : ∀ y ∈ climbInputs H pos (H e) proof, y ∈ hashedByVerify H pos e proof := fun y hy => by
    unfold hashedByVerify; rw [hashedOnPath_eq]; exact List.mem_cons_of_mem _ hy
  rcases bind_exact H ht pos (H e) proof (by unfold height at hp; omega) hv2 (by rw [hrt, hv3]) with h | h | h
  · rcases at'_map H arr pos with ⟨e', h1, h2⟩ | ⟨h1, h2⟩
    · by_cases hee : e' = e
      · left; rw [h1, hee]
      · right; right
        refine ⟨e', List.mem_append_left _ (List.mem_of_getElem? h1), e, List.mem_cons_self, hee, ?_⟩
        rw [h, h2]
    · right; left
      exact ⟨e, List.mem_cons_self, by rw [h, h2]⟩
  · exact Or.inr (Or.inl (h.mono hy))
  · exact Or.inr (Or.inr (h.mono (fun x hx => List.mem_append_right _ hx) hy))

/-- C43. Whatever the root, no proof verifies for a position that does not fit the length of the proof. -/
theorem C43_position_fits (H : HashFn) (rt : Digest) (pos : Nat) (e : Bytes) (proof : List Digest) (h : 2 ^ proof.length ≤ pos) :
    verify H rt [(pos, e)] proof ≠ .ok () := by
  intro hv
  have := ((verify_single H rt pos e proof).1 hv).2.1
  omega

/-- The hypotheses of C43 are met by the proofs of every array. -/
example (H : HashFn) : ∃ rt proof, root (build H [[1], [2], [3]]) = .ok rt ∧ proof.length = height H [[1], [2], [3]] ∧
    verify H rt [(2, [3])] proof = .ok () := by
  refine ⟨H (pairBytes (H (pairBytes (H [1]) (H [2]))) (H (pairBytes (H [3]) .zero))), [.zero, H (pairBytes (H [1]) (H [2]))], rfl, rfl, ?_⟩
  rw [verify_single]
  exact ⟨by simp, by simp, rfl⟩

/-- C44 fails: leaves and inner nodes are hashed alike. For every hash function and any two elements, the 64 bytes formed by the two
leaf digests, which are no element of the array (when the elements are not 64 bytes long), verify with the empty proof. -/
theorem C44_inner_node_as_leaf_refuted (H : HashFn) (a b : Bytes) (ha : a.length ≠ 64) (hb : b.length ≠ 64) :
    ∃ rt forged, root (build H [a, b]) = .ok rt ∧ forged ∉ [a, b] ∧ verify H rt [(0, forged)] [] = .ok () := by
  refine ⟨H (pairBytes (H a) (H b)), pairBytes (H a) (H b), rfl, ?_, ?_⟩
  · have := pairBytes_length (H a) (H b)
    simp only [List.mem_cons, List.not_mem_nil, or_false, not_or]
    constructor
    · intro h; rw [h] at this; exact ha this
    · intro h; rw [h] at this; exact hb this
  · rw [verify_single]; exact ⟨by simp, by simp, rfl⟩

/-- An object of any length that verifies is the element at this position or a pair of digests hashed by `Build`, unless there is a collision. -/
theorem verify_any (H : HashFn) (arr : List Bytes) (hne : arr ≠ []) (rt : Digest) (hrt : root (build H arr) = .ok rt)
    (pos : Nat) (e : Bytes) (proof : List Digest) (harr : ∀ x ∈ arr, x.length ≠ 64) (hv : verify H rt [(pos, e)] proof = .ok ()) :
    (arr[pos]? = some e ∧ proof.length = height H arr) ∨ (e ∈ (build H arr).dropLast.flatMap pairsOf ∧ e.length = 64) ∨ ZeroPreimage H (hashedByVerify H pos e proof) ∨
      Collision H (hashedByBuild H arr) (hashedByVerify H pos e proof) := by
  obtain ⟨hv1, hv2, hv3⟩ := (verify_single H rt pos e proof).1 hv
  have ht := build_isTree H arr (List.length_pos_iff.2 hne)
  have hbl : 0 < (build H arr).length := List.length_pos_iff.2 ht.ne_nil
  have hy : ∀ y ∈ climbInputs H pos (H e) proof, y ∈ hashedByVerify H pos e proof := fun y hy => by
    unfold hashedByVerify; rw [hashedOnPath_eq]; exact List.mem_cons_of_mem _ hy
  rcases Nat.lt_trichotomy proof.length (height H arr) with hlt | heq | hgt
  · unfold height at hlt
    rcases bind_short H ht pos (H e) proof (by omega) hv2 (by rw [hrt, hv3]) with h | ⟨x, hx, hx2, hx3⟩ | h | h
    · exact Or.inr (Or.inr (Or.inl ⟨e, List.mem_cons_self, h⟩))
    · by_cases hxe : x = e
      · subst hxe; exact Or.inr (Or.inl ⟨hx, hx2⟩)
      · exact Or.inr (Or.inr (Or.inr ⟨x, List.mem_append_right _ hx, e, List.mem_cons_self, hxe, hx3.symm⟩))
    · exact Or.inr (Or.inr (Or.inl (h.mono hy)))
    · exact Or.inr (Or.inr (Or.inr (h.mono (fun x hx => List.mem_append_right _ hx) hy)))
  · rcases (C43_binding H arr hne rt hrt pos e proof heq hv).2 with h | h
    · exact Or.inl ⟨h, heq⟩
    · exact Or.inr (Or.inr h)
  · set k := proof.length - height H arr with hk
    have hsplit : proof = proof.take k ++ proof.drop k := (List.take_append_drop k proof).symm
    have hk1 : (proof.take k).length = k := by rw [List.length_take]; omega
    have hk2 : (proof.drop k).length = height H arr := by rw [List.length_drop]; omega
    have hne1 : proof.take k ≠ [] := by intro h; rw [h] at hk1; simp at hk1; omega
    obtain ⟨y, hy1, hy2⟩ := climb_hash H pos (H e) (proof.take k) hne1
    have hin : climbInputs H pos (H e) proof = climbInputs H pos (H e) (proof.take k) ++
        climbInputs H (pos / 2 ^ k) (climb H pos (H e) (proof.take k)) (proof.drop k) := by
      conv_lhs => rw [hsplit]
      rw [climbInputs_append, hk1]
    have hyv : y ∈ hashedByVerify H pos e proof := hy _ (by rw [hin]; exact List.mem_append_left _ hy1)
    have hy64 := climbInputs_length H _ _ _ y hy1
    have hpos : pos / 2 ^ k < 2 ^ (proof.drop k).length := by
      rw [Nat.div_lt_iff_lt_mul (Nat.pos_of_ne_zero (by simp)), ← Nat.pow_add, hk2]
      have : proof.length = height H arr + k := by omega
      rw [← this]; exact hv2
    have hroot : root (build H arr) = .ok (climb H (pos / 2 ^ k) (H y) (proof.drop k)) := by
      rw [hrt, ← hv3]
      conv_lhs => rw [hsplit]
      rw [climb_append, hk1, hy2]
    have hy' : ∀ z ∈ climbInputs H (pos / 2 ^ k) (H y) (proof.drop k), z ∈ hashedByVerify H pos e proof := fun z hz =>
      hy _ (by rw [hin, hy2]; exact List.mem_append_right _ hz)
    rcases bind_exact H ht (pos / 2 ^ k) (H y) (proof.drop k) (by rw [hk2]; unfold height; omega) hpos hroot with h | h | h
    · rcases at'_map H arr (pos / 2 ^ k) with ⟨e', h1, h2⟩ | ⟨h1, h2⟩
      · right; right; right
        have he' := List.mem_of_getElem? h1
        refine ⟨e', List.mem_append_left _ he', y, hyv, ?_, by rw [h, h2]⟩
        rintro rfl; exact harr _ he' hy64
      · exact Or.inr (Or.inr (Or.inl ⟨y, hyv, by rw [h, h2]⟩))
    · exact Or.inr (Or.inr (Or.inl (h.mono hy')))
    · exact Or.inr (Or.inr (Or.inr (h.mono (fun x hx => List.mem_append_right _ hx) hy')))

/-- What holds of C44: if neither the object nor any element of the array is exactly 64 bytes long, then whatever the position and the
proof, an object that verifies is the element at this position and the proof is as long as the tree is high, unless the strings hashed
contain a collision or a preimage of the all-zero digest. -/
theorem C44_no_64_byte_objects_partial (H : HashFn) (arr : List Bytes) (hne : arr ≠ []) (rt : Digest) (hrt : root (build H arr) = .ok rt)
    (pos : Nat) (e : Bytes) (proof : List Digest) (harr : ∀ x ∈ arr, x.length ≠ 64) (he : e.length ≠ 64) (hv : verify H rt [(pos, e)] proof = .ok ()) :
    (arr[pos]? = some e ∧ proof.length = height H arr) ∨ ZeroPreimage H (hashedByVerify H pos e proof) ∨
      Collision H (hashedByBuild H arr) (hashedByVerify H pos e proof) := by
  rcases verify_any H arr hne rt hrt pos e proof harr hv with h | ⟨-, h⟩ | h
  · exact Or.inl h
  · exact absurd h he
  · exact Or.inr h

/-- Non-vacuity of C44_no_64_byte_objects: the third of three short elements. -/
example (H : HashFn) : ∃ rt proof, root (build H [[1], [2], [3]]) = .ok rt ∧ (∀ x ∈ [[1], [2], [(3 : UInt8)]], x.length ≠ 64) ∧
    verify H rt [(2, [3])] proof = .ok () := by
  refine ⟨H (pairBytes (H (pairBytes (H [1]) (H [2]))) (H (pairBytes (H [3]) .zero))), [.zero, H (pairBytes (H [1]) (H [2]))], rfl, by simp, ?_⟩
  rw [verify_single]
  exact ⟨by simp, by simp, rfl⟩

end Resmix.Merkle
