import Verif.Model.EccFill
import Verif.Props.Ecc
set_option autoImplicit false
/-
C132: AuthReconstruct changes the caller's shards, but only fills in missing ones; whoever uses the shards again gets the same results.
-/
namespace Resmix.Ecc

theorem shardSize_of_all {l : List Bytes} {n : Nat} (h : ∀ s ∈ l, s.length = n) (hn : 0 < n) (hl : l ≠ []) : shardSize l = n := by
  cases l with
  | nil => exact absurd rfl hl
  | cons a t =>
    have := h a (by simp)
    simp only [shardSize]
    rw [if_neg (by omega), this]

theorem countP_full {l : List Bytes} {n : Nat} (h : ∀ s ∈ l, s.length = n) (hn : 0 < n) : l.countP (· ≠ []) = l.length := by
  rw [List.countP_eq_length]
  intro s hs
  have := h s hs
  have : s ≠ [] := by rintro rfl; simp at this; omega
  simpa using this

/-- After Reconstruct a chunk is either unchanged because of an error, or complete. -/
theorem reconstruct_ok {C : RS} (hC : InPlace C) {c s : List Bytes} (h : reconstruct C c = .ok s) :
    (∀ x ∈ s, x.length = shardSize c) ∧ 0 < shardSize c ∧ s.length = C.k + C.m ∧ List.Forall₂ (fun v s => v ≠ [] → s = v) c s := by
  unfold reconstruct at h
  by_cases h1 : c.length ≠ C.k + C.m
  · rw [if_pos h1] at h; cases h
  rw [if_neg h1] at h
  by_cases h2 : shardSize c = 0
  · rw [if_pos h2] at h; cases h
  rw [if_neg h2] at h
  by_cases h3 : ¬ ∀ s ∈ c, s.length = 0 ∨ s.length = shardSize c
  · rw [if_pos h3] at h; cases h
  rw [if_neg h3] at h
  push Not at h1 h3
  by_cases h4 : c.countP (· ≠ []) = C.k + C.m
  · rw [if_pos h4] at h
    cases h
    refine ⟨?_, by omega, h1, by rw [List.forall₂_same]; intro x _ _; rfl⟩
    intro x hx
    have := (List.countP_eq_length (p := fun x : Bytes => decide (x ≠ []))).1 (by rw [h4, h1]) x hx
    have hne : x ≠ [] := by simpa using this
    rcases h3 x hx with h | h
    · exact absurd (List.eq_nil_of_length_eq_zero h) hne
    · exact h
  · rw [if_neg h4] at h
    by_cases h5 : c.countP (· ≠ []) < C.k
    · rw [if_pos h5] at h; cases h
    · rw [if_neg h5] at h
      cases h
      have hk := hC.keeps c h2 h1 h3 (by omega)
      refine ⟨?_, by omega, by rw [← hk.length_eq, h1], hk.imp fun _ _ h => h.2⟩
      intro x hx
      obtain ⟨i, hi, rfl⟩ := List.getElem_of_mem hx
      exact ((List.forall₂_iff_get.1 hk).2 i (by rw [hk.length_eq]; exact hi) hi).1

theorem reconstruct_fill {C : RS} (hC : InPlace C) (c : List Bytes) : reconstruct C (fill C c) = reconstruct C c := by
  unfold fill
  cases h : reconstruct C c with
  | error e => simpa using h
  | ok s =>
    obtain ⟨h1, h2, h3, -⟩ := reconstruct_ok hC h
    have hne : s ≠ [] := by
      rintro rfl
      have := C.kpos
      simp at h3; omega
    have hsz := shardSize_of_all h1 h2 hne
    have hcp := countP_full h1 h2
    simp only [reconstruct]
    rw [if_neg (by simpa using h3), if_neg (by omega), if_neg (by push Not; intro x hx; right; rw [hsz]; exact h1 x hx), if_pos (by rw [hcp, h3])]

theorem fill_keeps {C : RS} (hC : InPlace C) (c : List Bytes) : List.Forall₂ (fun v s => v ≠ [] → s = v) c (fill C c) := by
  unfold fill
  cases h : reconstruct C c with
  | error e => dsimp only; rw [List.forall₂_same]; intro x _ _; rfl
  | ok s => exact (reconstruct_ok hC h).2.2.2

theorem authReconstruct_fill {C : RS} (hC : InPlace C) (c : List Bytes) (n : Nat) : authReconstruct C (fill C c) n = authReconstruct C c n := by
  unfold authReconstruct
  rw [reconstruct_fill hC]

/-- Reconstruct on shards of one encoding. -/
theorem reconstruct_view (C : RS) (data : Bytes) (h : data ≠ []) (view : List Bytes)
    (hv : List.Forall₂ (fun a b => b = [] ∨ b = a) (dataShards C data ++ C.parity (dataShards C data)) view) :
    (view.countP (· = []) ≤ C.m → fill C view = dataShards C data ++ C.parity (dataShards C data)) ∧ (C.m < view.countP (· = []) → fill C view = view) := by
  have hs := dataShards_shape C data
  have hp := per_pos C data h
  have hpar := C.parity_shape _ _ hs.1 hs.2
  set per := (data.length + C.k - 1) / C.k with hper
  set full := dataShards C data ++ C.parity (dataShards C data) with hfull
  have hlen : view.length = C.k + C.m := by rw [← hv.length_eq, hfull, List.length_append, hs.1, hpar.1]
  have hcompl := countP_compl view
  have hfl : ∀ s ∈ full, s.length = per := by
    intro s hs'
    rcases List.mem_append.1 hs' with hs' | hs'
    · exact hs.2 s hs'
    · exact hpar.2 s hs'
  have hsize : ∀ s ∈ view, s.length = 0 ∨ s.length = per := by
    intro s hs'
    obtain ⟨i, hi, rfl⟩ := List.mem_iff_getElem.1 hs'
    have := hv.get (i := i) (by rw [hv.length_eq]; exact hi) hi
    rcases this with h | h
    · left; simp only [List.get_eq_getElem] at h; rw [h]; rfl
    · right
      simp only [List.get_eq_getElem] at h; rw [h]; exact hfl _ (List.getElem_mem _)
  have hk := C.kpos
  constructor
  · intro hm
    have hex : ∃ s ∈ view, s ≠ [] := by
      have : 0 < view.countP (· ≠ []) := by omega
      obtain ⟨s, hs1, hs2⟩ := List.countP_pos_iff.1 this
      exact ⟨s, hs1, by simpa using hs2⟩
    have hsz := shardSize_eq per view hsize hex
    have hrec : reconstruct C view = .ok full := by
      unfold reconstruct
      rw [if_neg (by omega), hsz, if_neg (by omega), if_neg (fun hh => hh hsize)]
      split
      · next hc =>
        congr 1
        apply forall2_full _ _ hv
        intro x hx hx0
        have h0 : view.countP (· = []) = 0 := by omega
        exact (List.countP_eq_zero.1 h0) x hx (by simpa using hx0)
      · rw [if_neg (by omega)]
        congr 1
        exact C.recover_spec _ per view hp hs.1 hs.2 hv.flip (by omega)
    unfold fill
    rw [hrec]
  · intro hm
    have : ∃ e, reconstruct C view = .error e := by
      unfold reconstruct
      split
      · exact ⟨_, rfl⟩
      split
      · exact ⟨_, rfl⟩
      split
      · exact ⟨_, rfl⟩
      split
      · omega
      · rw [if_pos (by omega)]; exact ⟨_, rfl⟩
    obtain ⟨e, he⟩ := this
    unfold fill
    rw [he]

/-- C132: whatever AuthReconstruct returns, of the caller's shards it has at most replaced missing ones. -/
theorem C132_only_fills (C : RS) (hC : InPlace C) (stopped : Bool) (shards : List (List Bytes)) (n : Nat) (res : Go Bytes) (after : List (List Bytes))
    (h : AuthReconstructMem C stopped shards n res after) : List.Forall₂ (fun c c' => List.Forall₂ (fun before now => before ≠ [] → now = before) c c') shards after := by
  obtain ⟨-, done, -, -, rfl⟩ := h
  rw [List.forall₂_iff_get]
  refine ⟨by simp, ?_⟩
  intro i hi hi'
  simp only [List.get_eq_getElem, List.getElem_mapIdx]
  by_cases hd : i ∈ done
  · rw [if_pos hd]; exact fill_keeps hC _
  · rw [if_neg hd, List.forall₂_same]; intro x _ _; rfl

/-- C132: whatever happened in an earlier call, a later call with the same shards has the results it would have had without it, also if it asks for another number of bytes. -/
theorem C132_same_results (C : RS) (hC : InPlace C) (stopped : Bool) (shards : List (List Bytes)) (n : Nat) (res : Go Bytes) (after : List (List Bytes))
    (h : AuthReconstructMem C stopped shards n res after) :
    ∀ stopped' n' res', AuthReconstruct C stopped' after n' res' ↔ AuthReconstruct C stopped' shards n' res' := by
  obtain ⟨-, done, -, -, rfl⟩ := h
  intro stopped' n' res'
  have key : ∀ order, authReconstructIn C (shards.mapIdx fun i c => if i ∈ done then fill C c else c) n' order = authReconstructIn C shards n' order := by
    intro order
    unfold authReconstructIn
    rw [List.length_mapIdx]
    have : decodeArrival C (shards.mapIdx fun i c => if i ∈ done then fill C c else c) (n' + numChunks) = decodeArrival C shards (n' + numChunks) := by
      funext d i
      unfold decodeArrival goIndex
      rw [List.getElem?_mapIdx]
      cases shards[i]? with
      | none => rfl
      | some c =>
        by_cases hd : i ∈ done
        · simp [hd, bind, Except.bind, authReconstruct_fill hC]
        · simp [hd, bind, Except.bind]
    rw [this]
  unfold AuthReconstruct
  simp only [key]

/-- C132: shards of an encoding remain shards of this encoding, also in a call that fails (so that the caller may add more shards and try again); and if there are enough shards the
call returns the data and leaves the caller with the complete encoding. -/
theorem C132_encoding (C : RS) (data : Bytes) (coding : List (List Bytes)) (hcod : AuthEncode C false data (.ok coding))
    (stopped : Bool) (shards : List (List Bytes)) (n : Nat) (res : Go Bytes) (after : List (List Bytes)) (h : AuthReconstructMem C stopped shards n res after)
    (hsub : List.Forall₂ (fun s v => List.Forall₂ (fun a b => b = [] ∨ b = a) s v) coding shards) :
    List.Forall₂ (fun s v => List.Forall₂ (fun a b => b = [] ∨ b = a) s v) coding after ∧
    (Erasure C.m coding shards → stopped = false → n = data.length → res = .ok data ∧ after = coding) := by
  obtain ⟨coding', e1, -, -, -, e2⟩ := C40_round_trip C data
  have hc' := (e1 _).1 hcod
  have hc : coding = coded C data := by
    rcases hcod with ⟨h, -⟩ | ⟨order, ho, hr⟩
    · cases h
    · rw [authEncodeIn_eq C data order ho] at hr; cases hr; rfl
  obtain ⟨hr, done, -, hall, rfl⟩ := h
  have row : ∀ (i : Nat) (hi : i < coding.length), ∃ d : Bytes, d ≠ [] ∧ coding[i] = dataShards C d ++ C.parity (dataShards C d) := by
    intro i hi
    subst hc
    have hi' : i < numChunks := by simpa [coded] using hi
    refine ⟨chunkOf (data ++ List.replicate numChunks 0) i, chunkOf_ne _ i hi' (by simp), ?_⟩
    simp [coded]
  constructor
  · rw [List.forall₂_iff_get] at hsub ⊢
    refine ⟨by simpa using hsub.1, ?_⟩
    intro i hi hi'
    simp only [List.get_eq_getElem, List.getElem_mapIdx] at hsub ⊢
    have hv := hsub.2 i hi (by simpa using hi')
    by_cases hd : i ∈ done
    · rw [if_pos hd]
      obtain ⟨d, hne, hrow⟩ := row i hi
      rw [hrow] at hv ⊢
      have hf := reconstruct_view C d hne _ hv
      by_cases hm : (shards[i]'(by simpa using hi')).countP (· = []) ≤ C.m
      · rw [hf.1 hm, List.forall₂_same]; intro x _; exact .inr rfl
      · rw [hf.2 (by omega)]; exact hv
    · rw [if_neg hd]; exact hv
  · rintro hE rfl rfl
    cases hc'
    have hres := ((e2 shards hE).1 res).1 hr
    refine ⟨hres, ?_⟩
    have hdone := hall ⟨data, hres⟩
    unfold Erasure at hE
    rw [List.forall₂_iff_get] at hE
    apply List.ext_getElem
    · simpa using hE.1.symm
    · intro i hi hi'
      rw [List.getElem_mapIdx, if_pos (hdone i (by rw [hc] at hi'; simpa [coded] using hi'))]
      obtain ⟨d, hne, hrow⟩ := row i hi'
      have hv := hE.2 i hi' (by simpa using hi)
      simp only [List.get_eq_getElem] at hv
      rw [hrow] at hv ⊢
      exact (reconstruct_view C d hne _ hv.1).1 hv.2

/-- Reed-Solomon codes satisfy the contract. -/
theorem rsCode_inPlace (k m : Nat) (hk : 0 < k) (h : k + m ≤ 256) : InPlace (rsCode k m hk h) := by
  constructor
  intro view hn hl hsz hc
  change view.length = k + m at hl
  rw [List.forall₂_iff_get]
  refine ⟨by simp [rsCode, hl], ?_⟩
  intro i hi hi'
  simp only [List.get_eq_getElem, rsCode, List.getElem_map, List.getElem_range]
  refine ⟨by simp [evalShard], ?_⟩
  intro hne
  have e1 : view.getD i [] = view[i] := by simp [List.getD, List.getElem?_eq_getElem hi]
  have hpres : ∀ j ∈ present view, j < 256 := by
    intro j hj
    have := Finset.mem_range.1 (Finset.mem_filter.1 hj).1
    omega
  have hmem : i ∈ present view := by
    unfold present
    rw [Finset.mem_filter]
    exact ⟨Finset.mem_range.2 hi, by rw [e1]; exact hne⟩
  have hlen : view[i].length = shardSize view := by
    rcases hsz _ (List.getElem_mem hi) with h | h
    · exact absurd (List.eq_nil_of_length_eq_zero h) hne
    · exact h
  apply List.ext_getElem
  · simp [evalShard, hlen]
  · intro b hb hb'
    simp only [evalShard, List.getElem_map, List.getElem_range, colPoly]
    rw [Lagrange.eval_interpolate_at_node _ (pt_inj _ hpres) hmem]
    simp only [symb, e1, Equiv.symm_apply_apply]
    simp [List.getD, List.getElem?_eq_getElem hb']

/-- The hypotheses can be met: with any code there are shards and a call that fails, after which the missing shards of one chunk are there. -/
example (C : RS) (hm : 0 < C.m) (data : Bytes) : ∃ coding shards after e, AuthEncode C false data (.ok coding) ∧ List.Forall₂ (fun s v => List.Forall₂ (fun a b => b = [] ∨ b = a) s v) coding shards ∧
    AuthReconstructMem C true shards data.length (.error e) after ∧ after ≠ shards := by
  have hc := (C40_round_trip C data)
  obtain ⟨coding, e1, -, h36, h2, -⟩ := hc
  have hcod := (e1 _).2 rfl
  let shards := coding.map fun s => s.set 0 []
  have hsub : List.Forall₂ (fun s v => List.Forall₂ (fun a b : Bytes => b = [] ∨ b = a) s v ∧ v.countP (· = []) ≤ C.m) coding shards := by
    rw [List.forall₂_map_right_iff, List.forall₂_same]
    intro s hs
    constructor
    · rw [List.forall₂_iff_get]
      refine ⟨by simp, ?_⟩
      intro i hi hi'
      simp only [List.get_eq_getElem, List.getElem_set]
      by_cases h0 : 0 = i
      · rw [if_pos h0]; exact .inl rfl
      · rw [if_neg h0]; exact .inr rfl
    · obtain ⟨h3, h4⟩ := h2 s hs
      cases s with
      | nil => simp
      | cons a t =>
        have : t.countP (fun x : Bytes => decide (x = [])) = 0 := by
          rw [List.countP_eq_zero]
          intro x hx; simpa using h4 x (by simp [hx])
        simp [this]; omega
  refine ⟨coding, shards, _, _, hcod, hsub.imp fun _ _ h => h.1, ⟨.inl ⟨rfl, rfl⟩, [0], by simp [numChunks], (by rintro ⟨d, hd⟩; cases hd), rfl⟩, ?_⟩
  have hc : coding = coded C data := by
    rcases hcod with ⟨h, -⟩ | ⟨order, ho, hr⟩
    · cases h
    · rw [authEncodeIn_eq C data order ho] at hr; cases hr; rfl
  intro heq
  have hlt : 0 < shards.length := by simp [shards, h36]
  have h0 := List.getElem_of_eq heq (i := 0) (by simpa using hlt)
  rw [List.getElem_mapIdx, if_pos (by simp)] at h0
  rw [List.forall₂_iff_get] at hsub
  have hv := hsub.2 0 (by omega) hlt
  simp only [List.get_eq_getElem] at hv
  have hrow : coding[0] = dataShards C (chunkOf (data ++ List.replicate numChunks 0) 0) ++ C.parity (dataShards C (chunkOf (data ++ List.replicate numChunks 0) 0)) := by
    subst hc; simp [coded]
  have hne : chunkOf (data ++ List.replicate numChunks 0) 0 ≠ [] := chunkOf_ne _ 0 (by simp [numChunks]) (by simp)
  rw [hrow] at hv
  have := (reconstruct_view C _ hne _ hv.1).1 hv.2
  rw [h0, ← hrow] at this
  have hcontr : coding[0] = coding[0].set 0 [] := by
    rw [← this]; simp [shards]
  obtain ⟨h3, h4⟩ := h2 coding[0] (List.getElem_mem _)
  have hpos : 0 < coding[0].length := by have := C.kpos; omega
  have := List.getElem_of_eq hcontr (i := 0) hpos
  rw [List.getElem_set_self] at this
  exact h4 _ (List.getElem_mem hpos) this

end Resmix.Ecc
