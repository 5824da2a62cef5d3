import Verif.Proofs.Parcel
set_option autoImplicit false
/-
Erasure decoding with a size smaller than that of the data.
-/
namespace Resmix.Ecc

/-- A worker asked for fewer bytes than the chunk has gives the first ones. -/
theorem authReconstruct_le (C : RS) (data : Bytes) (h : data ≠ []) (view : List Bytes) (size : Nat) (hsize' : size ≤ data.length)
    (hv : List.Forall₂ (fun a b => b = [] ∨ b = a) (dataShards C data ++ C.parity (dataShards C data)) view)
    (hm : view.countP (· = []) ≤ C.m) : authReconstruct C view size = .ok (data.take size) := by
  have hs := dataShards_shape C data
  have hp := per_pos C data h
  have hpar := C.parity_shape _ _ hs.1 hs.2
  set per := (data.length + C.k - 1) / C.k with hper
  set full := dataShards C data ++ C.parity (dataShards C data) with hfull
  have hlen : view.length = C.k + C.m := by rw [← hv.length_eq, hfull, List.length_append, hs.1, hpar.1]
  have hcompl := countP_compl view
  have hfl : ∀ s ∈ full, s.length = per := by
    intro s hs'
    rcases List.mem_append.1 hs' with hs' | hs'
    · exact hs.2 s hs'
    · exact hpar.2 s hs'
  have hsize : ∀ s ∈ view, s.length = 0 ∨ s.length = per := by
    intro s hs'
    obtain ⟨i, hi, rfl⟩ := List.mem_iff_getElem.1 hs'
    have := hv.get (i := i) (by rw [hv.length_eq]; exact hi) hi
    rcases this with h | h
    · left; simp only [List.get_eq_getElem] at h; rw [h]; rfl
    · right
      simp only [List.get_eq_getElem] at h; rw [h]; exact hfl _ (List.getElem_mem _)
  have hk := C.kpos
  have hex : ∃ s ∈ view, s ≠ [] := by
    have : 0 < view.countP (· ≠ []) := by omega
    obtain ⟨s, hs1, hs2⟩ := List.countP_pos_iff.1 this
    exact ⟨s, hs1, by simpa using hs2⟩
  have hsz := shardSize_eq per view hsize hex
  have hrec : reconstruct C view = .ok full := by
    unfold reconstruct
    rw [if_neg (by omega), hsz, if_neg (by omega), if_neg (fun hh => hh hsize)]
    split
    · next hc =>
      congr 1
      apply forall2_full _ _ hv
      intro x hx hx0
      have h0 : view.countP (· = []) = 0 := by omega
      exact (List.countP_eq_zero.1 h0) x hx (by simpa using hx0)
    · rw [if_neg (by omega)]
      congr 1
      exact C.recover_spec _ per view hp hs.1 hs.2 hv.flip (by omega)
  unfold authReconstruct
  rw [hrec]
  show join C full size = _
  unfold join
  have htake : full.take C.k = dataShards C data := by
    rw [hfull, List.take_append_of_le_length (by omega), List.take_of_length_le (by omega)]
  rw [if_neg (by rw [hfull, List.length_append]; omega), htake]
  have hne : ∀ s ∈ dataShards C data, s ≠ [] := by
    intro s hs' h0
    have := hs.2 s hs'
    rw [h0] at this; simp at this; omega
  have hcat := dataShards_flatten C data
  have hcl : size ≤ 0 + (dataShards C data).flatten.length := by
    have := congrArg List.length hcat
    rw [List.length_take] at this
    omega
  rw [joinCheck_ok _ _ 0 hne hcl]
  show Except.ok _ = _
  rw [← hcat, List.take_take, Nat.min_eq_left hsize', hcat]

/-- Decoding with size 0 succeeds, with no bytes. -/
theorem authReconstructIn_zero (C : RS) (data : Bytes) (view : List (List Bytes)) (hv : Erasure C.m (coded C data) view)
    (order : List Nat) (ho : order.Perm (List.range numChunks)) : authReconstructIn C view 0 order = .ok [] := by
  have hvl : view.length = numChunks := by rw [← hv.length_eq]; simp [coded]
  have hin : ∀ i ∈ order, i < numChunks := fun i hi => by simpa using (ho.mem_iff.1 hi)
  set D := data ++ List.replicate numChunks (0 : UInt8) with hD
  have hDl : D.length = data.length + numChunks := by simp [hD]
  have hseg : ∀ i, i < numChunks → segmentOf (0 + numChunks) i = (i, i + 1) := by
    intro i hi
    have h36 : numChunks = 36 := rfl
    unfold segmentOf
    simp only [Nat.zero_add, Nat.div_self (show 0 < numChunks by decide), Nat.mul_one]
    split
    · have : i + 1 = numChunks := by omega
      rw [this]
    · rfl
  have hstep : ∀ (a : Bytes) i, i < numChunks → a.length = numChunks → ∃ a', decodeArrival C view (0 + numChunks) a i = .ok a' ∧ a'.length = numChunks := by
    intro a i hi ha
    have hvi : view[i]? = some (view[i]'(by omega)) := List.getElem?_eq_getElem _
    have hget := hv.get (i := i) (by simp [coded, hi]) (by omega)
    simp only [List.get_eq_getElem, coded, List.getElem_map, List.getElem_range] at hget
    have hne := chunkOf_ne D i hi (by omega)
    have h1 : 1 ≤ (chunkOf D i).length := List.length_pos_iff.2 hne
    refine ⟨copyAt a i (i + 1) ((chunkOf D i).take 1), ?_, ?_⟩
    · unfold decodeArrival goIndex
      rw [hvi]
      show (authReconstruct C _ _ >>= _) = _
      rw [hseg i hi]
      rw [show (i, i + 1).2 - (i, i + 1).1 = 1 by simp, authReconstruct_le C (chunkOf D i) hne _ 1 h1 hget.1 hget.2]
      rfl
    · rw [copyAt_length _ _ _ _ (by omega) (by omega) (by rw [List.length_take]; omega), ha]
  have hfold : ∀ (l : List Nat) (a : Bytes), (∀ i ∈ l, i < numChunks) → a.length = numChunks →
      ∃ a', l.foldlM (decodeArrival C view (0 + numChunks)) a = .ok a' ∧ a'.length = numChunks := by
    intro l
    induction l with
    | nil => intro a _ ha; exact ⟨a, rfl, ha⟩
    | cons i l ih =>
      intro a hl ha
      obtain ⟨a1, b1, b2⟩ := hstep a i (hl i List.mem_cons_self) ha
      obtain ⟨a2, c1, c2⟩ := ih a1 (fun x hx => hl x (List.mem_cons_of_mem _ hx)) b2
      exact ⟨a2, by rw [List.foldlM_cons, b1]; exact c1, c2⟩
  obtain ⟨out, h1, h2⟩ := hfold order (List.replicate (0 + numChunks) 0) hin (by simp)
  unfold authReconstructIn
  rw [if_neg (by omega), h1]
  show Except.ok _ = _
  rw [h2]; simp

end Resmix.Ecc
