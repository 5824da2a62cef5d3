import Verif.Proofs.Ecc
import Verif.Proofs.Topology
import Verif.Model.Parcel
set_option autoImplicit false
namespace Resmix.Rrpc
open Resmix.Ecc

theorem le32_uint32 (n : Nat) (h : n < 2^32) : leUint32 (le32 n) = .ok n := by
  unfold le32 leUint32
  simp only [UInt8.toNat_ofNat']
  congr 1
  omega

/-- The matrix of shards restricted to the columns in `S`. -/
def cols (full : List (List Bytes)) (n : Nat) (S : List Nat) : List (List Bytes) :=
  (List.range full.length).map fun c => (List.range n).map fun r => if r ∈ S then (full.getD c []).getD r [] else []

/-- Column `r`. -/
def col (full : List (List Bytes)) (r : Nat) : List Bytes := (List.range full.length).map fun c => (full.getD c []).getD r []

theorem getD_eq_getElem' {α : Type} (l : List α) (d : α) (i : Nat) (h : i < l.length) : l.getD i d = l[i] := by
  simp [List.getD, List.getElem?_eq_getElem h]

theorem eccPayload_eq (full : List (List Bytes)) (r : Nat) (h : ∀ row ∈ full, r < row.length) : eccPayload full r = .ok (col full r) := by
  unfold eccPayload
  rw [Shuffle.mapM_ok _ (fun row => row.getD r []) full]
  · congr 1
    apply List.ext_getElem
    · simp [col]
    · intro i h1 h2
      simp only [List.length_map] at h1
      simp only [col, List.getElem_map, List.getElem_range]
      rw [getD_eq_getElem' full _ i h1]
  · intro row hrow
    rw [goIndex, List.getElem?_eq_getElem (h row hrow), getD_eq_getElem' _ _ _ (h row hrow)]

theorem cols_length (full : List (List Bytes)) (n : Nat) (S : List Nat) : (cols full n S).length = full.length := by simp [cols]

theorem put_eq (full : List (List Bytes)) (n r : Nat) (S : List Nat) (hr : r < n) :
    putIntoShards (cols full n S) (r : Int) (col full r) = .ok (cols full n (r :: S)) := by
  unfold putIntoShards
  rw [Topology.mapM_zipIdx_ok _ (fun c => (List.range n).map fun j => if j ∈ r :: S then (full.getD c []).getD j [] else [])]
  · simp [cols]
  · intro i hi
    have hi' : i < full.length := by simpa [cols] using hi
    simp only
    have hc : goIndex (col full r) i = .ok ((full.getD i []).getD r []) := by
      rw [goIndex, List.getElem?_eq_getElem (by simpa [col] using hi')]
      simp [col]
    rw [hc]
    show (if (r : Int) < 0 then (.error .panic : Go (List Bytes)) else goSet ((cols full n S)[i]) (r : Int).toNat ((full.getD i []).getD r [])) = _
    rw [if_neg (by omega), Int.toNat_natCast]
    unfold goSet
    rw [if_pos (by simpa [cols] using hr)]
    congr 1
    apply List.ext_getElem
    · simp [cols]
    · intro j h1 h2
      simp only [cols, List.getElem_map, List.getElem_range, List.getElem_set]
      by_cases hj : r = j
      · subst hj; simp
      · simp [hj, Ne.symm hj]

theorem fill_eq (C : RS) (full : List (List Bytes)) (hf : full.length = numChunks) (S : List Nat) (hS : ∀ r ∈ S, r < C.k + C.m) :
    fillShards C (S.map fun (r : Nat) => ((r : Int), col full r)) = .ok (cols full (C.k + C.m) S.reverse) := by
  have gen : ∀ (S T : List Nat), (∀ r ∈ S, r < C.k + C.m) →
      (S.map fun (r : Nat) => ((r : Int), col full r)).foldlM (fun sh p => putIntoShards sh p.1 p.2) (cols full (C.k + C.m) T)
        = .ok (cols full (C.k + C.m) (S.reverse ++ T)) := by
    intro S
    induction S with
    | nil => intro T _; rfl
    | cons r S ih =>
      intro T h
      rw [List.map_cons, List.foldlM_cons, put_eq full _ r T (h r List.mem_cons_self)]
      show List.foldlM _ _ _ = _
      rw [ih (r :: T) (fun x hx => h x (List.mem_cons_of_mem _ hx))]
      simp
  have h0 : newShards C = cols full (C.k + C.m) [] := by
    unfold newShards cols
    simp [hf, List.map_const']
  unfold fillShards
  rw [h0, gen S [] hS]
  simp

theorem coded_rows (C : RS) (data : Bytes) : (coded C data).length = numChunks ∧
    ∀ row ∈ coded C data, row.length = C.k + C.m ∧ ∀ s ∈ row, s ≠ [] := by
  refine ⟨by simp [coded], ?_⟩
  intro row hrow
  simp only [coded, List.mem_map, List.mem_range] at hrow
  obtain ⟨i, hi, rfl⟩ := hrow
  set D := data ++ List.replicate numChunks (0 : UInt8)
  have hne := chunkOf_ne D i hi (by simp [D])
  have hs := dataShards_shape C (chunkOf D i)
  have hp := C.parity_shape _ _ hs.1 hs.2
  have hpos := per_pos C _ hne
  refine ⟨by simp [hs.1, hp.1], ?_⟩
  intro s hs' h0
  have : s.length = ((chunkOf D i).length + C.k - 1) / C.k := by
    rcases List.mem_append.1 hs' with h | h
    · exact hs.2 s h
    · exact hp.2 s h
  rw [h0] at this
  simp at this; omega

theorem countP_missing (n : Nat) (S : List Nat) (hnd : S.Nodup) (hS : ∀ r ∈ S, r < n) :
    (List.range n).countP (fun r => decide (r ∉ S)) + S.length = n := by
  have hperm : ((List.range n).filter (fun r => decide (r ∈ S))).Perm S := by
    rw [List.perm_ext_iff_of_nodup (List.nodup_range.filter _) hnd]
    intro a
    simp only [List.mem_filter, List.mem_range, decide_eq_true_eq]
    exact ⟨fun h => h.2, fun h => ⟨hS a h, h⟩⟩
  have h1 := List.length_eq_countP_add_countP (fun r => decide (r ∈ S)) (l := List.range n)
  rw [List.countP_eq_length_filter (p := fun r => decide (r ∈ S)), hperm.length_eq, List.length_range] at h1
  have h2 : (List.range n).countP (fun r => decide (r ∉ S)) = (List.range n).countP (fun a => decide ¬(decide (a ∈ S)) = true) := by
    apply List.countP_congr; intro a _; simp
  omega

/-- At least `k` different columns are a tolerable erasure. -/
theorem cols_erasure (C : RS) (data : Bytes) (S : List Nat) (hnd : S.Nodup) (hS : ∀ r ∈ S, r < C.k + C.m) (hk : C.k ≤ S.length) :
    Erasure C.m (coded C data) (cols (coded C data) (C.k + C.m) S) := by
  obtain ⟨hl, hrows⟩ := coded_rows C data
  unfold Erasure
  rw [List.forall₂_iff_get]
  refine ⟨by simp [cols], ?_⟩
  intro i h1 h2
  have hrow := hrows _ (List.getElem_mem h1)
  simp only [List.get_eq_getElem, cols, List.getElem_map, List.getElem_range]
  rw [getD_eq_getElem' _ _ _ h1]
  constructor
  · rw [List.forall₂_iff_get]
    refine ⟨by simp [hrow.1], ?_⟩
    intro j h3 h4
    simp only [List.get_eq_getElem, List.getElem_map, List.getElem_range]
    rw [getD_eq_getElem' _ _ _ h3]
    by_cases hj : j ∈ S
    · right; simp [hj]
    · left; simp [hj]
  · rw [List.countP_map]
    have := countP_missing (C.k + C.m) S hnd hS
    refine le_trans (List.countP_mono_left ?_) (show (List.range (C.k + C.m)).countP (fun r => decide (r ∉ S)) ≤ C.m by omega)
    intro r hr hr'
    have hr2 := List.mem_range.1 hr
    simp only [Function.comp, decide_eq_true_eq] at hr' ⊢
    intro hmem
    rw [if_pos hmem, getD_eq_getElem' _ _ _ (by omega)] at hr'
    exact hrow.2 _ (List.getElem_mem _) hr'

end Resmix.Rrpc
