import Mathlib.Data.List.Forall2
import Mathlib.Data.List.Perm.Basic
import Verif.Model.Ecc
import Verif.Spec.Ecc
set_option autoImplicit false
namespace Resmix.Ecc

theorem mul_ceil (k n : Nat) (hk : 0 < k) : n ≤ k * ((n + k - 1) / k) := by
  have := Nat.div_add_mod (n + k - 1) k
  have h2 := Nat.mod_lt (n + k - 1) hk
  omega

/-- Data shards of a chunk. -/
def dataShards (C : RS) (data : Bytes) : List Bytes :=
  let per := (data.length + C.k - 1) / C.k
  let padded := data ++ List.replicate (C.k * per - data.length) 0
  (List.range C.k).map (fun i => (padded.drop (i * per)).take per)

theorem chunks_flatten {α : Type} (per : Nat) (k : Nat) (l : List α) (h : l.length = k * per) :
    ((List.range k).map (fun i => (l.drop (i * per)).take per)).flatten = l := by
  induction k generalizing l with
  | zero => simp at h; simp [h]
  | succ k ih =>
    rw [List.range_succ_eq_map, List.map_cons, List.map_map, List.flatten_cons]
    have := ih (l.drop per) (by rw [List.length_drop, h, Nat.succ_mul]; omega)
    have e : (fun i => (l.drop (i * per)).take per) ∘ Nat.succ = fun i => ((l.drop per).drop (i * per)).take per := by
      funext i
      simp only [Function.comp, List.drop_drop]
      congr 2
      rw [Nat.succ_mul]; omega
    rw [e, this]; simp

theorem dataShards_shape (C : RS) (data : Bytes) :
    (dataShards C data).length = C.k ∧ ∀ d ∈ dataShards C data, d.length = (data.length + C.k - 1) / C.k := by
  refine ⟨by simp [dataShards], ?_⟩
  intro d hd
  simp only [dataShards, List.mem_map, List.mem_range] at hd
  obtain ⟨i, hi, rfl⟩ := hd
  have hle := mul_ceil C.k data.length C.kpos
  simp only [List.length_take, List.length_drop, List.length_append, List.length_replicate]
  set per := (data.length + C.k - 1) / C.k
  have : i * per + per ≤ C.k * per := by
    have := Nat.mul_le_mul_right per (show i + 1 ≤ C.k by omega)
    rwa [Nat.succ_mul] at this
  omega

theorem dataShards_flatten (C : RS) (data : Bytes) : (dataShards C data).flatten.take data.length = data := by
  have hle := mul_ceil C.k data.length C.kpos
  unfold dataShards
  simp only
  rw [chunks_flatten]
  · simp
  · simp; omega

theorem per_pos (C : RS) (data : Bytes) (h : data ≠ []) : 0 < (data.length + C.k - 1) / C.k := by
  have := C.kpos
  have : 0 < data.length := List.length_pos_iff.2 h
  exact Nat.div_pos (by omega) C.kpos

/-- A chunk is encoded as its data shards followed by their parity. -/
theorem authEncode_eq (C : RS) (data : Bytes) (h : data ≠ []) :
    authEncode C data = .ok (dataShards C data ++ C.parity (dataShards C data)) := by
  have hs := dataShards_shape C data
  have hl : data.length ≠ 0 := by simpa using h
  have hp := per_pos C data h
  unfold authEncode split
  simp only [if_neg hl]
  show (encode C (dataShards C data ++ List.replicate C.m (List.replicate ((data.length + C.k - 1) / C.k) 0))) = _
  unfold encode
  rw [if_pos]
  · rw [List.take_append_of_le_length (by omega), List.take_of_length_le (by omega)]
  · refine ⟨by simp [hs.1], (data.length + C.k - 1) / C.k, ?_, hp, ?_⟩
    · have hk := C.kpos
      have hne : dataShards C data ≠ [] := by intro hh; rw [hh] at hs; simp at hs; omega
      rw [List.head?_append_of_ne_nil _ hne, List.head?_eq_some_head hne]
      simp [hs.2 _ (List.head_mem hne)]
    · intro s hs'
      rcases List.mem_append.1 hs' with hs' | hs'
      · exact hs.2 s hs'
      · rw [List.eq_of_mem_replicate hs']; simp

theorem shardSize_eq (n : Nat) (l : List Bytes) (h : ∀ s ∈ l, s.length = 0 ∨ s.length = n) (hex : ∃ s ∈ l, s ≠ []) : shardSize l = n := by
  induction l with
  | nil => simp at hex
  | cons s l ih =>
    rw [shardSize]
    split
    · next h0 =>
      apply ih (fun x hx => h x (List.mem_cons_of_mem _ hx))
      obtain ⟨x, hx, hne⟩ := hex
      rcases List.mem_cons.1 hx with rfl | hx
      · exact absurd (List.length_eq_zero_iff.1 h0) hne
      · exact ⟨x, hx, hne⟩
    · next h0 =>
      rcases h s List.mem_cons_self with h | h
      · exact absurd h h0
      · exact h

theorem countP_compl (v : List Bytes) : v.countP (· ≠ []) + v.countP (· = []) = v.length := by
  induction v with
  | nil => rfl
  | cons a v ih =>
    rw [List.countP_cons, List.countP_cons]
    by_cases h : a = [] <;> simp [h] at ih ⊢ <;> omega

theorem joinCheck_ok (outSize : Nat) (l : List Bytes) (size : Nat) (hne : ∀ s ∈ l, s ≠ []) (h : outSize ≤ size + l.flatten.length) :
    joinCheck outSize l size = .ok () := by
  induction l generalizing size with
  | nil => simp at h; rw [joinCheck, if_neg (by omega)]
  | cons s l ih =>
    rw [joinCheck, if_neg (hne s List.mem_cons_self)]
    split
    · rfl
    · apply ih _ (fun x hx => hne x (List.mem_cons_of_mem _ hx))
      simp only [List.flatten_cons, List.length_append] at h
      omega

theorem forall2_full (s v : List Bytes) (h : List.Forall₂ (fun a b => b = [] ∨ b = a) s v) (hc : ∀ x ∈ v, x ≠ []) : v = s := by
  induction h with
  | nil => rfl
  | cons h _ ih =>
    rw [ih (fun x hx => hc x (List.mem_cons_of_mem _ hx))]
    rcases h with h | h
    · exact absurd h (hc _ List.mem_cons_self)
    · rw [h]

/-- A chunk is recovered from any view that lost at most `m` shards. -/
theorem authReconstruct_eq (C : RS) (data : Bytes) (h : data ≠ []) (view : List Bytes)
    (hv : List.Forall₂ (fun a b => b = [] ∨ b = a) (dataShards C data ++ C.parity (dataShards C data)) view)
    (hm : view.countP (· = []) ≤ C.m) : authReconstruct C view data.length = .ok data := by
  have hs := dataShards_shape C data
  have hp := per_pos C data h
  have hpar := C.parity_shape _ _ hs.1 hs.2
  set per := (data.length + C.k - 1) / C.k with hper
  set full := dataShards C data ++ C.parity (dataShards C data) with hfull
  have hlen : view.length = C.k + C.m := by rw [← hv.length_eq, hfull, List.length_append, hs.1, hpar.1]
  have hcompl := countP_compl view
  have hfl : ∀ s ∈ full, s.length = per := by
    intro s hs'
    rcases List.mem_append.1 hs' with hs' | hs'
    · exact hs.2 s hs'
    · exact hpar.2 s hs'
  have hsize : ∀ s ∈ view, s.length = 0 ∨ s.length = per := by
    intro s hs'
    obtain ⟨i, hi, rfl⟩ := List.mem_iff_getElem.1 hs'
    have := hv.get (i := i) (by rw [hv.length_eq]; exact hi) hi
    rcases this with h | h
    · left; simp only [List.get_eq_getElem] at h; rw [h]; rfl
    · right
      simp only [List.get_eq_getElem] at h; rw [h]; exact hfl _ (List.getElem_mem _)
  have hk := C.kpos
  have hex : ∃ s ∈ view, s ≠ [] := by
    have : 0 < view.countP (· ≠ []) := by omega
    obtain ⟨s, hs1, hs2⟩ := List.countP_pos_iff.1 this
    exact ⟨s, hs1, by simpa using hs2⟩
  have hsz := shardSize_eq per view hsize hex
  have hrec : reconstruct C view = .ok full := by
    unfold reconstruct
    rw [if_neg (by omega), hsz, if_neg (by omega), if_neg (fun hh => hh hsize)]
    split
    · next hc =>
      congr 1
      apply forall2_full _ _ hv
      intro x hx hx0
      have h0 : view.countP (· = []) = 0 := by omega
      exact (List.countP_eq_zero.1 h0) x hx (by simpa using hx0)
    · rw [if_neg (by omega)]
      congr 1
      exact C.recover_spec _ per view hp hs.1 hs.2 hv.flip (by omega)
  unfold authReconstruct
  rw [hrec]
  show join C full data.length = _
  unfold join
  have htake : full.take C.k = dataShards C data := by
    rw [hfull, List.take_append_of_le_length (by omega), List.take_of_length_le (by omega)]
  rw [if_neg (by rw [hfull, List.length_append]; omega), htake]
  have hne : ∀ s ∈ dataShards C data, s ≠ [] := by
    intro s hs' h0
    have := hs.2 s hs'
    rw [h0] at this; simp at this; omega
  have hcat := dataShards_flatten C data
  have hcl : data.length ≤ 0 + (dataShards C data).flatten.length := by
    have := congrArg List.length hcat
    rw [List.length_take] at this
    omega
  rw [joinCheck_ok _ _ 0 hne hcl]
  show Except.ok _ = _
  rw [hcat]

/-- Filling an array in any order of arrival. -/
theorem fold_set_perm {α : Type} (f : Nat → α) (order : List Nat) (N : Nat) (acc : List α) (hacc : acc.length = N)
    (hin : ∀ i ∈ order, i < N) (g : List α → Nat → Go (List α)) (hg : ∀ a i, i < N → g a i = goSet a i (f i)) :
    ∃ out, order.foldlM g acc = .ok out ∧ out.length = N ∧
      ∀ j (hj : j < N), out[j]? = if j ∈ order then some (f j) else acc[j]? := by
  induction order generalizing acc with
  | nil => exact ⟨acc, rfl, hacc, by simp⟩
  | cons i order ih =>
    have hi := hin i List.mem_cons_self
    have hstep : g acc i = .ok (acc.set i (f i)) := by rw [hg _ _ hi, goSet, if_pos (by omega)]
    obtain ⟨out, h1, h2, h3⟩ := ih (acc.set i (f i)) (by simpa using hacc) (fun x hx => hin x (List.mem_cons_of_mem _ hx))
    refine ⟨out, by rw [List.foldlM_cons, hstep]; exact h1, h2, ?_⟩
    intro j hj
    rw [h3 j hj]
    by_cases hjo : j ∈ order
    · simp [hjo]
    · rw [if_neg hjo]
      by_cases hji : j = i
      · subst hji; simp [hacc, hj]
      · rw [List.getElem?_set_ne (by omega)]; simp [hji, hjo]

theorem chunkOf_length (data : Bytes) (i : Nat) (hi : i < numChunks) :
    (chunkOf data i).length = (segmentOf data.length i).2 - (segmentOf data.length i).1 := by
  have h36 : data.length / numChunks * numChunks ≤ data.length := Nat.div_mul_le_self _ _
  have : (i + 1) * (data.length / numChunks) ≤ data.length := by
    calc _ ≤ numChunks * (data.length / numChunks) := Nat.mul_le_mul_right _ hi
      _ ≤ _ := by rw [Nat.mul_comm]; exact h36
  rw [Nat.succ_mul] at this
  unfold chunkOf segmentOf
  simp only
  split <;> simp <;> omega

theorem chunkOf_ne (data : Bytes) (i : Nat) (hi : i < numChunks) (h : numChunks ≤ data.length) : chunkOf data i ≠ [] := by
  have h1 : 0 < data.length / numChunks := Nat.div_pos h (by decide)
  have h36 : data.length / numChunks * numChunks ≤ data.length := Nat.div_mul_le_self _ _
  have : (i + 1) * (data.length / numChunks) ≤ data.length := by
    calc _ ≤ numChunks * (data.length / numChunks) := Nat.mul_le_mul_right _ hi
      _ ≤ _ := by rw [Nat.mul_comm]; exact h36
  rw [Nat.succ_mul] at this
  rw [← List.length_pos_iff, chunkOf_length data i hi]
  unfold segmentOf
  simp only
  split <;> omega

/-- The coded form of the data: one list of shards per chunk. -/
def coded (C : RS) (data : Bytes) : List (List Bytes) :=
  (List.range numChunks).map fun i =>
    let c := chunkOf (data ++ List.replicate numChunks 0) i
    dataShards C c ++ C.parity (dataShards C c)

theorem authEncodeIn_eq (C : RS) (data : Bytes) (order : List Nat) (ho : order.Perm (List.range numChunks)) :
    authEncodeIn C data order = .ok (coded C data) := by
  have hlen : numChunks ≤ (data ++ List.replicate numChunks (0 : UInt8)).length := by simp
  obtain ⟨out, h1, h2, h3⟩ := fold_set_perm (fun i =>
      let c := chunkOf (data ++ List.replicate numChunks 0) i
      dataShards C c ++ C.parity (dataShards C c)) order numChunks (List.replicate numChunks []) (by simp)
    (fun i hi => by simpa using (ho.mem_iff.1 hi)) (encodeArrival C (data ++ List.replicate numChunks 0)) (by
      intro a i hi
      unfold encodeArrival
      rw [authEncode_eq C _ (chunkOf_ne _ i hi hlen)]; rfl)
  unfold authEncodeIn
  rw [h1]
  congr 1
  apply List.ext_getElem?
  intro j
  by_cases hj : j < numChunks
  · rw [h3 j hj, if_pos (ho.mem_iff.2 (by simpa using hj))]
    simp [coded, hj]
  · rw [List.getElem?_eq_none (by omega), List.getElem?_eq_none (by simp [coded]; omega)]

/-- `copy` of a chunk that exactly fits its segment. -/
theorem copyAt_getElem? (dst : Bytes) (start stop : Nat) (src : Bytes) (hss : start ≤ stop) (hst : stop ≤ dst.length)
    (hl : src.length = stop - start) (j : Nat) :
    (copyAt dst start stop src)[j]? = if start ≤ j ∧ j < stop then src[j - start]? else dst[j]? := by
  unfold copyAt
  rw [List.take_of_length_le (l := src) (by omega), hl, Nat.min_self]
  by_cases h1 : j < start
  · rw [List.append_assoc, List.getElem?_append_left (by rw [List.length_take]; omega), if_neg (by omega), List.getElem?_take_of_lt h1]
  · by_cases h2 : j < stop
    · rw [if_pos (by omega), List.append_assoc, List.getElem?_append_right (by rw [List.length_take]; omega), List.getElem?_append_left]
      · congr 1; rw [List.length_take]; omega
      · rw [List.length_take]; omega
    · rw [if_neg (by omega), List.getElem?_append_right, List.getElem?_drop]
      · congr 1
        rw [List.length_append, List.length_take]; omega
      · rw [List.length_append, List.length_take]; omega

theorem copyAt_length (dst : Bytes) (start stop : Nat) (src : Bytes) (hss : start ≤ stop) (hst : stop ≤ dst.length)
    (hl : src.length = stop - start) : (copyAt dst start stop src).length = dst.length := by
  unfold copyAt
  simp only [List.length_append, List.length_take, List.length_drop]
  omega

theorem segment_bounds (n i : Nat) (hi : i < numChunks) : (segmentOf n i).1 ≤ (segmentOf n i).2 ∧ (segmentOf n i).2 ≤ n := by
  have h36 : n / numChunks * numChunks ≤ n := Nat.div_mul_le_self _ _
  have : (i + 1) * (n / numChunks) ≤ n := by
    calc _ ≤ numChunks * (n / numChunks) := Nat.mul_le_mul_right _ hi
      _ ≤ _ := by rw [Nat.mul_comm]; exact h36
  rw [Nat.succ_mul] at this
  unfold segmentOf
  simp only
  generalize n / numChunks = q at *
  have h1 : i * q ≤ n := by omega
  split
  · exact ⟨h1, Nat.le_refl _⟩
  · exact ⟨by omega, by omega⟩

/-- Bytes of a chunk are the bytes of the data at its segment. -/
theorem chunkOf_getElem? (data : Bytes) (i j : Nat) (hi : i < numChunks) (h1 : (segmentOf data.length i).1 ≤ j)
    (h2 : j < (segmentOf data.length i).2) : (chunkOf data i)[j - (segmentOf data.length i).1]? = data[j]? := by
  unfold chunkOf segmentOf at *
  simp only at *
  split at h1
  · next h => rw [if_pos h] at h2 ⊢; simp only [if_pos h] at *; rw [List.getElem?_drop]; congr 1; omega
  · next h =>
    simp only [if_neg h] at *
    rw [List.getElem?_take_of_lt (by omega), List.getElem?_drop]; congr 1; omega

/-- Every position lies in some segment. -/
theorem segment_cover (n j : Nat) (hn : numChunks ≤ n) (hj : j < n) : ∃ i, i < numChunks ∧ (segmentOf n i).1 ≤ j ∧ j < (segmentOf n i).2 := by
  have hs : 0 < n / numChunks := Nat.div_pos hn (by decide)
  by_cases hlast : (numChunks - 1) * (n / numChunks) ≤ j
  · refine ⟨numChunks - 1, by decide, ?_⟩
    unfold segmentOf
    rw [if_pos (by decide)]
    exact ⟨hlast, hj⟩
  · have hq : j / (n / numChunks) < numChunks - 1 := (Nat.div_lt_iff_lt_mul hs).2 (by omega)
    have hlt : j / (n / numChunks) < numChunks := Nat.lt_of_lt_of_le hq (Nat.sub_le _ _)
    refine ⟨j / (n / numChunks), hlt, ?_⟩
    unfold segmentOf
    have hnl : ¬ (j / (n / numChunks) + 1 ≥ numChunks) := by
      generalize j / (n / numChunks) = q at *
      omega
    rw [if_neg hnl]
    have h1 := Nat.div_add_mod j (n / numChunks)
    have h2 := Nat.mod_lt j hs
    have h3 : n / numChunks * (j / (n / numChunks)) = j / (n / numChunks) * (n / numChunks) := Nat.mul_comm _ _
    simp only
    generalize n / numChunks = q at *
    generalize j / q = d at *
    omega

/-- Decoding in any order of arrival. -/
theorem fold_copy (data : Bytes) (order : List Nat) (acc : Bytes) (hacc : acc.length = data.length)
    (hin : ∀ i ∈ order, i < numChunks) (g : Bytes → Nat → Go Bytes)
    (hg : ∀ a i, i < numChunks → g a i = .ok (copyAt a (segmentOf data.length i).1 (segmentOf data.length i).2 (chunkOf data i))) :
    ∃ out, order.foldlM g acc = .ok out ∧ out.length = data.length ∧
      ∀ (j : Nat), out[j]? = acc[j]? ∨ out[j]? = data[j]? := by
  induction order generalizing acc with
  | nil => exact ⟨acc, rfl, hacc, by simp⟩
  | cons i order ih =>
    have hi := hin i List.mem_cons_self
    have hb := segment_bounds data.length i hi
    have hl := chunkOf_length data i hi
    obtain ⟨out, h1, h2, h3⟩ := ih (copyAt acc (segmentOf data.length i).1 (segmentOf data.length i).2 (chunkOf data i))
      (by rw [copyAt_length _ _ _ _ hb.1 (by omega) hl, hacc]) (fun x hx => hin x (List.mem_cons_of_mem _ hx))
    refine ⟨out, by rw [List.foldlM_cons, hg _ _ hi]; exact h1, h2, ?_⟩
    intro j
    rcases h3 j with h | h
    · rw [h, copyAt_getElem? _ _ _ _ hb.1 (by omega) hl]
      split
      · next hj => right; exact chunkOf_getElem? data i j hi hj.1 hj.2
      · left; rfl
    · right; exact h

theorem fold_copy_all (data : Bytes) (order : List Nat) (acc : Bytes) (hacc : acc.length = data.length)
    (hin : ∀ i ∈ order, i < numChunks) (g : Bytes → Nat → Go Bytes)
    (hg : ∀ a i, i < numChunks → g a i = .ok (copyAt a (segmentOf data.length i).1 (segmentOf data.length i).2 (chunkOf data i))) :
    ∃ out, order.foldlM g acc = .ok out ∧ out.length = data.length ∧
      ∀ (j : Nat), (∃ i ∈ order, (segmentOf data.length i).1 ≤ j ∧ j < (segmentOf data.length i).2) → out[j]? = data[j]? := by
  induction order generalizing acc with
  | nil => exact ⟨acc, rfl, hacc, by simp⟩
  | cons i order ih =>
    have hi := hin i List.mem_cons_self
    have hb := segment_bounds data.length i hi
    have hl := chunkOf_length data i hi
    set acc' := copyAt acc (segmentOf data.length i).1 (segmentOf data.length i).2 (chunkOf data i) with hacc'
    have hlen' : acc'.length = data.length := by rw [hacc', copyAt_length _ _ _ _ hb.1 (by omega) hl, hacc]
    have hin' : ∀ x ∈ order, x < numChunks := fun x hx => hin x (List.mem_cons_of_mem _ hx)
    obtain ⟨out, h1, h2, h3⟩ := ih acc' hlen' hin'
    obtain ⟨out2, h1', _, h3'⟩ := fold_copy data order acc' hlen' hin' g hg
    have : out2 = out := by rw [h1] at h1'; injection h1' with h; exact h.symm
    subst this
    refine ⟨out2, by rw [List.foldlM_cons, hg _ _ hi]; exact h1, h2, ?_⟩
    rintro j ⟨i', hi', hj⟩
    rcases List.mem_cons.1 hi' with rfl | hi'
    · rcases h3' j with h | h
      · rw [h, hacc', copyAt_getElem? _ _ _ _ hb.1 (by omega) hl, if_pos hj]
        exact chunkOf_getElem? data i' j hi hj.1 hj.2
      · exact h
    · exact h3 j ⟨i', hi', hj⟩

theorem authReconstructIn_eq (C : RS) (data : Bytes) (view : List (List Bytes)) (hv : Erasure C.m (coded C data) view)
    (order : List Nat) (ho : order.Perm (List.range numChunks)) : authReconstructIn C view data.length order = .ok data := by
  have hvl : view.length = numChunks := by rw [← hv.length_eq]; simp [coded]
  have hin : ∀ i ∈ order, i < numChunks := fun i hi => by simpa using (ho.mem_iff.1 hi)
  set D := data ++ List.replicate numChunks (0 : UInt8) with hD
  have hDl : D.length = data.length + numChunks := by simp [hD]
  have hg : ∀ a i, i < numChunks → decodeArrival C view (data.length + numChunks) a i =
      .ok (copyAt a (segmentOf D.length i).1 (segmentOf D.length i).2 (chunkOf D i)) := by
    intro a i hi
    have hvi : view[i]? = some (view[i]'(by omega)) := List.getElem?_eq_getElem _
    have hget := hv.get (i := i) (by simp [coded, hi]) (by omega)
    simp only [List.get_eq_getElem, coded, List.getElem_map, List.getElem_range] at hget
    unfold decodeArrival goIndex
    rw [hvi]
    show (authReconstruct C _ _ >>= _) = _
    rw [← hDl, ← chunkOf_length D i hi]
    rw [authReconstruct_eq C (chunkOf D i) (chunkOf_ne D i hi (by omega)) _ hget.1 hget.2]
    rfl
  obtain ⟨out, h1, h2, h3⟩ := fold_copy_all D order (List.replicate (data.length + numChunks) 0) (by simp [hDl]) hin _ hg
  have hout : out = D := by
    apply List.ext_getElem?
    intro j
    by_cases hj : j < D.length
    · obtain ⟨i, hi, hji⟩ := segment_cover D.length j (by omega) hj
      exact h3 j ⟨i, ho.mem_iff.2 (by simpa using hi), hji⟩
    · rw [List.getElem?_eq_none (by omega), List.getElem?_eq_none (by omega)]
  unfold authReconstructIn
  rw [if_neg (by omega), h1, hout]
  show Except.ok _ = _
  rw [hDl, hD]
  simp

end Resmix.Ecc
