import Verif.Model.Slice
import Verif.Props.Ecc
set_option autoImplicit false
/-
C91: what encoding does to its caller's memory.
-/
namespace Resmix.Ecc.Slice
open Resmix.Ecc

theorem bytes_append (m : Mem) (s : Slice) (h : Valid m s) (xs : Bytes) : bytes (goAppend m s xs).1 (goAppend m s xs).2 = bytes m s ++ xs := by
  obtain ⟨a, ha, hc, hl⟩ := h
  have hlt := (List.getElem?_eq_some_iff.1 ha).1
  have hget : m.getD s.arr [] = a := by simp [List.getD, ha]
  unfold goAppend
  split
  · next hfit =>
    simp only [bytes, hget]
    have : (m.set s.arr (overwrite a (s.off + s.len) xs)).getD s.arr [] = overwrite a (s.off + s.len) xs := by
      simp [List.getD, hlt]
    rw [this, overwrite]
    apply List.ext_getElem?
    intro i
    simp only [List.getElem?_take, List.getElem?_drop, List.getElem?_append, List.length_take, List.length_drop, List.length_append]
    grind
  · next hfit =>
    have : (m ++ [bytes m s ++ xs]).getD m.length [] = bytes m s ++ xs := by simp [List.getD]
    simp only [bytes] at this ⊢
    rw [this, List.drop_zero]
    apply List.take_of_length_le
    simp only [List.length_append, List.length_take, List.length_drop, hget]
    omega

/-- What the encoder works on is the caller's data (and so all of C40/C41 applies), wherever the caller's slice lies. -/
theorem C91_encodes_data (m : Mem) (s : Slice) (h : Valid m s) :
    (encodeMem m s).2 = (List.range numChunks).map (chunkOf (bytes m s ++ List.replicate numChunks 0)) := by
  simp only [encodeMem, bytes_append m s h]

/-- C91 fails: a caller that hands in a prefix of a longer message (`msg[:4]`, say) finds the rest of its message overwritten with zeros afterwards. For every
message of at least 36 bytes behind the prefix, and any prefix: -/
theorem C91_refuted (pre rest : Bytes) (h : numChunks ≤ rest.length) :
    ∃ m s whole, Valid m s ∧ Valid m whole ∧ bytes m s = pre ∧ bytes m whole = pre ++ rest ∧
      bytes (encodeMem m s).1 whole = pre ++ List.replicate 36 0 ++ rest.drop 36 := by
  refine ⟨[pre ++ rest], ⟨0, 0, pre.length, pre.length + rest.length⟩, ⟨0, 0, pre.length + rest.length, pre.length + rest.length⟩, ?_, ?_, ?_, ?_, ?_⟩
  · exact ⟨_, rfl, by simp, by simp⟩
  · exact ⟨_, rfl, by simp, by simp⟩
  · simp [bytes]
  · simp [bytes]
  · obtain ⟨z, hz⟩ : ∃ z : Bytes, z = List.replicate 36 0 := ⟨_, rfl⟩
    have hzl : z.length = 36 := by rw [hz]; rfl
    simp only [encodeMem, goAppend, bytes, overwrite]
    rw [show List.replicate numChunks (0 : UInt8) = z from hz.symm, ← hz, hzl]
    simp only [numChunks] at h
    rw [if_pos (by omega)]
    simp only [List.getD, List.getElem?_cons_zero, Option.getD_some, List.set_cons_zero, Nat.zero_add, List.drop_zero, List.take_left]
    rw [List.drop_append, List.drop_of_length_le (by omega : pre.length ≤ pre.length + 36), List.nil_append, Nat.add_sub_cancel_left]
    apply List.take_of_length_le
    simp only [List.length_append, List.length_drop]
    omega

/-- such a message whose rest is really changed -/
example : ∃ rest : Bytes, numChunks ≤ rest.length ∧ List.replicate 36 0 ++ rest.drop 36 ≠ rest :=
  ⟨List.replicate 36 1, by decide, by decide⟩

/-- C91, the part that holds: encoding changes at most the 36 bytes behind the caller's slice (within its capacity), and nothing at all if there is not that
much room; in particular the encoded data itself and every other array stay as they were. -/
theorem C91_only_behind_partial (m : Mem) (s : Slice) (h : Valid m s) :
    (∀ (k : Nat) a, m[k]? = some a → ∃ a', (encodeMem m s).1[k]? = some a' ∧ a'.length = a.length ∧
      ∀ i : Nat, ¬ (k = s.arr ∧ s.off + s.len ≤ i ∧ i < s.off + s.len + 36) → a'[i]? = a[i]?) ∧
    bytes (encodeMem m s).1 s = bytes m s ∧
    (s.cap < s.len + 36 → ∀ (k : Nat) a, m[k]? = some a → (encodeMem m s).1[k]? = some a) := by
  obtain ⟨a0, ha0, hc, hl⟩ := h
  have hlt := (List.getElem?_eq_some_iff.1 ha0).1
  have hget : m.getD s.arr [] = a0 := by simp [List.getD, ha0]
  have h1 : ∀ (k : Nat) a, m[k]? = some a → ∃ a', (encodeMem m s).1[k]? = some a' ∧ a'.length = a.length ∧
      ∀ i : Nat, ¬ (k = s.arr ∧ s.off + s.len ≤ i ∧ i < s.off + s.len + 36) → a'[i]? = a[i]? := by
    intro k a ha
    have hk := (List.getElem?_eq_some_iff.1 ha).1
    simp only [encodeMem, goAppend, List.length_replicate, hget]
    split
    · next hfit =>
      simp only
      by_cases hks : k = s.arr
      · subst hks
        rw [ha0] at ha; injection ha with ha; subst ha
        refine ⟨overwrite a0 (s.off + s.len) (List.replicate numChunks 0), by simp [hlt], ?_, ?_⟩
        · simp [overwrite, numChunks] at hfit ⊢; omega
        · intro i hi
          simp only [overwrite, List.getElem?_append, List.getElem?_take, List.getElem?_drop, List.length_take, List.length_replicate, List.length_append]
          simp only [numChunks] at hfit ⊢
          grind
      · exact ⟨a, by rw [List.getElem?_set_ne (Ne.symm hks)]; exact ha, rfl, fun _ _ => rfl⟩
    · exact ⟨a, by rw [List.getElem?_append_left hk]; exact ha, rfl, fun _ _ => rfl⟩
  refine ⟨h1, ?_, ?_⟩
  · obtain ⟨a', e1, e2, e3⟩ := h1 _ _ ha0
    have hg' : (encodeMem m s).1.getD s.arr [] = a' := by simp [List.getD, e1]
    simp only [bytes, hget, hg']
    apply List.ext_getElem?
    intro i
    simp only [List.getElem?_take, List.getElem?_drop]
    split
    · exact e3 _ (by omega)
    · rfl
  · intro hfit k a ha
    have hk := (List.getElem?_eq_some_iff.1 ha).1
    simp only [encodeMem, goAppend, List.length_replicate]
    rw [if_neg (by simp only [numChunks]; omega)]
    simp only
    rw [List.getElem?_append_left hk]; exact ha

/-- A caller with a slice in the middle of an array, with room behind it. -/
example : Valid [[1, 2, 3], List.replicate 100 7] ⟨1, 10, 5, 60⟩ := ⟨_, rfl, by decide, by decide⟩

end Resmix.Ecc.Slice
