import Verif.Model.GoMap
import Mathlib.Data.List.Nodup
namespace Resmix.GoMap
variable {κ ν : Type} [DecidableEq κ]

@[simp] theorem lookup_nil (k : κ) : lookup ([] : GoMap κ ν) k = none := rfl

theorem lookup_erase_ne (m : GoMap κ ν) {k k' : κ} (h : k' ≠ k) : lookup (erase m k) k' = lookup m k' := by
  induction m with
  | nil => rfl
  | cons e m ih =>
    obtain ⟨a, b⟩ := e
    by_cases ha : a = k
    · have : a ≠ k' := fun hh => h (hh ▸ ha)
      simp only [erase, ha, if_true, ih, lookup]
      rw [if_neg (fun hh => h hh.symm)]
    · simp only [erase, ha, if_false, lookup, ih]

@[simp] theorem lookup_erase_self (m : GoMap κ ν) (k : κ) : lookup (erase m k) k = none := by
  induction m with
  | nil => rfl
  | cons e m ih =>
    obtain ⟨a, b⟩ := e
    by_cases ha : a = k
    · simp only [erase, ha, if_true, ih]
    · simp only [erase, ha, if_false, lookup, ih]

theorem erase_sublist (m : GoMap κ ν) (k : κ) : (erase m k).Sublist m := by
  induction m with
  | nil => exact .slnil
  | cons e m ih =>
    simp only [erase]
    split
    · exact ih.cons _
    · exact ih.cons_cons _

theorem not_mem_erase (m : GoMap κ ν) (k : κ) : k ∉ (erase m k).map Prod.fst := by
  induction m with
  | nil => simp [erase]
  | cons e m ih =>
    simp only [erase]
    split
    · exact ih
    · next h => simp only [List.map_cons, List.mem_cons, not_or]; exact ⟨fun hh => h hh.symm, ih⟩

@[simp] theorem lookup_insert_self (m : GoMap κ ν) (k : κ) (v : ν) : lookup (insert m k v) k = some v := by
  simp [insert, lookup]

theorem lookup_insert_ne (m : GoMap κ ν) {k k' : κ} (v : ν) (h : k' ≠ k) : lookup (insert m k v) k' = lookup m k' := by
  simp [insert, lookup, Ne.symm h, lookup_erase_ne m h]

theorem lookup_insert (m : GoMap κ ν) (k k' : κ) (v : ν) :
    lookup (insert m k v) k' = if k' = k then some v else lookup m k' := by
  split
  · next h => subst h; simp
  · next h => exact lookup_insert_ne m v h

theorem lookup_erase (m : GoMap κ ν) (k k' : κ) :
    lookup (erase m k) k' = if k' = k then none else lookup m k' := by
  split
  · next h => subst h; simp
  · next h => exact lookup_erase_ne m h

omit [DecidableEq κ] in
theorem nodup_nil : NodupKeys ([] : GoMap κ ν) := by simp [NodupKeys]

theorem nodup_erase {m : GoMap κ ν} (h : NodupKeys m) (k : κ) : NodupKeys (erase m k) := by
  exact List.Nodup.sublist ((erase_sublist m k).map _) h

theorem nodup_insert {m : GoMap κ ν} (h : NodupKeys m) (k : κ) (v : ν) : NodupKeys (insert m k v) := by
  have := nodup_erase h k
  unfold NodupKeys insert at *
  simp only [List.map_cons, List.nodup_cons]
  exact ⟨not_mem_erase m k, this⟩

theorem lookup_mem {m : GoMap κ ν} {k : κ} {v : ν} (h : lookup m k = some v) : (k, v) ∈ m := by
  induction m with
  | nil => simp at h
  | cons e m ih =>
    obtain ⟨a, b⟩ := e
    by_cases ha : a = k
    · simp [lookup, ha] at h; simp [ha, h]
    · simp [lookup, ha] at h; exact List.mem_cons_of_mem _ (ih h)

theorem mem_lookup {m : GoMap κ ν} (hn : NodupKeys m) {k : κ} {v : ν} (h : (k, v) ∈ m) : lookup m k = some v := by
  induction m with
  | nil => simp at h
  | cons e m ih =>
    obtain ⟨a, b⟩ := e
    simp only [NodupKeys, List.map_cons, List.nodup_cons] at hn
    rcases List.mem_cons.1 h with h | h
    · cases h; simp [lookup]
    · have : a ≠ k := by
        rintro rfl
        exact hn.1 (List.mem_map.2 ⟨_, h, rfl⟩)
      simp [lookup, this]; exact ih hn.2 h

theorem lookup_iff_mem {m : GoMap κ ν} (hn : NodupKeys m) {k : κ} {v : ν} : lookup m k = some v ↔ (k, v) ∈ m :=
  ⟨lookup_mem, mem_lookup hn⟩

theorem lookup_eq_none {m : GoMap κ ν} {k : κ} : lookup m k = none ↔ k ∉ m.map Prod.fst := by
  induction m with
  | nil => simp
  | cons e m ih =>
    obtain ⟨a, b⟩ := e
    by_cases ha : a = k
    · simp [lookup, ha]
    · simp only [lookup, ha, if_false, ih, List.map_cons, List.mem_cons]
      simp [Ne.symm ha]

theorem erase_eq_self {m : GoMap κ ν} {k : κ} (h : k ∉ m.map Prod.fst) : erase m k = m := by
  induction m with
  | nil => rfl
  | cons e m ih =>
    simp only [List.map_cons, List.mem_cons, not_or] at h
    simp only [erase, if_neg (fun hh => h.1 (Eq.symm hh)), ih h.2]

omit [DecidableEq κ] in
theorem nodup_perm {m m' : GoMap κ ν} (h : m.Perm m') (hn : NodupKeys m) : NodupKeys m' :=
  (h.map Prod.fst).nodup_iff.1 hn

theorem lookup_perm {m m' : GoMap κ ν} (h : m.Perm m') (hn : NodupKeys m) (k : κ) : lookup m k = lookup m' k := by
  cases hl : lookup m' k with
  | none =>
    rw [lookup_eq_none] at hl ⊢
    rwa [(h.map Prod.fst).mem_iff]
  | some v =>
    rw [lookup_iff_mem hn, h.mem_iff]; exact lookup_mem hl

end Resmix.GoMap
