import Verif.Model.Gc
import Mathlib.Data.List.Nodup
set_option autoImplicit false
/-
C60: the periodic cleanup.
-/
namespace Resmix.Rrpc
variable {κ : Type}

theorem cleanMap_eq (ttl : Nat) (now : κ → Nat) (m : GoMap κ PendingEntry) :
    cleanMap ttl now m = (m.filter fun e => (cleanEntry ttl (now e.1) e.2).1, (m.filter fun e => (cleanEntry ttl (now e.1) e.2).2).map Prod.fst) := by
  induction m with
  | nil => rfl
  | cons e m ih =>
    obtain ⟨k, v⟩ := e
    simp only [cleanMap, ih, List.filter_cons]
    cases (cleanEntry ttl (now k) v).1 <;> cases (cleanEntry ttl (now k) v).2 <;> rfl

/-- C60 fails for a relay's tasks: a cleanup removes a task of any age, without telling anyone. -/
theorem C60_relay_tasks_refuted (ttl : Nat) (now : κ → Nat) (m : GoMap κ PendingEntry) (k : κ) (t : Nat) (h : (k, .relayTask t) ∈ m) (hk : (m.map Prod.fst).Nodup) :
    (k, .relayTask t) ∉ (cleanMap ttl now m).1 ∧ k ∉ (cleanMap ttl now m).2 := by
  rw [cleanMap_eq]
  constructor
  · simp [cleanEntry, PendingEntry.gcable]
  · simp only [List.mem_map, List.mem_filter, not_exists, not_and]
    rintro ⟨k', v⟩ ⟨hv, hc⟩ rfl
    have := List.inj_on_of_nodup_map hk hv h rfl
    rw [Prod.mk.injEq] at this
    rw [this.2] at hc
    simp [cleanEntry, PendingEntry.gcable] at hc

/-- C60 fails for requests to a relay: a cleanup ends every one of them, of any age, with a time-out. -/
theorem C60_relay_requests_refuted (ttl : Nat) (now : κ → Nat) (m : GoMap κ PendingEntry) (k : κ) (t : Nat) (h : (k, .relayRequest t) ∈ m) :
    (k, .relayRequest t) ∉ (cleanMap ttl now m).1 ∧ k ∈ (cleanMap ttl now m).2 := by
  rw [cleanMap_eq]
  refine ⟨by simp [cleanEntry, PendingEntry.gcable], ?_⟩
  simp only [List.mem_map, List.mem_filter]
  exact ⟨_, ⟨h, by simp [cleanEntry, PendingEntry.gcable]⟩, rfl⟩

/-- C60 holds for direct calls: with nobody else at work, a cleanup keeps exactly the entries younger than `ttl` when it looks at them, in particular all
their contents, and notifies exactly the owners of the others, each once. -/
theorem C60_direct_calls_partial (ttl : Nat) (httl : 0 < ttl) (now : κ → Nat) (m : GoMap κ PendingEntry) (hk : (m.map Prod.fst).Nodup)
    (hd : ∀ e ∈ m, ∃ t, e.2 = .direct t) :
    (∀ k v, (k, v) ∈ (cleanMap ttl now m).1 ↔ (k, v) ∈ m ∧ now k < v.made + ttl) ∧
    (∀ k, k ∈ (cleanMap ttl now m).2 ↔ ∃ v, (k, v) ∈ m ∧ v.made + ttl ≤ now k) ∧ (cleanMap ttl now m).2.Nodup := by
  have hc : ∀ k v, (k, v) ∈ m → ((cleanEntry ttl (now k) v).1 = true ↔ now k < v.made + ttl) ∧ ((cleanEntry ttl (now k) v).2 = true ↔ v.made + ttl ≤ now k) := by
    intro k v h
    obtain ⟨t, ht⟩ := hd _ h
    simp only at ht
    subst ht
    simp only [cleanEntry, PendingEntry.gcable, PendingEntry.made]
    by_cases hlt : now k - t < ttl
    · rw [if_pos hlt]; simp; omega
    · rw [if_neg hlt]; simp; omega
  rw [cleanMap_eq]
  refine ⟨?_, ?_, ?_⟩
  · intro k v
    simp only [List.mem_filter]
    constructor
    · rintro ⟨h1, h2⟩
      exact ⟨h1, (hc k v h1).1.1 h2⟩
    · rintro ⟨h1, h2⟩
      exact ⟨h1, (hc k v h1).1.2 h2⟩
  · intro k
    simp only [List.mem_map, List.mem_filter]
    constructor
    · rintro ⟨⟨k', v⟩, ⟨h1, h2⟩, rfl⟩
      exact ⟨v, h1, (hc k' v h1).2.1 h2⟩
    · rintro ⟨v, h1, h2⟩
      exact ⟨(k, v), ⟨h1, (hc k v h1).2.2 h2⟩, rfl⟩
  · exact hk.sublist (List.filter_sublist.map _)

/-- A map with an old and a young direct call, at time 9 s. -/
example : cleanMap 5 (fun _ => 9) [(1, .direct 3), (2, .direct 8)] = ([(2, .direct 8)], [1]) := rfl

end Resmix.Rrpc
