import Verif.Model.Network
import Verif.Proofs.GoMap
import Mathlib.Data.List.Sort
import Mathlib.Tactic.Ring
set_option autoImplicit false
namespace Resmix.Rrpc
open Resmix.Ecc

/-- The valid entries of a configuration: those with a non-empty address and a key. -/
def registered (confs : List ServerData) : List (Str × Bytes) :=
  confs.filterMap fun s => match s.publickey with
    | none => none
    | some k => if s.address = [] then none else some (s.address, k)

namespace Network

def addEntry (n : Network) (e : Str × Bytes) : Network :=
  { n with serverAddresses := n.serverAddresses ++ [e.1], hostToPK := n.hostToPK.insert e.1 e.2, pkToHost := n.pkToHost.insert e.2 e.1 }

theorem foldl_addServer (confs : List ServerData) (n : Network) :
    confs.foldl addServer n = (registered confs).foldl addEntry n := by
  induction confs generalizing n with
  | nil => rfl
  | cons s confs ih =>
    rw [List.foldl_cons, ih]
    unfold registered
    rw [List.filterMap_cons]
    rcases s with ⟨a, _ | k⟩
    · rfl
    · by_cases ha : a = []
      · simp [addServer, ha]
      · simp [addServer, ha, addEntry]

theorem foldl_addEntry_addresses (es : List (Str × Bytes)) (n : Network) :
    (es.foldl addEntry n).serverAddresses = n.serverAddresses ++ es.map Prod.fst := by
  induction es generalizing n with
  | nil => simp
  | cons e es ih => rw [List.foldl_cons, ih]; simp [addEntry]

theorem foldl_addEntry_tau (es : List (Str × Bytes)) (n : Network) : (es.foldl addEntry n).tau = n.tau := by
  induction es generalizing n with
  | nil => simp
  | cons e es ih => rw [List.foldl_cons, ih]; simp [addEntry]

theorem foldl_addEntry_hostToPK (es : List (Str × Bytes)) (n : Network) (a : Str) (hnd : (es.map Prod.fst).Nodup) (k : Bytes) :
    (es.foldl addEntry n).hostToPK.lookup a = some k ↔ ((a, k) ∈ es ∨ (a ∉ es.map Prod.fst ∧ n.hostToPK.lookup a = some k)) := by
  induction es generalizing n with
  | nil => simp
  | cons e es ih =>
    obtain ⟨b, l⟩ := e
    simp only [List.map_cons, List.nodup_cons] at hnd
    rw [List.foldl_cons, ih _ hnd.2]
    simp only [addEntry, GoMap.lookup_insert, List.mem_cons, Prod.mk.injEq, List.map_cons, not_or]
    by_cases hab : a = b
    · subst hab
      have : (a, k) ∉ es := fun h => hnd.1 (List.mem_map.2 ⟨_, h, rfl⟩)
      simp [this, hnd.1, eq_comm]
    · simp [hab]

theorem foldl_addEntry_pkToHost (es : List (Str × Bytes)) (n : Network) (a : Str) (hnd : (es.map Prod.snd).Nodup) (k : Bytes) :
    (es.foldl addEntry n).pkToHost.lookup k = some a ↔ ((a, k) ∈ es ∨ (k ∉ es.map Prod.snd ∧ n.pkToHost.lookup k = some a)) := by
  induction es generalizing n with
  | nil => simp
  | cons e es ih =>
    obtain ⟨b, l⟩ := e
    simp only [List.map_cons, List.nodup_cons] at hnd
    rw [List.foldl_cons, ih _ hnd.2]
    simp only [addEntry, GoMap.lookup_insert, List.mem_cons, Prod.mk.injEq, List.map_cons, not_or]
    by_cases hab : k = l
    · subst hab
      have : (a, k) ∉ es := fun h => hnd.1 (List.mem_map.2 ⟨_, h, rfl⟩)
      simp [this, hnd.1, eq_comm]
    · simp [hab]

theorem new_addresses (tau : Int) (confs : List ServerData) :
    (new tau confs).serverAddresses = sortStrings ((registered confs).map Prod.fst) := by
  unfold new
  simp only [foldl_addServer, foldl_addEntry_addresses, List.nil_append]

theorem new_tau (tau : Int) (confs : List ServerData) : (new tau confs).tau = tau := by
  unfold new; simp only [foldl_addServer, foldl_addEntry_tau]

theorem sortStrings_perm (l : List Str) : (sortStrings l).Perm l := List.mergeSort_perm _ _

theorem sortStrings_sorted (l : List Str) : (sortStrings l).Pairwise (· ≤ ·) := by
  have := List.pairwise_mergeSort (le := fun a b : Str => decide (a ≤ b))
    (fun a b c h1 h2 => by simp only [decide_eq_true_eq] at *; exact List.le_trans h1 h2)
    (fun a b => by simpa using List.le_total a b) l
  simpa [sortStrings] using this

theorem sortStrings_congr {l l' : List Str} (h : l.Perm l') : sortStrings l = sortStrings l' :=
  List.Perm.eq_of_pairwise (fun _ _ _ _ h1 h2 => List.le_antisymm h1 h2) (sortStrings_sorted l) (sortStrings_sorted l')
    ((sortStrings_perm l).trans (h.trans (sortStrings_perm l').symm))

/-- sort.Search on a monotone predicate. -/
theorem searchLoop_spec (f : Nat → Bool) (hmono : ∀ a b, a ≤ b → f a = true → f b = true) :
    ∀ fuel i j, i ≤ j → j - i ≤ fuel → (∀ a < i, f a = false) → (∀ a, j ≤ a → f a = true) →
      (∀ a < searchLoop f fuel i j, f a = false) ∧ (∀ a, searchLoop f fuel i j ≤ a → f a = true) := by
  intro fuel
  induction fuel with
  | zero =>
    intro i j hij hf h1 h2
    have : i = j := by omega
    subst this
    exact ⟨h1, h2⟩
  | succ fuel ih =>
    intro i j hij hf h1 h2
    unfold searchLoop
    by_cases h : i < j
    · rw [if_pos h]
      simp only
      by_cases hm : f ((i + j) / 2) = true
      · rw [if_pos hm]
        exact ih i _ (by omega) (by omega) h1 (fun a ha => hmono _ _ ha hm)
      · rw [if_neg hm]
        refine ih _ j (by omega) (by omega) (fun a ha => ?_) h2
        cases hfa : f a with
        | false => rfl
        | true => exact absurd (hmono a _ (by omega) hfa) hm
    · rw [if_neg h]
      have : i = j := by omega
      subst this
      exact ⟨h1, h2⟩

theorem getRelayIndex_spec (n : Network) (hs : n.serverAddresses.Pairwise (· ≤ ·)) (s : Str) (h : s ∈ n.serverAddresses) :
    n.serverAddresses[n.getRelayIndex s]? = some s ∧ ∀ j < n.getRelayIndex s, n.serverAddresses[j]? ≠ some s := by
  unfold getRelayIndex
  set l := n.serverAddresses with hl
  set f : Nat → Bool := fun h => match l[h]? with | some a => decide (s ≤ a) | none => true with hf
  have hfs : ∀ (a : Nat) (x : Str), l[a]? = some x → (f a = true ↔ s ≤ x) := fun a x hx => by simp only [hf, hx, decide_eq_true_eq]
  have hfn : ∀ (a : Nat), l[a]? = none → f a = true := fun a hx => by simp only [hf, hx]
  have hmono : ∀ a b, a ≤ b → f a = true → f b = true := by
    intro a b hab ha
    cases hb : l[b]? with
    | none => exact hfn b hb
    | some y =>
      have hbl : b < l.length := (List.getElem?_eq_some_iff.1 hb).1
      have hax : l[a]? = some (l[a]'(by omega)) := List.getElem?_eq_getElem (by omega)
      rw [hfs b y hb]
      rw [hfs a _ hax] at ha
      rcases Nat.lt_or_eq_of_le hab with hlt | rfl
      · have := List.pairwise_iff_getElem.1 hs a b (by omega) hbl hlt
        rw [(List.getElem?_eq_some_iff.1 hb).2] at this
        exact List.le_trans ha this
      · rw [hb] at hax; injection hax with hax; rw [hax]; exact ha
  have hsp := searchLoop_spec f hmono l.length 0 l.length (by omega) (by omega) (fun a ha => absurd ha (by omega))
    (fun a ha => hfn a (List.getElem?_eq_none ha))
  set r := searchLoop f l.length 0 l.length
  obtain ⟨i, hi, his⟩ := List.mem_iff_getElem.1 h
  have hi' : l[i]? = some s := by rw [List.getElem?_eq_getElem hi, his]
  have hri : r ≤ i := by
    by_contra hc
    have := hsp.1 i (by omega)
    rw [(hfs i s hi').2 (List.le_refl s)] at this
    cases this
  have hrx : l[r]? = some (l[r]'(by omega)) := List.getElem?_eq_getElem (by omega)
  have hge := (hfs r _ hrx).1 (hsp.2 r (Nat.le_refl _))
  have hle : l[r]'(by omega) ≤ s := by
    rcases Nat.lt_or_eq_of_le hri with hlt | heq
    · have := List.pairwise_iff_getElem.1 hs r i (by omega) hi hlt
      rw [his] at this; exact this
    · have : l[r]? = some s := by rw [heq]; exact hi'
      rw [hrx] at this; injection this with this; rw [this]; exact List.le_refl s
  show l[r]? = some s ∧ ∀ j < r, l[j]? ≠ some s
  refine ⟨by rw [hrx, List.le_antisymm hle hge], ?_⟩
  intro j hj hjs
  have := hsp.1 j hj
  rw [(hfs j s hjs).2 (List.le_refl s)] at this
  cases this

end Network
end Resmix.Rrpc
