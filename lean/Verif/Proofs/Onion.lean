import Verif.Proofs.GoMap
import Verif.Proofs.Ibe
import Verif.Spec.Onion
import Verif.Model.Sender
set_option autoImplicit false
namespace Resmix.Onion
open Tibe

theorem be32_inj {a b : Nat} (ha : a < 2 ^ 32) (hb : b < 2 ^ 32) (h : be32 a = be32 b) : a = b := by
  have := congrArg beNat h
  rw [beNat_be32, beNat_be32] at this
  omega

theorem be32_beNat (b : Bytes) (h : b.length = 4) : be32 (beNat b) = b := by
  obtain ⟨a, b, c, d, rfl⟩ : ∃ w x y z, b = [w, x, y, z] := by
    match b, h with
    | [w, x, y, z], _ => exact ⟨w, x, y, z, rfl⟩
  have ha := a.toNat_lt; have hb := b.toNat_lt; have hc := c.toNat_lt; have hd := d.toNat_lt
  simp only [be32, beNat, List.foldl]
  have key : ∀ (x : UInt8) (n : Nat), n % 256 = x.toNat → UInt8.ofNat n = x := by
    intro x n hn
    apply UInt8.toNat.inj
    simp [hn]
  congr 1
  · exact key _ _ (by omega)
  congr 1
  · exact key _ _ (by omega)
  congr 1
  · exact key _ _ (by omega)
  congr 1
  exact key _ _ (by omega)

theorem beNat_lt (b : Bytes) (h : b.length = 4) : beNat b < 2 ^ 32 := by
  have := beNat_be32 (beNat b)
  rw [be32_beNat b h] at this
  have h2 : beNat b % 2 ^ 32 < 2 ^ 32 := Nat.mod_lt _ (by decide)
  omega

theorem goIndex_ok {α : Type} {a : List α} {i : Nat} {x : α} : goIndex a i = .ok x ↔ a[i]? = some x := by
  unfold goIndex
  cases a[i]? <;> simp

theorem extract_eq (body : Bytes) (l p : Nat) (hl : l < 2 ^ 32) (hp : p < 2 ^ 32) (t : Topology) :
    extractMixConfig (body ++ be32 l ++ be32 p) t = (goIndex t.layers l >>= fun lay => goIndex lay p) := by
  unfold extractMixConfig
  have hlen : (body ++ be32 l ++ be32 p).length = body.length + 8 := by simp
  rw [if_neg (by omega), hlen]
  have e1 : goSlice (body ++ be32 l ++ be32 p) (body.length + 8 - 8) (body.length + 8 - 4) = .ok (be32 l) := by
    unfold goSlice
    rw [if_pos (by rw [hlen]; omega)]
    congr 1
    rw [List.take_append_of_le_length (by simp), List.take_of_length_le (by simp)]
    rw [show body.length + 8 - 8 = body.length by omega, List.drop_left]
  have e2 : goSlice (body ++ be32 l ++ be32 p) (body.length + 8 - 4) (body.length + 8) = .ok (be32 p) := by
    unfold goSlice
    rw [if_pos (by rw [hlen]; omega)]
    congr 1
    rw [List.take_of_length_le (by rw [hlen]), show body.length + 8 - 4 = (body ++ be32 l).length by simp, List.drop_left]
  simp only [e1, e2, bind, Except.bind, beNat_be32, Nat.mod_eq_of_lt hl, Nat.mod_eq_of_lt hp]

theorem mixAt_iff {t : Topology} {l p : Nat} {m : LogicalMix} :
    (goIndex t.layers l >>= fun lay => goIndex lay p) = .ok m ↔ t.mixAt l p = some m := by
  unfold Topology.mixAt goIndex
  cases t.layers[l]? with
  | none => simp [bind, Except.bind]
  | some lay =>
    simp only [bind, Except.bind, Option.bind]
    cases lay[p]? <;> simp

theorem split_trailer {o : Bytes} (h : 8 ≤ o.length) :
    ∃ body l p, l < 2 ^ 32 ∧ p < 2 ^ 32 ∧ o = body ++ be32 l ++ be32 p := by
  refine ⟨o.take (o.length - 8), beNat ((o.drop (o.length - 8)).take 4), beNat (o.drop (o.length - 4)), ?_, ?_, ?_⟩
  · exact beNat_lt _ (by simp; omega)
  · exact beNat_lt _ (by simp; omega)
  · rw [be32_beNat _ (by simp; omega), be32_beNat _ (by simp; omega), List.append_assoc]
    have : o.drop (o.length - 4) = (o.drop (o.length - 8)).drop 4 := by
      rw [List.drop_drop]; congr 1; omega
    rw [this, List.take_append_drop, List.take_append_drop]

theorem extract_iff {t : Topology} {o : Bytes} {m : LogicalMix} : extractMixConfig o t = .ok m ↔ Addresses t o m := by
  constructor
  · intro h
    have hlen : 8 ≤ o.length := by
      by_contra hlt
      unfold extractMixConfig at h
      rw [if_pos (by omega)] at h; cases h
    obtain ⟨body, l, p, hl, hp, rfl⟩ := split_trailer hlen
    rw [extract_eq body l p hl hp, mixAt_iff] at h
    exact ⟨body, l, p, hl, hp, rfl, h⟩
  · rintro ⟨body, l, p, hl, hp, rfl, h⟩
    rw [extract_eq body l p hl hp, mixAt_iff]; exact h

theorem extract_fail {t : Topology} {o : Bytes} (h : ¬ ∃ m, Addresses t o m) : extractMixConfig o t = .error .panic := by
  by_cases hlen : 8 ≤ o.length
  · obtain ⟨body, l, p, hl, hp, rfl⟩ := split_trailer hlen
    rw [extract_eq body l p hl hp]
    have hn : ¬ ∃ m, t.mixAt l p = some m := fun ⟨m, hm⟩ => h ⟨m, body, l, p, hl, hp, rfl, hm⟩
    unfold Topology.mixAt at hn
    unfold goIndex
    cases hl' : t.layers[l]? with
    | none => rfl
    | some lay =>
      simp only [bind, Except.bind]
      cases hp' : lay[p]? with
      | none => rfl
      | some m => exact absurd ⟨m, by simp [hl', hp']⟩ hn
  · unfold extractMixConfig; rw [if_pos (by omega)]

/-! ### Grouping -/

/-- Key of an onion as the code computes it. -/
def keyOf (key : LogicalMix → Str) (t : Topology) (o : Bytes) : Str :=
  match extractMixConfig o t with
  | .ok m => key m
  | .error _ => []

theorem perm_erase_of_lookup {κ ν : Type} [DecidableEq κ] {m : GoMap κ ν} (hn : GoMap.NodupKeys m) {k : κ} {v : ν}
    (h : GoMap.lookup m k = some v) : List.Perm m ((k, v) :: GoMap.erase m k) := by
  induction m with
  | nil => cases h
  | cons e m ih =>
    obtain ⟨k', v'⟩ := e
    simp only [GoMap.NodupKeys, List.map_cons, List.nodup_cons] at hn
    unfold GoMap.lookup at h
    by_cases hk : k' = k
    · rw [if_pos hk] at h
      injection h with h
      subst hk; subst h
      rw [show GoMap.erase ((k', v') :: m) k' = GoMap.erase m k' by simp [GoMap.erase], GoMap.erase_eq_self hn.1]
    · rw [if_neg hk] at h
      rw [show GoMap.erase ((k', v') :: m) k = (k', v') :: GoMap.erase m k by simp [GoMap.erase, hk]]
      exact ((ih hn.2 h).cons _).trans (List.Perm.swap _ _ _)

structure GroupInv (key : LogicalMix → Str) (t : Topology) (done : List Bytes) (g : GoMap Str (List Bytes)) : Prop where
  nodup : GoMap.NodupKeys g
  look : ∀ k, g.lookup k = if (done.filter fun o => decide (keyOf key t o = k)) = [] then none
    else some (done.filter fun o => decide (keyOf key t o = k))
  perm : (g.flatMap Prod.snd).Perm done

theorem groupInv_step {key : LogicalMix → Str} {t : Topology} {done : List Bytes} {g : GoMap Str (List Bytes)}
    (h : GroupInv key t done g) (o : Bytes) :
    GroupInv key t (done ++ [o]) (match g.lookup (keyOf key t o) with
      | none => g.insert (keyOf key t o) [o]
      | some l => g.insert (keyOf key t o) (l ++ [o])) := by
  have hlook := h.look (keyOf key t o)
  have hfil : ∀ k, ((done ++ [o]).filter fun o => decide (keyOf key t o = k)) =
      (done.filter fun o => decide (keyOf key t o = k)) ++ (if keyOf key t o = k then [o] else []) := by
    intro k
    rw [List.filter_append]
    congr 1
    by_cases hk : keyOf key t o = k <;> simp [hk]
  have hother : ∀ k, k ≠ keyOf key t o → ((done ++ [o]).filter fun o => decide (keyOf key t o = k)) =
      (done.filter fun o => decide (keyOf key t o = k)) := by
    intro k hk
    rw [hfil, if_neg (fun h => hk h.symm), List.append_nil]
  cases hl : g.lookup (keyOf key t o) with
  | none =>
    rw [hl] at hlook
    have he : (done.filter fun o' => decide (keyOf key t o' = keyOf key t o)) = [] := by
      by_contra hne
      rw [if_neg hne] at hlook; cases hlook
    refine ⟨GoMap.nodup_insert h.nodup _ _, ?_, ?_⟩
    · intro k
      rw [GoMap.lookup_insert]
      by_cases hk : k = keyOf key t o
      · subst hk
        rw [if_pos rfl, hfil, he, if_pos rfl]
        simp
      · rw [if_neg hk, hother k hk]; exact h.look k
    · simp only [GoMap.insert, List.flatMap_cons]
      rw [GoMap.erase_eq_self (GoMap.lookup_eq_none.1 hl)]
      refine (h.perm.append_left [o]).trans ?_
      exact List.perm_append_comm
  | some l =>
    rw [hl] at hlook
    have he : l = (done.filter fun o' => decide (keyOf key t o' = keyOf key t o)) ∧
        (done.filter fun o' => decide (keyOf key t o' = keyOf key t o)) ≠ [] := by
      split at hlook
      · cases hlook
      · next hne => injection hlook with hlook; exact ⟨hlook, hne⟩
    refine ⟨GoMap.nodup_insert h.nodup _ _, ?_, ?_⟩
    · intro k
      rw [GoMap.lookup_insert]
      by_cases hk : k = keyOf key t o
      · subst hk
        rw [if_pos rfl, hfil, ← he.1, if_pos rfl]
        simp
      · rw [if_neg hk, hother k hk]; exact h.look k
    · simp only [GoMap.insert, List.flatMap_cons]
      have hp := perm_erase_of_lookup h.nodup hl
      have hp2 : (g.flatMap Prod.snd).Perm (l ++ (GoMap.erase g (keyOf key t o)).flatMap Prod.snd) := by
        have := hp.flatMap_right Prod.snd
        simpa using this
      have hp3 := hp2.symm.trans h.perm
      rw [List.append_assoc]
      refine (List.perm_append_comm_assoc l [o] _).trans ?_
      exact (hp3.append_left [o]).trans List.perm_append_comm

theorem groupBy_spec (key : LogicalMix → Str) (onions : List Bytes) (t : Topology) (first : List LogicalMix)
    (hf : t.layers[0]? = some first) (hne : first ≠ []) (h : ∀ o ∈ onions, ∃ m, Addresses t o m) :
    ∃ g, groupBy key onions t = .ok g ∧ GroupInv key t onions g := by
  unfold groupBy
  rw [hf]
  suffices H : ∀ (rest done : List Bytes) (g : GoMap Str (List Bytes)), (∀ o ∈ rest, ∃ m, Addresses t o m) → GroupInv key t done g →
      ∃ g', rest.foldlM (groupStep key t first.length) g = .ok g' ∧ GroupInv key t (done ++ rest) g' by
    exact H onions [] [] h ⟨GoMap.nodup_nil, by intro k; simp, by simp⟩
  intro rest
  induction rest with
  | nil => intro done g _ hi; exact ⟨g, rfl, by simpa using hi⟩
  | cons o rest ih =>
    intro done g hw hi
    obtain ⟨m, hm⟩ := hw o List.mem_cons_self
    rw [← extract_iff] at hm
    have hk : keyOf key t o = key m := by unfold keyOf; rw [hm]
    have hstep := groupInv_step hi o
    rw [hk] at hstep
    obtain ⟨g', hg', hi'⟩ := ih (done ++ [o]) _ (fun o' ho' => hw o' (List.mem_cons_of_mem _ ho')) hstep
    refine ⟨g', ?_, by simpa using hi'⟩
    rw [List.foldlM_cons]
    have hz : first.length ≠ 0 := by simpa using hne
    have hgs : groupStep key t first.length g o = .ok (match g.lookup (key m) with
      | none => g.insert (key m) [o]
      | some l => g.insert (key m) (l ++ [o])) := by
      unfold groupStep
      rw [hm]
      cases hl : g.lookup (key m) <;> simp [hl, hz]
    rw [hgs]
    exact hg'

theorem groupBy_fail (key : LogicalMix → Str) (onions : List Bytes) (t : Topology) (o : Bytes) (ho : o ∈ onions)
    (h : ¬ ∃ m, Addresses t o m) : groupBy key onions t = .error .panic := by
  unfold groupBy
  cases hf : t.layers[0]? with
  | none => rfl
  | some first =>
    simp only
    suffices H : ∀ (rest : List Bytes) (g : GoMap Str (List Bytes)), o ∈ rest →
        rest.foldlM (groupStep key t first.length) g = .error .panic from H onions [] ho
    intro rest
    induction rest with
    | nil => intro _ h0; cases h0
    | cons o' rest ih =>
      intro g hmem
      rw [List.foldlM_cons]
      by_cases ho' : ∃ m, Addresses t o' m
      · obtain ⟨m, hm⟩ := ho'
        have hmem' : o ∈ rest := by
          rcases List.mem_cons.1 hmem with rfl | h1
          · exact absurd ⟨m, hm⟩ h
          · exact h1
        cases hgs : groupStep key t first.length g o' with
        | ok g' => exact ih g' hmem'
        | error e =>
          unfold groupStep at hgs
          rw [extract_iff.2 hm] at hgs
          simp only at hgs
          split at hgs
          · split at hgs
            · injection hgs with hgs; subst hgs; rfl
            · cases hgs
          · cases hgs
      · unfold groupStep; rw [extract_fail ho']
        rfl

open Classical in
theorem filter_keyOf (key : LogicalMix → Str) (t : Topology) (onions : List Bytes) (h : ∀ o ∈ onions, ∃ m, Addresses t o m) (k : Str) :
    (onions.filter fun o => decide (keyOf key t o = k)) = onionsFor t key onions k := by
  unfold onionsFor
  refine List.filter_congr ?_
  intro o ho
  obtain ⟨m, hm⟩ := h o ho
  have hk : keyOf key t o = key m := by unfold keyOf; rw [extract_iff.2 hm]
  rw [hk]
  apply decide_eq_decide.2
  constructor
  · intro he; exact ⟨m, hm, he⟩
  · rintro ⟨m', hm', he⟩
    have := (extract_iff.2 hm).symm.trans (extract_iff.2 hm')
    injection this with this
    rw [this]; exact he

end Resmix.Onion
