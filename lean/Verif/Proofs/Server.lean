import Verif.Model.Server
import Verif.Spec.Mixer
import Verif.Spec.Topology
import Verif.Proofs.Mixer
import Verif.Proofs.Topology
set_option autoImplicit false
namespace Resmix.Server
open Resmix.Topology (Closed closedMix newMix newMix_name_inj)

variable {hosts : List Str} {L : Nat} {t : Topology}

theorem chain_spec (hc : Closed hosts L t) (load : Int) (i : Fin hosts.length) (k : Nat) :
    ∀ (fuel l : Nat) (w : GoMap Str Int), l + k + 1 = L → k < fuel →
    ∃ w', propagateChain t load fuel (some (closedMix hosts L l i)) w = .ok w' ∧
      (∀ l', l ≤ l' → l' < L → w'.lookup (newMix hosts l' i).name = some load) ∧
      (∀ nm, (∀ l', l ≤ l' → l' < L → nm ≠ (newMix hosts l' i).name) → w'.lookup nm = w.lookup nm) := by
  induction k with
  | zero =>
    intro fuel l w hl hf
    obtain ⟨fuel, rfl⟩ : ∃ f, fuel = f + 1 := ⟨fuel - 1, by omega⟩
    have hs : (closedMix hosts L l i).successors = [genesisName] := by simp [closedMix]; omega
    refine ⟨w.insert (closedMix hosts L l i).name load, ?_, ?_, ?_⟩
    · simp only [propagateChain, hs, hc.getMix_genesis]
    · intro l' h1 h2
      have : l' = l := by omega
      subst this
      exact GoMap.lookup_insert_self _ _ _
    · intro nm hnm
      exact GoMap.lookup_insert_ne _ _ (hnm l (le_refl _) (by omega))
  | succ k ih =>
    intro fuel l w hl hf
    obtain ⟨fuel, rfl⟩ : ∃ f, fuel = f + 1 := ⟨fuel - 1, by omega⟩
    have hs : (closedMix hosts L l i).successors = [(newMix hosts (l + 1) i).name] := by
      simp only [closedMix]; rw [if_neg (by omega)]; rfl
    obtain ⟨w', h1, h2, h3⟩ := ih fuel (l + 1) (w.insert (closedMix hosts L l i).name load) (by omega) (by omega)
    refine ⟨w', ?_, ?_, ?_⟩
    · simp only [propagateChain, hs, hc.getMix_name (l + 1) i (by omega)]; exact h1
    · intro l' hl1 hl2
      by_cases he : l' = l
      · subst he
        rw [h3]
        · exact GoMap.lookup_insert_self _ _ _
        · intro l'' h4 h5 hn
          have := (newMix_name_inj hosts hn).1
          omega
      · exact h2 l' (by omega) hl2
    · intro nm hnm
      rw [h3 nm (fun l' h4 h5 => hnm l' (by omega) h5)]
      exact GoMap.lookup_insert_ne _ _ (hnm l (le_refl _) (by omega))

theorem mixes_length (hc : Closed hosts L t) : t.mixes.length = L * hosts.length := by
  rw [hc.mixes.length_eq, List.length_flatten, List.map_map]
  have : ((List.range L).map (List.length ∘ Topology.entries hosts)) = List.replicate L hosts.length := by
    rw [List.eq_replicate_iff]
    refine ⟨by simp, ?_⟩
    intro b hb
    obtain ⟨l, _, rfl⟩ := List.mem_map.1 hb
    simp [Topology.entries]
  rw [this]; simp

theorem propagate_spec (hc : Closed hosts L t) (hL : 0 < L) (is : List (Fin hosts.length)) (hnd : is.Nodup) :
    ∀ (w : GoMap Str Int),
    ((∀ i ∈ is, (w.lookup (newMix hosts 0 i).name).isSome) →
      ∃ w', propagate t (is.map (closedMix hosts L 0)) w = .ok w' ∧
        ∀ l i, l < L → w'.lookup (newMix hosts l i).name =
          if i ∈ is then w.lookup (newMix hosts 0 i).name else w.lookup (newMix hosts l i).name) ∧
    ((∃ i ∈ is, w.lookup (newMix hosts 0 i).name = none) →
      propagate t (is.map (closedMix hosts L 0)) w = .error (.err .failedPrecondition "no workload for first layer mix")) := by
  induction is with
  | nil =>
    intro w
    refine ⟨fun _ => ⟨w, rfl, fun l i _ => by simp⟩, ?_⟩
    rintro ⟨i, hi, _⟩; cases hi
  | cons i is ih =>
    intro w
    obtain ⟨hni, hnd'⟩ := List.nodup_cons.1 hnd
    have hfuel : L - 1 < t.mixes.length + 1 := by
      rw [mixes_length hc]
      have : L * 1 ≤ L * hosts.length := Nat.mul_le_mul_left _ (by have := i.isLt; omega)
      omega
    have hname : (closedMix hosts L 0 i).name = (newMix hosts 0 i).name := rfl
    constructor
    · intro hall
      obtain ⟨load, hload⟩ := Option.isSome_iff_exists.1 (hall i (by simp))
      obtain ⟨w1, h1, h2, h3⟩ := chain_spec hc load i (L - 1) (t.mixes.length + 1) 0 w (by omega) hfuel
      have hother : ∀ l (j : Fin hosts.length), j ≠ i → w1.lookup (newMix hosts l j).name = w.lookup (newMix hosts l j).name := by
        intro l j hj
        apply h3
        intro l' _ _ hn
        exact hj (newMix_name_inj hosts hn).2
      obtain ⟨w', hw', hl'⟩ := (ih hnd' w1).1 (by
        intro j hj
        rw [hother 0 j (by rintro rfl; exact hni hj)]
        exact hall j (by simp [hj]))
      refine ⟨w', ?_, ?_⟩
      · simp only [List.map_cons, propagate, hname, hload, h1]; exact hw'
      · intro l j hl
        rw [hl' l j hl]
        by_cases hji : j = i
        · subst hji
          simp only [hni, if_false, List.mem_cons, true_or, if_true]
          rw [h2 l (by omega) hl, hload]
        · simp only [List.mem_cons, hji, false_or]
          rw [hother 0 j hji, hother l j hji]
    · rintro ⟨j, hj, hnone⟩
      simp only [List.map_cons, propagate, hname]
      cases hload : w.lookup (newMix hosts 0 i).name with
      | none => rfl
      | some load =>
        obtain ⟨w1, h1, h2, h3⟩ := chain_spec hc load i (L - 1) (t.mixes.length + 1) 0 w (by omega) hfuel
        simp only [h1]
        have hji : j ≠ i := by rintro rfl; rw [hload] at hnone; cases hnone
        have hjis : j ∈ is := by
          rcases List.mem_cons.1 hj with h | h
          · exact absurd h hji
          · exact h
        apply (ih hnd' w1).2
        refine ⟨j, hjis, ?_⟩
        rw [h3]
        · exact hnone
        · intro l' _ _ hn
          exact hji (newMix_name_inj hosts hn).2

theorem convert_lookup (loads : GoMap Str Nat) (nm : Str) : (convertLoads loads).lookup nm = (loads.lookup nm).map toInt := by
  induction loads with
  | nil => rfl
  | cons e l ih =>
    simp only [convertLoads, List.map_cons, GoMap.lookup] at ih ⊢
    split
    · rfl
    · exact ih

theorem toInt_small {n : Nat} (h : n < 2^63) : toInt n = n := by
  have h2 : n % 2^64 = n := Nat.mod_eq_of_lt (by omega)
  simp only [toInt, h2, if_pos h]

/-- This server's mixes. -/
theorem mem_ownMixes (hc : Closed hosts L t) {host : Str} {order : GoMap Str (Nat × Nat)} (ho : order.Perm t.mixes)
    {m : LogicalMix} : m ∈ ownMixes t host order ↔ m ∈ t.layers.flatten ∧ m.hostname = host := by
  simp only [ownMixes, List.mem_filterMap]
  constructor
  · rintro ⟨e, he, h⟩
    cases hg : t.getMix e.1 with
    | none => simp [hg] at h
    | some m' =>
      simp only [hg] at h
      split at h
      · next hh =>
        cases h
        obtain ⟨l, i, hl, rfl, _⟩ := hc.getMix_some hg
        exact ⟨hc.mem_flatten.2 ⟨l, i, hl, rfl⟩, hh⟩
      · cases h
  · rintro ⟨hm, hh⟩
    obtain ⟨l, i, hl, rfl⟩ := hc.mem_flatten.1 hm
    refine ⟨((newMix hosts l i).name, (l, i.val)), ?_, ?_⟩
    · rw [ho.mem_iff, hc.mixes.mem_iff, Topology.mem_flat_entries]; exact ⟨l, i, hl, rfl⟩
    · simp only [hc.getMix_name l i hl, hh, if_true]

theorem ownMixes_nodup (hc : Closed hosts L t) {host : Str} {order : GoMap Str (Nat × Nat)} (ho : order.Perm t.mixes) :
    ((ownMixes t host order).map (·.name)).Nodup := by
  have hk : GoMap.NodupKeys order := GoMap.nodup_perm ho.symm hc.nodupKeys
  have hsub : ∀ (l : GoMap Str (Nat × Nat)), ((ownMixes t host l).map (·.name)).Sublist (l.map Prod.fst) := by
    intro l
    induction l with
    | nil => simp [ownMixes]
    | cons e l ih =>
      simp only [ownMixes, List.filterMap_cons] at ih ⊢
      cases hg : t.getMix e.1 with
      | none => simp only [List.map_cons]; exact ih.trans (List.sublist_cons_self _ _)
      | some m =>
        simp only
        split
        · next h =>
          split at h
          · cases h
          · exact ih.trans (List.sublist_cons_self _ _)
        · next m' h =>
          split at h
          · cases h
            obtain ⟨l', i, hl, rfl, hn⟩ := hc.getMix_some hg
            simp only [List.map_cons, hn]
            exact ih.cons_cons _
          · cases h
  exact hk.sublist (hsub order)

/-- Every mix of a cascade expects one sender, once workloads agree along chains. -/
theorem expectsOnly (hc : Closed hosts L t) {w : GoMap Str Int} {loads : Fin hosts.length → Option Int}
    (hw : ∀ l i, l < L → w.lookup (newMix hosts l i).name = loads i) {m : LogicalMix} (hm : m ∈ t.layers.flatten) :
    ∃ pk, Mixer.ExpectsOnly t w m pk := by
  obtain ⟨l, i, hl, rfl⟩ := hc.mem_flatten.1 hm
  by_cases h0 : l = 0
  · exact ⟨_, .inl ⟨by simp [closedMix, h0], rfl⟩⟩
  · have hp : (closedMix hosts L l i).predecessors = [(newMix hosts (l - 1) i).name] := by
      simp only [closedMix, if_neg h0]; rfl
    refine ⟨_, .inr ⟨_, closedMix hosts L (l - 1) i, hp, mixNameOf_ne_genesis _ _, hc.getMix_name (l-1) i (by omega), rfl, ?_⟩⟩
    rw [hw (l - 1) i (by omega)]
    show _ = (w.lookup (newMix hosts l i).name).getD 0
    rw [hw l i hl]

theorem setPredecessors_ok (hc : Closed hosts L t) {w : GoMap Str Int} {own : Int} {m : LogicalMix} (hm : m ∈ t.layers.flatten) :
    ∃ ps, Mixer.setPredecessors t m w own = .ok ps := by
  obtain ⟨l, i, hl, rfl⟩ := hc.mem_flatten.1 hm
  by_cases h0 : l = 0
  · have hp : (closedMix hosts L l i).predecessors = [genesisName] := by simp [closedMix, h0]
    exact ⟨_, by simp [Mixer.setPredecessors, hp]; rfl⟩
  · have hp : (closedMix hosts L l i).predecessors = [(newMix hosts (l - 1) i).name] := by
      simp only [closedMix, if_neg h0]; rfl
    have hne : (newMix hosts (l - 1) i).name ≠ genesisName := mixNameOf_ne_genesis _ _
    exact ⟨_, by simp [Mixer.setPredecessors, hp, hne, hc.getMix_name (l-1) i (by omega)]; rfl⟩

theorem newMixers_ok (hc : Closed hosts L t) {w : GoMap Str Int} {mixes : List LogicalMix}
    (hm : ∀ m ∈ mixes, m ∈ t.layers.flatten) (hw : ∀ m ∈ mixes, 0 ≤ (w.lookup m.name).getD 0) :
    ∃ s, Mixer.newMixers t mixes w = .ok s := by
  have key : ∀ (acc : Str → Option Mixer.MixState), ∃ sts, mixes.foldlM (fun (acc : Str → Option Mixer.MixState) mix => do
      let ms ← Mixer.newMixState t mix w
      (.ok (fun n => if n = mix.name then some ms else acc n) : Go _)) acc = .ok sts := by
    induction mixes with
    | nil => intro acc; exact ⟨acc, rfl⟩
    | cons m mixes ih =>
      intro acc
      obtain ⟨ps, hps⟩ := setPredecessors_ok hc (w := w) (own := (w.lookup m.name).getD 0) (hm m (by simp))
      have hms : ∃ ms, Mixer.newMixState t m w = .ok ms := by
        unfold Mixer.newMixState
        simp only [hps]
        rw [if_neg (by have := hw m (by simp); omega)]
        exact ⟨_, rfl⟩
      obtain ⟨ms, hms⟩ := hms
      simp only [List.foldlM_cons, bind, Except.bind, hms]
      exact ih (fun m' h => hm m' (by simp [h])) (fun m' h => hw m' (by simp [h])) _
  obtain ⟨sts, h⟩ := key (fun _ => none)
  unfold Mixer.newMixers
  simp only [bind, Except.bind] at h ⊢
  rw [h]
  exact ⟨_, rfl⟩

theorem layers_cons (hc : Closed hosts L t) (hL : 0 < L) :
    ∃ rest, t.layers = (List.finRange hosts.length).map (closedMix hosts L 0) :: rest := by
  obtain ⟨L', rfl⟩ : ∃ L', L = L' + 1 := ⟨L - 1, by omega⟩
  rw [hc.layers, List.range_succ_eq_map, List.map_cons]
  exact ⟨_, rfl⟩

end Resmix.Server
