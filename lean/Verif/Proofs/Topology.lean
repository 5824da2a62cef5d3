import Verif.Model.Topology
import Verif.Proofs.GoMap
import Verif.Proofs.Strings
import Verif.Proofs.Shuffle
import Mathlib.Data.List.FinRange
import Mathlib.Data.Nat.ModEq
import Mathlib.Data.List.Rotate
namespace Resmix.Topology
open Resmix.Shuffle (mapM_ok goIndex_ok)

/-- Closed form of the mix at (layer, position) of a finished cascade. -/
def closedMix (hosts : List Str) (L l : Nat) (i : Fin hosts.length) : LogicalMix :=
  { newMix hosts l i with
    predecessors := if l = 0 then [genesisName] else [mixNameOf (l - 1) ((i + (l - 1)) % hosts.length)]
    successors := if l = L - 1 then [genesisName] else [mixNameOf (l + 1) ((i + (l + 1)) % hosts.length)] }

def rawLayer (hosts : List Str) (l : Nat) : List LogicalMix := (List.finRange hosts.length).map (newMix hosts l)

theorem createLayers_layers (hosts : List Str) (k : Nat) (x : Topology) :
    (createLayers hosts k x).layers =
      x.layers ++ (List.range k).map (fun d => rawLayer hosts (x.layers.length + d)) := by
  induction k generalizing x with
  | zero => simp [createLayers]
  | succ k ih =>
    rw [createLayers, ih, List.range_succ_eq_map]
    simp only [createLayer, rawLayer, List.length_append, List.length_singleton, List.append_assoc, List.map_cons,
      List.map_map, List.singleton_append, Nat.add_zero]
    congr 2
    apply List.map_congr_left
    intro a _
    simp [Nat.add_assoc, Nat.add_comm 1 a]

theorem createLayers_layers' (hosts : List Str) (L : Nat) :
    (createLayers hosts L ⟨[], []⟩).layers = (List.range L).map (rawLayer hosts) := by
  rw [createLayers_layers]; simp

theorem mod_inj {n l i j : Nat} (hi : i < n) (hj : j < n) (h : (i + l) % n = (j + l) % n) : i = j := by
  have : Nat.ModEq n i j := Nat.ModEq.add_right_cancel' l h
  rwa [Nat.ModEq, Nat.mod_eq_of_lt hi, Nat.mod_eq_of_lt hj] at this

theorem newMix_name_inj (hosts : List Str) {l l' : Nat} {i i' : Fin hosts.length}
    (h : (newMix hosts l i).name = (newMix hosts l' i').name) : l = l' ∧ i = i' := by
  simp only [newMix] at h
  obtain ⟨h1, h2⟩ := mixNameOf_inj h
  subst h1
  exact ⟨rfl, Fin.ext (mod_inj i.isLt i'.isLt h2)⟩

/-- Inserting pairwise distinct fresh keys. -/
theorem foldl_insert_fresh {κ ν ι : Type} [DecidableEq κ] (l : List ι) (key : ι → κ) (val : ι → ν) (m : GoMap κ ν)
    (hnd : (l.map key).Nodup) (hf : ∀ i ∈ l, key i ∉ m.map Prod.fst) :
    l.foldl (fun m i => m.insert (key i) (val i)) m = (l.map fun i => (key i, val i)).reverse ++ m := by
  induction l generalizing m with
  | nil => simp
  | cons a l ih =>
    simp only [List.map_cons, List.nodup_cons] at hnd
    simp only [List.foldl_cons, List.map_cons, List.reverse_cons, List.append_assoc, List.singleton_append]
    have hins : m.insert (key a) (val a) = (key a, val a) :: m := by
      simp [GoMap.insert, GoMap.erase_eq_self (hf a (by simp))]
    rw [hins, ih _ hnd.2]
    intro i hi
    simp only [List.map_cons, List.mem_cons, not_or]
    refine ⟨fun h => hnd.1 (h ▸ List.mem_map.2 ⟨i, hi, rfl⟩), hf i (List.mem_cons_of_mem _ hi)⟩

def entries (hosts : List Str) (l : Nat) : GoMap Str (Nat × Nat) :=
  (List.finRange hosts.length).map fun i => ((newMix hosts l i).name, (l, i.val))

theorem createLayer_mixes (hosts : List Str) (x : Topology)
    (hx : ∀ e ∈ x.mixes, ∃ l' i', l' < x.layers.length ∧ e.1 = (newMix hosts l' i').name) :
    (createLayer x hosts).mixes = (entries hosts x.layers.length).reverse ++ x.mixes := by
  simp only [createLayer, entries]
  rw [foldl_insert_fresh (List.finRange hosts.length) (fun i => (newMix hosts x.layers.length i).name)
    (fun i => (x.layers.length, i.val))]
  · rw [List.nodup_map_iff_inj_on (List.nodup_finRange _)]
    intro a _ b _ h
    exact (newMix_name_inj hosts h).2
  · intro i _ hmem
    obtain ⟨e, he, h⟩ := List.mem_map.1 hmem
    obtain ⟨l', i', hl, hn⟩ := hx e he
    rw [hn] at h
    have := (newMix_name_inj hosts h).1
    omega

theorem createLayers_mixes (hosts : List Str) (k : Nat) (x : Topology)
    (hx : ∀ e ∈ x.mixes, ∃ l' i', l' < x.layers.length ∧ e.1 = (newMix hosts l' i').name) :
    (createLayers hosts k x).mixes.Perm
      (((List.range k).map (fun d => entries hosts (x.layers.length + d))).flatten ++ x.mixes) := by
  induction k generalizing x with
  | zero => simp [createLayers]
  | succ k ih =>
    have hm := createLayer_mixes hosts x hx
    have hl : (createLayer x hosts).layers.length = x.layers.length + 1 := by simp [createLayer]
    rw [createLayers]
    refine (ih (createLayer x hosts) ?_).trans ?_
    · intro e he
      rw [hm] at he
      rw [hl]
      rcases List.mem_append.1 he with he | he
      · simp only [entries, List.mem_reverse, List.mem_map] at he
        obtain ⟨i, _, rfl⟩ := he
        exact ⟨_, i, Nat.lt_succ_self _, rfl⟩
      · obtain ⟨l', i', h, hh⟩ := hx e he
        exact ⟨l', i', by omega, hh⟩
    · rw [hm, hl, List.range_succ_eq_map]
      simp only [List.map_cons, List.flatten_cons, List.map_map, Nat.add_zero, List.append_assoc]
      have e1 : (List.range k).map (fun d => entries hosts (x.layers.length + 1 + d)) =
          (List.range k).map ((fun d => entries hosts (x.layers.length + d)) ∘ Nat.succ) := by
        apply List.map_congr_left
        intro a _
        simp [Nat.add_assoc, Nat.add_comm 1 a]
      rw [e1]
      refine (List.perm_append_comm_assoc _ _ _).trans ?_
      exact (List.reverse_perm _).append_right _

theorem createLayers_mixes' (hosts : List Str) (L : Nat) :
    (createLayers hosts L ⟨[], []⟩).mixes.Perm ((List.range L).map (entries hosts)).flatten := by
  have := createLayers_mixes hosts L ⟨[], []⟩ (by simp)
  simpa using this

theorem mapM_zipIdx_ok {α β} (f : α × Nat → Go β) (g : Nat → β) (l : List α)
    (h : ∀ i, (hi : i < l.length) → f (l[i], i) = .ok (g i)) :
    l.zipIdx.mapM f = .ok ((List.range l.length).map g) := by
  have : l.zipIdx.mapM f = .ok (l.zipIdx.map fun p => g p.2) := by
    apply mapM_ok
    rintro ⟨a, i⟩ hmem
    obtain ⟨hi, h2⟩ := List.mem_zipIdx' hmem
    have := h i hi
    simpa [h2] using this
  rw [this]
  congr 1
  rw [show (fun p : α × Nat => g p.2) = g ∘ Prod.snd from rfl, ← List.map_map, List.zipIdx_map_snd]
  simp [List.range_eq_range']

theorem range_map_fin {α} (n : Nat) (f : Fin n → α) (g : Nat → α) (h : ∀ i : Fin n, g i = f i) :
    (List.range n).map g = (List.finRange n).map f := by
  apply List.ext_getElem
  · simp
  · intro i h1 h2
    have hi : i < n := by simpa using h1
    simpa using h ⟨i, hi⟩

theorem createCascade_eq (hosts : List Str) (L : Nat) :
    ∃ t, createCascade hosts L = .ok t ∧
      t.layers = (List.range L).map (fun l => (List.finRange hosts.length).map (closedMix hosts L l)) ∧
      t.mixes.Perm ((List.range L).map (entries hosts)).flatten := by
  let t0 := createLayers hosts L ⟨[], []⟩
  have hl0 : t0.layers = (List.range L).map (rawLayer hosts) := createLayers_layers' hosts L
  -- predecessors
  let p1 : Nat → Fin hosts.length → LogicalMix := fun l i =>
    { newMix hosts l i with
      predecessors := if l = 0 then [genesisName] else [mixNameOf (l - 1) ((i + (l - 1)) % hosts.length)] }
  have h1 : setPredecessors t0 =
      .ok { t0 with layers := (List.range L).map (fun l => (List.finRange hosts.length).map (p1 l)) } := by
    unfold setPredecessors
    rw [mapM_zipIdx_ok _ (fun l => (List.finRange hosts.length).map (p1 l))]
    · simp [hl0, bind, Except.bind]
    · intro l hl
      have hlL : l < L := by simpa [hl0] using hl
      have hlay : t0.layers[l] = rawLayer hosts l := by simp [hl0]
      simp only [hlay]
      rw [mapM_zipIdx_ok _ (fun i => if h : i < hosts.length then p1 l ⟨i, h⟩ else default)]
      · congr 1
        rw [show (rawLayer hosts l).length = hosts.length by simp [rawLayer]]
        apply range_map_fin
        intro i; simp
      · intro i hi
        have hih : i < hosts.length := by simpa [rawLayer] using hi
        simp only [hih, dif_pos]
        by_cases hz : l = 0
        · simp [hz, p1, rawLayer]
        · simp only [hz, if_false]
          have hprev : l - 1 < t0.layers.length := by simp [hl0]; omega
          rw [goIndex_ok hprev]
          have e : t0.layers[l-1] = rawLayer hosts (l-1) := by simp [hl0]
          simp only [bind, Except.bind, e]
          rw [goIndex_ok (by simpa [rawLayer] using hih)]
          simp [rawLayer, p1, newMix, hz]
  have h2 : setSuccessors { t0 with layers := (List.range L).map (fun l => (List.finRange hosts.length).map (p1 l)) } =
      .ok { t0 with layers := (List.range L).map (fun l => (List.finRange hosts.length).map (closedMix hosts L l)) } := by
    unfold setSuccessors
    rw [mapM_zipIdx_ok _ (fun l => (List.finRange hosts.length).map (closedMix hosts L l))]
    · simp [bind, Except.bind]
    · intro l hl
      have hlL : l < L := by simpa using hl
      simp only [List.getElem_map, List.getElem_range, List.length_map, List.length_range]
      rw [mapM_zipIdx_ok _ (fun i => if h : i < hosts.length then closedMix hosts L l ⟨i, h⟩ else default)]
      · congr 1
        rw [List.length_map, List.length_finRange]
        apply range_map_fin
        intro i; simp
      · intro i hi
        have hih : i < hosts.length := by simpa using hi
        simp only [hih, dif_pos]
        by_cases hz : l = L - 1
        · simp [hz, p1, closedMix]
        · simp only [hz, if_false]
          rw [goIndex_ok (by simp; omega)]
          simp only [bind, Except.bind, List.getElem_map, List.getElem_range]
          rw [goIndex_ok (by simpa using hih)]
          simp [p1, newMix, hz, closedMix]
  refine ⟨{ t0 with layers := _ }, ?_, rfl, createLayers_mixes' hosts L⟩
  show (do let t ← setPredecessors t0; setSuccessors t) = _
  rw [h1]; exact h2

end Resmix.Topology

namespace Resmix.Topology

/-- Everything the property theorems need about a finished cascade. -/
structure Closed (hosts : List Str) (L : Nat) (t : Topology) : Prop where
  layers : t.layers = (List.range L).map (fun l => (List.finRange hosts.length).map (closedMix hosts L l))
  mixes : t.mixes.Perm ((List.range L).map (entries hosts)).flatten

theorem closed_of_create {hosts : List Str} {L : Nat} {t : Topology} (h : createCascade hosts L = .ok t) :
    Closed hosts L t := by
  obtain ⟨t', h', h1, h2⟩ := createCascade_eq hosts L
  rw [h] at h'; cases h'; exact ⟨h1, h2⟩

variable {hosts : List Str} {L : Nat} {t : Topology}

theorem mem_flat_entries {e : Str × (Nat × Nat)} :
    e ∈ ((List.range L).map (entries hosts)).flatten ↔
      ∃ l i, l < L ∧ e = ((newMix hosts l i).name, (l, (i : Fin hosts.length).val)) := by
  simp only [List.mem_flatten, List.mem_map, List.mem_range, entries]
  constructor
  · rintro ⟨_, ⟨l, hl, rfl⟩, he⟩
    obtain ⟨i, _, rfl⟩ := List.mem_map.1 he
    exact ⟨l, i, hl, rfl⟩
  · rintro ⟨l, i, hl, rfl⟩
    exact ⟨_, ⟨l, hl, rfl⟩, List.mem_map.2 ⟨i, List.mem_finRange _, rfl⟩⟩

theorem nodup_flat_names (hosts : List Str) (L : Nat) :
    (((List.range L).map (entries hosts)).flatten.map Prod.fst).Nodup := by
  rw [List.map_flatten, List.nodup_flatten]
  constructor
  · intro l hl
    simp only [List.mem_map, List.mem_range] at hl
    obtain ⟨_, ⟨l', _, rfl⟩, rfl⟩ := hl
    simp only [entries, List.map_map]
    rw [List.nodup_map_iff_inj_on (List.nodup_finRange _)]
    intro a _ b _ h
    exact (newMix_name_inj hosts h).2
  · rw [List.map_map, List.pairwise_map]
    refine List.Pairwise.imp ?_ (List.nodup_range (n := L))
    intro a b hab
    simp only [Function.comp, entries, List.map_map]
    intro x hx hx'
    obtain ⟨i, _, h1⟩ := List.mem_map.1 hx
    obtain ⟨j, _, h2⟩ := List.mem_map.1 hx'
    rw [← h2] at h1
    exact hab (newMix_name_inj hosts h1).1

theorem Closed.nodupKeys (h : Closed hosts L t) : GoMap.NodupKeys t.mixes :=
  (h.mixes.map Prod.fst).nodup_iff.2 (nodup_flat_names hosts L)

theorem Closed.mixAt_eq (h : Closed hosts L t) (l i : Nat) (hl : l < L) (hi : i < hosts.length) :
    (t.layers[l]?).bind (·[i]?) = some (closedMix hosts L l ⟨i, hi⟩) := by
  simp [h.layers, hl, hi]

theorem Closed.mixAt_some (h : Closed hosts L t) {l i : Nat} {m : LogicalMix}
    (hm : (t.layers[l]?).bind (·[i]?) = some m) :
    ∃ (_ : l < L) (hi : i < hosts.length), m = closedMix hosts L l ⟨i, hi⟩ := by
  by_cases hl : l < L
  · by_cases hi : i < hosts.length
    · rw [h.mixAt_eq l i hl hi] at hm; cases hm; exact ⟨hl, hi, rfl⟩
    · simp [h.layers, hl] at hm
      rw [List.getElem?_eq_none (by simpa using hi)] at hm; simp at hm
  · simp [h.layers, hl] at hm

theorem Closed.getMix_name (h : Closed hosts L t) (l : Nat) (i : Fin hosts.length) (hl : l < L) :
    t.getMix (newMix hosts l i).name = some (closedMix hosts L l i) := by
  have hlook : t.mixes.lookup (newMix hosts l i).name = some (l, i.val) := by
    rw [GoMap.lookup_iff_mem h.nodupKeys, h.mixes.mem_iff, mem_flat_entries]
    exact ⟨l, i, hl, rfl⟩
  have := h.mixAt_eq l i hl i.isLt
  simp only [getMix, hlook, bind, Option.bind] at this ⊢
  exact this

theorem Closed.getMix_some (h : Closed hosts L t) {nm : Str} {m : LogicalMix} (hm : t.getMix nm = some m) :
    ∃ l i, l < L ∧ m = closedMix hosts L l i ∧ m.name = nm := by
  cases hlook : t.mixes.lookup nm with
  | none => simp [getMix, hlook] at hm
  | some p =>
    have hmem := GoMap.lookup_mem hlook
    rw [h.mixes.mem_iff, mem_flat_entries] at hmem
    obtain ⟨l, i, hl, he⟩ := hmem
    have hn : nm = (newMix hosts l i).name := congrArg Prod.fst he
    rw [hn, h.getMix_name l i hl] at hm
    cases hm
    exact ⟨l, i, hl, rfl, hn.symm⟩

theorem Closed.getMix_genesis (h : Closed hosts L t) : t.getMix genesisName = none := by
  cases hg : t.getMix genesisName with
  | none => rfl
  | some m =>
    obtain ⟨l, i, _, rfl, hn⟩ := h.getMix_some hg
    exact absurd hn (mixNameOf_ne_genesis _ _)

theorem Closed.mem_flatten (h : Closed hosts L t) {m : LogicalMix} :
    m ∈ t.layers.flatten ↔ ∃ l i, l < L ∧ m = closedMix hosts L l i := by
  rw [h.layers]
  simp only [List.mem_flatten, List.mem_map, List.mem_range]
  constructor
  · rintro ⟨_, ⟨l, hl, rfl⟩, he⟩
    obtain ⟨i, _, rfl⟩ := List.mem_map.1 he
    exact ⟨l, i, hl, rfl⟩
  · rintro ⟨l, i, hl, rfl⟩
    exact ⟨_, ⟨l, hl, rfl⟩, List.mem_map.2 ⟨i, List.mem_finRange _, rfl⟩⟩

theorem Closed.names (h : Closed hosts L t) :
    t.layers.flatten.map (·.name) = ((List.range L).map (entries hosts)).flatten.map Prod.fst := by
  rw [h.layers, List.map_flatten, List.map_flatten, List.map_map, List.map_map]
  congr 1
  apply List.map_congr_left
  intro l _
  simp [entries, closedMix]

/-- Rotating the indices permutes the host list. -/
theorem rotate_hosts_perm (hosts : List Str) (L l : Nat) :
    (((List.finRange hosts.length).map (closedMix hosts L l)).map (·.hostname)).Perm hosts := by
  rw [List.map_map]
  have : ((·.hostname) ∘ closedMix hosts L l) =
      fun i : Fin hosts.length => hosts[(i + l) % hosts.length]'(Nat.mod_lt _ (Nat.lt_of_le_of_lt (Nat.zero_le _) i.isLt)) := by
    funext i; rfl
  rw [this]
  have hrot : ((List.finRange hosts.length).map fun i : Fin hosts.length =>
      hosts[(i + l) % hosts.length]'(Nat.mod_lt _ (Nat.lt_of_le_of_lt (Nat.zero_le _) i.isLt))) = hosts.rotate l := by
    apply List.ext_getElem
    · simp
    · intro i h1 h2
      simp [List.getElem_rotate]
  rw [hrot]
  exact List.rotate_perm hosts l

end Resmix.Topology
