import Verif.Spec.Collector
import Verif.Proofs.GoMap
import Mathlib.Tactic.Ring
import Mathlib.Data.List.Induction
import Mathlib.Data.List.Forall2
set_option autoImplicit false
namespace Resmix.Rrpc
variable {μ : Type}

theorem callParcels_append (u : Str) (a b : List CEv) : callParcels u (a ++ b) = callParcels u a ++ callParcels u b := by
  simp [callParcels]

theorem runsOf_append (u : Str) (a b : List (COut μ)) : runsOf u (a ++ b) = runsOf u a ++ runsOf u b := by
  simp [runsOf]

theorem collectorRun_append (m : Int) (ttl : Nat) (lk : Str → Go μ) (tasks : GoMap Str (CTask μ)) (a b : List CEv) :
    collectorRun m ttl lk tasks (a ++ b) =
      ((collectorRun m ttl lk (collectorRun m ttl lk tasks a).1 b).1,
       (collectorRun m ttl lk tasks a).2 ++ (collectorRun m ttl lk (collectorRun m ttl lk tasks a).1 b).2) := by
  induction a generalizing tasks with
  | nil => simp [collectorRun]
  | cons e a ih => simp [collectorRun, ih, List.append_assoc]

theorem lookup_filter {κ ν : Type} [DecidableEq κ] (l : GoMap κ ν) (k : κ) (q : κ × ν → Bool) (hq : ∀ v, GoMap.lookup l k = some v → q (k, v) = true) :
    GoMap.lookup (l.filter q) k = GoMap.lookup l k := by
  induction l with
  | nil => rfl
  | cons e l ih =>
    obtain ⟨k', v⟩ := e
    by_cases h : k' = k
    · subst h
      have := hq v (by simp [GoMap.lookup])
      rw [List.filter_cons_of_pos this]
      simp [GoMap.lookup]
    · have hl : GoMap.lookup ((k', v) :: l) k = GoMap.lookup l k := by simp [GoMap.lookup, h]
      rw [hl]
      rw [hl] at hq
      by_cases hk : q (k', v) = true
      · rw [List.filter_cons_of_pos hk]
        simp [GoMap.lookup, h, ih hq]
      · rw [List.filter_cons_of_neg hk, ih hq]

/-- The entry for `u` holds exactly the pending parcels `ps`, and was made at the time of one of them. -/
structure Pending (tasks : GoMap Str (CTask μ)) (u : Str) (ps : List Parcel) (times : List Nat) : Prop where
  none_ : ps = [] → tasks.lookup u = none
  some_ : ps ≠ [] → ∃ v, tasks.lookup u = some v ∧ v.parcels = ps ∧ v.savedNote.calluuid = u ∧ v.startTime ∈ times ∧ ∃ p, ps.head? = some p ∧ v.savedNote = p.note

/-- The keys of the map are the call ids of the saved notes. -/
def KeysOk (tasks : GoMap Str (CTask μ)) : Prop := ∀ k v, tasks.lookup k = some v → v.savedNote.calluuid = k

theorem KeysOk.step {m : Int} {ttl : Nat} {lk : Str → Go μ} {tasks : GoMap Str (CTask μ)} (hnd : GoMap.NodupKeys tasks) (h : KeysOk tasks) (e : CEv) :
    KeysOk (collectorStep m ttl lk tasks e).1 ∧ GoMap.NodupKeys (collectorStep m ttl lk tasks e).1 := by
  cases e with
  | tick now =>
    simp only [collectorStep]
    refine ⟨?_, ?_⟩
    · intro k v hv
      have : (k, v) ∈ tasks.filter fun e => decide (now - e.2.startTime ≤ ttl) := GoMap.lookup_mem hv
      exact h k v (GoMap.mem_lookup hnd (List.mem_filter.1 this).1)
    · exact List.Nodup.sublist (List.Sublist.map _ List.filter_sublist) hnd
  | parcel now p =>
    simp only [collectorStep, getOrCreateTask]
    cases hl : lk p.method with
    | error e => exact ⟨h, hnd⟩
    | ok mm =>
      simp only
      cases ht : tasks.lookup p.note.calluuid with
      | some v =>
        simp only
        split
        · refine ⟨?_, GoMap.nodup_insert hnd _ _⟩
          intro k w hw
          rw [GoMap.lookup_insert] at hw
          split at hw
          · next hk => injection hw with hw; subst hw; rw [hk]; exact h _ v ht
          · exact h k w hw
        · refine ⟨?_, GoMap.nodup_erase hnd _⟩
          intro k w hw
          rw [GoMap.lookup_erase] at hw
          split at hw
          · cases hw
          · exact h k w hw
      | none =>
        simp only
        split
        · refine ⟨?_, GoMap.nodup_insert (GoMap.nodup_insert hnd _ _) _ _⟩
          intro k w hw
          rw [GoMap.lookup_insert] at hw
          split at hw
          · next hk => injection hw with hw; subst hw; exact hk.symm
          · rw [GoMap.lookup_insert] at hw
            split at hw
            · next hk => exact absurd hk ‹_›
            · exact h k w hw
        · refine ⟨?_, GoMap.nodup_erase (GoMap.nodup_insert hnd _ _) _⟩
          intro k w hw
          rw [GoMap.lookup_erase] at hw
          split at hw
          · cases hw
          · next hk =>
            rw [GoMap.lookup_insert] at hw
            split at hw
            · next hk2 => exact absurd hk2 hk
            · exact h k w hw


/-- An event that is no parcel of `u` and does not drop the pending task of `u` changes nothing for `u`. -/
theorem Pending.other {m : Int} {ttl : Nat} {lk : Str → Go μ} {tasks : GoMap Str (CTask μ)} (hk : KeysOk tasks) {u : Str} {ps : List Parcel} {times : List Nat}
    (h : Pending tasks u ps times) (e : CEv) (hp : ∀ t p, e = .parcel t p → p.note.calluuid ≠ u)
    (ht : ∀ now, e = .tick now → ps = [] ∨ ∀ t ∈ times, now ≤ t + ttl) :
    Pending (collectorStep m ttl lk tasks e).1 u ps times ∧ runsOf u (collectorStep m ttl lk tasks e).2 = [] ∧
      (collectorStep m ttl lk tasks e).1.lookup u = tasks.lookup u := by
  have key : (collectorStep m ttl lk tasks e).1.lookup u = tasks.lookup u ∧ runsOf u (collectorStep m ttl lk tasks e).2 = [] := by
    cases e with
    | tick now =>
      simp only [collectorStep]
      refine ⟨lookup_filter _ _ _ ?_, rfl⟩
      intro v hv
      rcases ht now rfl with h0 | h0
      · rw [h.none_ h0] at hv; cases hv
      · by_cases hps : ps = []
        · rw [h.none_ hps] at hv; cases hv
        · obtain ⟨w, hw, -, -, htm, -⟩ := h.some_ hps
          rw [hv] at hw; cases hw
          have := h0 _ htm
          simp only [decide_eq_true_eq]; omega
    | parcel now p =>
      have hne := hp now p rfl
      simp only [collectorStep, getOrCreateTask]
      cases hl : lk p.method with
      | error e => exact ⟨rfl, rfl⟩
      | ok mm =>
        simp only
        cases htt : tasks.lookup p.note.calluuid with
        | some v =>
          simp only
          split
          · exact ⟨GoMap.lookup_insert_ne _ _ (Ne.symm hne), rfl⟩
          · have hv : v.savedNote.calluuid = p.note.calluuid := hk _ _ htt
            refine ⟨?_, ?_⟩
            · rw [GoMap.lookup_erase_ne _ (by rw [hv]; exact Ne.symm hne)]
            · simp [runsOf, hv, hne]
        | none =>
          simp only
          split
          · refine ⟨?_, rfl⟩
            rw [GoMap.lookup_insert_ne _ _ (Ne.symm hne), GoMap.lookup_insert_ne _ _ (Ne.symm hne)]
          · refine ⟨?_, ?_⟩
            · rw [GoMap.lookup_erase_ne _ (Ne.symm hne), GoMap.lookup_insert_ne _ _ (Ne.symm hne)]
            · simp [runsOf, hne]
  exact ⟨⟨fun h0 => key.1.trans (h.none_ h0), fun h0 => by rw [key.1]; exact h.some_ h0⟩, key.2, key.1⟩

/-- A parcel of `u` with a known method. -/
theorem Pending.own {m : Nat} {ttl : Nat} {lk : Str → Go μ} {tasks : GoMap Str (CTask μ)} {u : Str} {ps : List Parcel} {times : List Nat}
    (h : Pending tasks u ps times) (now : Nat) (p : Parcel) (hp : p.note.calluuid = u) {mm : μ} (hl : lk p.method = .ok mm) :
    if ps.length + 1 < m then
      Pending (collectorStep m ttl lk tasks (.parcel now p)).1 u (ps ++ [p]) (now :: times) ∧ runsOf u (collectorStep m ttl lk tasks (.parcel now p)).2 = []
    else
      Pending (collectorStep m ttl lk tasks (.parcel now p)).1 u [] (now :: times) ∧
        ∃ t, (collectorStep m ttl lk tasks (.parcel now p)).2 = [.run t] ∧ t.parcels = ps ++ [p] ∧ t.savedNote.calluuid = u ∧
          (∃ q, (ps ++ [p]).head? = some q ∧ t.savedNote = q.note) ∧ (ps = [] → t.method = mm) ∧
          (ps ≠ [] → ∀ v, tasks.lookup u = some v → t.method = v.method) := by
  subst hp
  simp only [collectorStep, getOrCreateTask, hl]
  by_cases hps : ps = []
  · subst hps
    rw [h.none_ rfl]
    simp only [List.nil_append, List.length_cons, List.length_nil]
    by_cases hm : 0 + 1 < m
    · rw [if_pos hm, if_pos (by exact_mod_cast hm)]
      refine ⟨⟨fun h => by simp at h, fun _ => ⟨_, GoMap.lookup_insert_self _ _ _, rfl, rfl, by simp, p, rfl, rfl⟩⟩, rfl⟩
    · rw [if_neg hm, if_neg (by push_cast; omega)]
      refine ⟨⟨fun _ => by simp, fun h => absurd rfl h⟩, _, rfl, rfl, rfl, ⟨p, rfl, rfl⟩, fun _ => rfl, fun h => absurd rfl h⟩
  · obtain ⟨v, hv, hvp, hvu, hvt, q, hq, hvq⟩ := h.some_ hps
    rw [hv]
    simp only [hvp, List.length_append, List.length_cons, List.length_nil]
    have hhead : (ps ++ [p]).head? = some q := by
      cases ps with
      | nil => exact absurd rfl hps
      | cons a l => simpa using hq
    by_cases hm : ps.length + 1 < m
    · rw [if_pos hm, if_pos (by exact_mod_cast hm)]
      refine ⟨⟨fun h => by simp at h, fun _ => ⟨_, GoMap.lookup_insert_self _ _ _, rfl, hvu, by simp [hvt], q, hhead, hvq⟩⟩, rfl⟩
    · rw [if_neg hm, if_neg (by push_cast; omega)]
      refine ⟨⟨fun _ => by rw [hvu]; simp, fun h => absurd rfl h⟩, _, rfl, rfl, hvu, ⟨q, hhead, hvq⟩, fun h => absurd h hps, ?_⟩
      intro _ w hw; injection hw with hw; rw [hw]

theorem groups_snoc_lt (m : Nat) (hm : 0 < m) (ps : List Parcel) (p : Parcel) (h : ps.length % m + 1 < m) :
    groups m (ps ++ [p]) = groups m ps ∧ (ps ++ [p]).drop ((ps ++ [p]).length / m * m) = ps.drop (ps.length / m * m) ++ [p] ∧
      (ps ++ [p]).length % m = ps.length % m + 1 := by
  have hd : (ps.length + 1) / m = ps.length / m := by
    have := Nat.div_add_mod ps.length m
    rw [Nat.div_eq_iff hm]
    constructor
    · have : ps.length / m * m = m * (ps.length / m) := Nat.mul_comm _ _
      omega
    · have : ps.length / m * m = m * (ps.length / m) := Nat.mul_comm _ _
      omega
  have hle : ps.length / m * m ≤ ps.length := Nat.div_mul_le_self _ _
  refine ⟨?_, ?_, ?_⟩
  · unfold groups
    simp only [List.length_append, List.length_cons, List.length_nil, Nat.zero_add, hd]
    apply List.map_congr_left
    intro j hj
    have hj := List.mem_range.1 hj
    have : j * m + m ≤ ps.length / m * m := by
      calc j * m + m = (j + 1) * m := by ring
        _ ≤ _ := Nat.mul_le_mul_right _ hj
    rw [List.drop_append_of_le_length (by omega), List.take_append_of_le_length (by rw [List.length_drop]; omega)]
  · simp only [List.length_append, List.length_cons, List.length_nil, Nat.zero_add, hd]
    rw [List.drop_append_of_le_length hle]
  · simp only [List.length_append, List.length_cons, List.length_nil, Nat.zero_add]
    rw [Nat.add_mod, Nat.mod_eq_of_lt (show ps.length % m + 1 % m < m by
      rcases Nat.lt_or_ge 1 m with h1 | h1
      · rw [Nat.mod_eq_of_lt h1]; exact h
      · omega)]
    rw [Nat.mod_eq_of_lt (show 1 < m by omega)]

theorem groups_snoc_eq (m : Nat) (hm : 0 < m) (ps : List Parcel) (p : Parcel) (h : ¬ ps.length % m + 1 < m) :
    groups m (ps ++ [p]) = groups m ps ++ [ps.drop (ps.length / m * m) ++ [p]] ∧ (ps ++ [p]).drop ((ps ++ [p]).length / m * m) = [] ∧
      (ps ++ [p]).length % m = 0 := by
  have hlt := Nat.mod_lt ps.length hm
  have hmod : ps.length % m + 1 = m := by omega
  have hdm := Nat.div_add_mod ps.length m
  have hc : ps.length / m * m = m * (ps.length / m) := Nat.mul_comm _ _
  have hlen : ps.length + 1 = (ps.length / m + 1) * m := by rw [Nat.add_mul, one_mul]; omega
  have hd : (ps.length + 1) / m = ps.length / m + 1 := by rw [hlen, Nat.mul_div_cancel _ hm]
  refine ⟨?_, ?_, ?_⟩
  · unfold groups
    simp only [List.length_append, List.length_cons, List.length_nil, Nat.zero_add, hd, List.range_succ, List.map_append, List.map_cons, List.map_nil]
    congr 1
    · apply List.map_congr_left
      intro j hj
      have hj := List.mem_range.1 hj
      have : j * m + m ≤ ps.length / m * m := by
        calc j * m + m = (j + 1) * m := by ring
          _ ≤ _ := Nat.mul_le_mul_right _ hj
      rw [List.drop_append_of_le_length (by omega), List.take_append_of_le_length (by rw [List.length_drop]; omega)]
    · rw [List.drop_append_of_le_length (by omega), List.take_of_length_le]
      rw [List.length_append, List.length_drop]; simp; omega
  · apply List.drop_eq_nil_of_le
    simp only [List.length_append, List.length_cons, List.length_nil, Nat.zero_add, hd]
    omega
  · simp only [List.length_append, List.length_cons, List.length_nil, Nat.zero_add]
    rw [hlen, Nat.mul_mod_left]

def timesOf (u : Str) (evs : List CEv) : List Nat :=
  evs.filterMap fun
    | .parcel t p => if p.note.calluuid = u then some t else none
    | .tick _ => none

theorem mem_timesOf {u : Str} {evs : List CEv} {t : Nat} : t ∈ timesOf u evs ↔ ∃ p, CEv.parcel t p ∈ evs ∧ p.note.calluuid = u := by
  unfold timesOf
  rw [List.mem_filterMap]
  constructor
  · rintro ⟨e, he, h⟩
    cases e with
    | tick _ => simp at h
    | parcel t' p =>
      simp only [Option.ite_none_right_eq_some, Option.some.injEq] at h
      obtain ⟨h1, rfl⟩ := h
      exact ⟨p, he, h1⟩
  · rintro ⟨p, hp, hu⟩
    exact ⟨_, hp, by simp [hu]⟩

theorem Pending.mono {tasks : GoMap Str (CTask μ)} {u : Str} {ps : List Parcel} {a b : List Nat} (h : Pending tasks u ps a) (hab : ∀ t ∈ a, t ∈ b) :
    Pending tasks u ps b :=
  ⟨h.none_, fun h0 => by obtain ⟨v, h1, h2, h3, h4, h5⟩ := h.some_ h0; exact ⟨v, h1, h2, h3, hab _ h4, h5⟩⟩

/-- The method of the task started for a group is the one its first parcel asks for. -/
def FirstMethod (lk : Str → Go μ) (ps : List Parcel) (m : μ) : Prop := ∃ q, ps.head? = some q ∧ lk q.method = .ok m

theorem collector_inv (m : Nat) (hm : 0 < m) (ttl : Nat) (lk : Str → Go μ) (u : Str) (evs : List CEv) (ht : Timely m ttl u evs)
    (hl : ∀ p ∈ callParcels u evs, ∃ mm, lk p.method = .ok mm) :
    KeysOk (collectorRun m ttl lk [] evs).1 ∧ GoMap.NodupKeys (collectorRun m ttl lk [] evs).1 ∧
      Pending (collectorRun m ttl lk [] evs).1 u ((callParcels u evs).drop ((callParcels u evs).length / m * m)) (timesOf u evs) ∧
      (∀ v, (collectorRun m ttl lk [] evs).1.lookup u = some v → FirstMethod lk v.parcels v.method) ∧
      List.Forall₂ (fun (t : CTask μ) g => t.parcels = g ∧ t.savedNote.calluuid = u ∧ FirstMethod lk g t.method ∧ ∃ q, g.head? = some q ∧ t.savedNote = q.note)
        (runsOf u (collectorRun m ttl lk [] evs).2) (groups m (callParcels u evs)) := by
  induction evs using List.reverseRecOn with
  | nil =>
    refine ⟨fun k v h => by simp [collectorRun] at h, by simp [collectorRun, GoMap.NodupKeys], ⟨fun _ => rfl, fun h => absurd (by simp [callParcels]) h⟩, ?_, ?_⟩
    · intro v h; simp [collectorRun] at h
    · simp [collectorRun, runsOf, groups, callParcels]
  | append_singleton evs e ih =>
    obtain ⟨i1, i2, i3, i4, i5⟩ := ih (fun pre now post h => ht pre now (post ++ [e]) (by rw [h]; simp))
      (fun p hp => hl p (by rw [callParcels_append]; exact List.mem_append_left _ hp))
    have hrun : collectorRun m ttl lk [] (evs ++ [e]) = ((collectorStep m ttl lk (collectorRun m ttl lk [] evs).1 e).1,
        (collectorRun m ttl lk [] evs).2 ++ (collectorStep m ttl lk (collectorRun m ttl lk [] evs).1 e).2) := by
      rw [collectorRun_append]; simp [collectorRun]
    rw [hrun]
    simp only
    have hkn := KeysOk.step (m := m) (ttl := ttl) (lk := lk) i2 i1 e
    refine ⟨hkn.1, hkn.2, ?_⟩
    have hdroplen : ((callParcels u evs).drop ((callParcels u evs).length / m * m)).length = (callParcels u evs).length % m := by
      rw [List.length_drop]
      have := Nat.div_add_mod (callParcels u evs).length m
      have hc : (callParcels u evs).length / m * m = m * ((callParcels u evs).length / m) := Nat.mul_comm _ _
      omega
    rw [runsOf_append]
    by_cases hown : ∃ t p, e = .parcel t p ∧ p.note.calluuid = u
    · obtain ⟨now, p, rfl, hpu⟩ := hown
      have hcp : callParcels u (evs ++ [.parcel now p]) = callParcels u evs ++ [p] := by rw [callParcels_append]; simp [callParcels, hpu]
      obtain ⟨mm, hmm⟩ := hl p (by rw [hcp]; simp)
      have hto : timesOf u (evs ++ [.parcel now p]) = timesOf u evs ++ [now] := by simp [timesOf, hpu]
      have := i3.own (m := m) (ttl := ttl) now p hpu hmm
      rw [hdroplen] at this
      rw [hcp]
      by_cases hlt : (callParcels u evs).length % m + 1 < m
      · rw [if_pos hlt] at this
        obtain ⟨g1, g2, g3⟩ := groups_snoc_lt m hm (callParcels u evs) p hlt
        rw [g1, g2, this.2, List.append_nil]
        refine ⟨this.1.mono (by intro t h; rw [hto]; simp at h ⊢; tauto), ?_, i5⟩
        intro v hv
        obtain ⟨w, hw, hwp, -, -, -⟩ := this.1.some_ (by simp)
        rw [hv] at hw; cases hw
        -- the method was chosen when the entry was made
        by_cases h0 : (callParcels u evs).drop ((callParcels u evs).length / m * m) = []
        · rw [h0] at hwp
          have hv' : v.method = mm := by
            have hnone := i3.none_ h0
            simp only [collectorStep, getOrCreateTask, hmm, hpu, hnone] at hv
            rw [if_pos (by
              have := hdroplen; rw [h0] at this; simp at this
              simp only [List.nil_append, List.length_cons, List.length_nil]; push_cast; omega)] at hv
            rw [GoMap.lookup_insert_self] at hv
            injection hv with hv; rw [← hv]
          rw [hwp, hv']; exact ⟨p, rfl, hmm⟩
        · obtain ⟨w, hw, hwp', hwu, -, -⟩ := i3.some_ h0
          have hf := i4 w hw
          simp only [collectorStep, getOrCreateTask, hmm, hpu, hw] at hv
          rw [if_pos (by
              rw [List.length_append, hwp', hdroplen]; simp only [List.length_cons, List.length_nil]; push_cast; omega)] at hv
          rw [GoMap.lookup_insert_self] at hv
          injection hv with hv
          subst hv
          obtain ⟨q, hq, hq2⟩ := hf
          refine ⟨q, ?_, hq2⟩
          simp only
          rw [List.head?_append, hq]; rfl
      · rw [if_neg hlt] at this
        obtain ⟨g1, g2, g3⟩ := groups_snoc_eq m hm (callParcels u evs) p hlt
        obtain ⟨h1, t, ht1, ht2, ht3, ⟨q, hq, htq⟩, ht4, ht5⟩ := this
        rw [g1, g2, ht1]
        refine ⟨h1.mono (by intro t h; rw [hto]; simp at h ⊢; tauto), ?_, ?_⟩
        · intro v hv; rw [h1.none_ rfl] at hv; cases hv
        · have hr : runsOf u [COut.run t] = [t] := by simp [runsOf, ht3]
          rw [hr]
          refine List.rel_append i5 (.cons ⟨ht2, ht3, ?_, q, hq, htq⟩ .nil)
          by_cases h0 : (callParcels u evs).drop ((callParcels u evs).length / m * m) = []
          · rw [ht4 h0, h0]; exact ⟨p, rfl, hmm⟩
          · obtain ⟨w, hw, hwp', hwu, -, -⟩ := i3.some_ h0
            have hf := i4 w hw
            rw [ht5 h0 w hw]
            obtain ⟨q', hq', hq2⟩ := hf
            refine ⟨q', ?_, hq2⟩
            rw [List.head?_append, ← hwp', hq']; rfl
    · have hcp : callParcels u (evs ++ [e]) = callParcels u evs := by
        rw [callParcels_append]
        cases e with
        | tick _ => simp [callParcels]
        | parcel t p =>
          have : p.note.calluuid ≠ u := fun h => hown ⟨t, p, rfl, h⟩
          simp [callParcels, this]
      have hto : timesOf u (evs ++ [e]) = timesOf u evs := by
        cases e with
        | tick _ => simp [timesOf]
        | parcel t p =>
          have : p.note.calluuid ≠ u := fun h => hown ⟨t, p, rfl, h⟩
          simp [timesOf, this]
      have := i3.other (m := m) (ttl := ttl) (lk := lk) i1 e (fun t p he h => hown ⟨t, p, he, h⟩) (by
        rintro now rfl
        rcases ht evs now [] (by simp) with h | h
        · left; apply List.drop_eq_nil_of_le
          have h2 := Nat.div_add_mod (callParcels u evs).length m
          have hc : (callParcels u evs).length / m * m = m * ((callParcels u evs).length / m) := Nat.mul_comm _ _
          omega
        · right; intro t htm
          obtain ⟨p, hp, hpu⟩ := mem_timesOf.1 htm
          exact h t p hp hpu)
      rw [hcp, hto, this.2.1, List.append_nil]
      exact ⟨this.1, fun v hv => i4 v (by rw [← this.2.2]; exact hv), i5⟩

end Resmix.Rrpc
