import Verif.Props.Collector
set_option autoImplicit false
/-
The collector, whatever its ticks drop: tasks are made of different parcels that arrived.
-/
namespace Resmix.Rrpc
open Resmix.Ecc
variable {μ : Type}

/-- A task for call `u` made of parcels that arrived, in order. -/
structure TaskOf (lk : Str → Go μ) (cp : List Parcel) (v : CTask μ) : Prop where
  sub : v.parcels.Sublist cp
  first : FirstMethod lk v.parcels v.method
  note : ∃ q, v.parcels.head? = some q ∧ v.savedNote = q.note

theorem TaskOf.mono {lk : Str → Go μ} {a b : List Parcel} {v : CTask μ} (h : TaskOf lk a v) (hab : a.Sublist b) : TaskOf lk b v :=
  ⟨h.sub.trans hab, h.first, h.note⟩

theorem TaskOf.snoc {lk : Str → Go μ} {cp : List Parcel} {v : CTask μ} (h : TaskOf lk cp v) (p : Parcel) :
    TaskOf lk (cp ++ [p]) { v with parcels := v.parcels ++ [p] } := by
  obtain ⟨h1, ⟨q, hq, hm⟩, q', hq', hn⟩ := h
  have hh : (v.parcels ++ [p]).head? = v.parcels.head? := by
    cases hv : v.parcels with
    | nil => rw [hv] at hq; cases hq
    | cons a l => rfl
  exact ⟨h1.append (List.Sublist.refl _), ⟨q, by rw [hh]; exact hq, hm⟩, q', by rw [hh]; exact hq', hn⟩

/-- How many parcels wait for call `u`. -/
def waiting (tasks : GoMap Str (CTask μ)) (u : Str) : Nat := match tasks.lookup u with | some v => v.parcels.length | none => 0

theorem collector_any (m : Nat) (hm : 0 < m) (ttl : Nat) (lk : Str → Go μ) (u : Str) (evs : List CEv) :
    KeysOk (collectorRun m ttl lk [] evs).1 ∧ GoMap.NodupKeys (collectorRun m ttl lk [] evs).1 ∧
      (∀ v, (collectorRun m ttl lk [] evs).1.lookup u = some v → TaskOf lk (callParcels u evs) v ∧ v.parcels.length < m) ∧
      (∀ t ∈ runsOf u (collectorRun m ttl lk [] evs).2, TaskOf lk (callParcels u evs) t ∧ t.parcels.length = m) ∧
      waiting (collectorRun m ttl lk [] evs).1 u + m * (runsOf u (collectorRun m ttl lk [] evs).2).length ≤ (callParcels u evs).length := by
  induction evs using List.reverseRecOn with
  | nil =>
    refine ⟨fun k v h => by simp [collectorRun] at h, by simp [collectorRun, GoMap.NodupKeys], ?_, ?_, ?_⟩
    · intro v h; simp [collectorRun] at h
    · intro t h; simp [collectorRun, runsOf] at h
    · simp [collectorRun, runsOf, waiting]
  | append_singleton evs e ih =>
    obtain ⟨i1, i2, i3, i4, i5⟩ := ih
    have hrun : collectorRun m ttl lk [] (evs ++ [e]) = ((collectorStep m ttl lk (collectorRun m ttl lk [] evs).1 e).1,
        (collectorRun m ttl lk [] evs).2 ++ (collectorStep m ttl lk (collectorRun m ttl lk [] evs).1 e).2) := by
      rw [collectorRun_append]; simp [collectorRun]
    rw [hrun]
    simp only
    have hkn := KeysOk.step (m := m) (ttl := ttl) (lk := lk) i2 i1 e
    refine ⟨hkn.1, hkn.2, ?_⟩
    rw [runsOf_append, callParcels_append]
    generalize collectorRun m ttl lk [] evs = R at *
    obtain ⟨tasks, outs⟩ := R
    simp only at *
    clear hrun hkn
    cases e with
    | tick now =>
      have hc : callParcels u [CEv.tick now] = [] := rfl
      simp only [collectorStep, hc, List.append_nil, show runsOf u ([] : List (COut μ)) = [] from rfl]
      have hsub : ∀ v, GoMap.lookup (List.filter (fun e : Str × CTask μ => decide (now - e.2.startTime ≤ ttl)) tasks) u = some v → tasks.lookup u = some v := by
        intro v hv
        have : (u, v) ∈ tasks.filter fun e => decide (now - e.2.startTime ≤ ttl) := GoMap.lookup_mem hv
        exact GoMap.mem_lookup i2 (List.mem_filter.1 this).1
      refine ⟨fun v hv => i3 v (hsub v hv), i4, ?_⟩
      refine Nat.le_trans (Nat.add_le_add_right ?_ _) i5
      unfold waiting
      cases hv : GoMap.lookup (List.filter (fun e : Str × CTask μ => decide (now - e.2.startTime ≤ ttl)) tasks) u with
      | none => exact Nat.zero_le _
      | some v => rw [hsub v hv]
    | parcel now p =>
      by_cases hu : p.note.calluuid = u
      · have hc : callParcels u [CEv.parcel now p] = [p] := by simp [callParcels, hu]
        rw [hc]
        have hmono : (callParcels u evs).Sublist (callParcels u evs ++ [p]) := List.sublist_append_left _ _
        simp only [collectorStep, getOrCreateTask]
        cases hl : lk p.method with
        | error er =>
          simp only [show runsOf u [(COut.refuse p.relayIndex er : COut μ)] = [] from rfl, List.append_nil, List.length_append, List.length_cons, List.length_nil]
          exact ⟨fun v hv => ⟨(i3 v hv).1.mono hmono, (i3 v hv).2⟩, fun t ht => ⟨(i4 t ht).1.mono hmono, (i4 t ht).2⟩, by omega⟩
        | ok mm =>
          simp only [hu]
          cases ht : tasks.lookup u with
          | some v =>
            simp only
            have hv := i3 v ht
            have hw : waiting tasks u = v.parcels.length := by unfold waiting; rw [ht]
            have hsn : v.savedNote.calluuid = u := i1 u v ht
            have hT := hv.1.snoc p
            split
            · next hlt =>
              simp only [List.length_append, List.length_cons, List.length_nil] at hlt
              simp only [show runsOf u ([] : List (COut μ)) = [] from rfl, List.append_nil]
              refine ⟨?_, fun t ht => ⟨(i4 t ht).1.mono hmono, (i4 t ht).2⟩, ?_⟩
              · intro w hw'
                rw [GoMap.lookup_insert_self] at hw'
                injection hw' with hw'
                subst hw'
                exact ⟨hT, by simp only [List.length_append, List.length_cons, List.length_nil]; omega⟩
              · unfold waiting
                rw [GoMap.lookup_insert_self]
                simp only [List.length_append, List.length_cons, List.length_nil]
                omega
            · next hlt =>
              simp only [List.length_append, List.length_cons, List.length_nil] at hlt
              have hro : runsOf u [(COut.run { v with parcels := v.parcels ++ [p] } : COut μ)] = [{ v with parcels := v.parcels ++ [p] }] := by
                simp [runsOf, hsn]
              rw [hro]
              refine ⟨?_, ?_, ?_⟩
              · intro w hw'; rw [hsn, GoMap.lookup_erase_self] at hw'; cases hw'
              · intro t htm
                rcases List.mem_append.1 htm with htm | htm
                · exact ⟨(i4 t htm).1.mono hmono, (i4 t htm).2⟩
                · rw [List.mem_singleton.1 htm]
                  exact ⟨hT, by simp only [List.length_append, List.length_cons, List.length_nil]; omega⟩
              · unfold waiting
                rw [hsn, GoMap.lookup_erase_self]
                simp only [List.length_append, List.length_cons, List.length_nil]
                have : m * ((runsOf u outs).length + (0 + 1)) = m * (runsOf u outs).length + m := Nat.mul_succ _ _
                omega
          | none =>
            simp only [List.nil_append]
            have hw : waiting tasks u = 0 := by unfold waiting; rw [ht]
            have hT : TaskOf lk (callParcels u evs ++ [p]) ({ parcels := [p], savedNote := p.note, startTime := now, method := mm } : CTask μ) :=
              ⟨List.sublist_append_right _ _, ⟨p, rfl, hl⟩, p, rfl, rfl⟩
            split
            · next hlt =>
              simp only [List.length_cons, List.length_nil] at hlt
              simp only [show runsOf u ([] : List (COut μ)) = [] from rfl, List.append_nil]
              refine ⟨?_, fun t ht => ⟨(i4 t ht).1.mono hmono, (i4 t ht).2⟩, ?_⟩
              · intro w hw'
                rw [GoMap.lookup_insert_self] at hw'
                injection hw' with hw'
                subst hw'
                exact ⟨hT, by simp only [List.length_cons, List.length_nil]; omega⟩
              · unfold waiting
                rw [GoMap.lookup_insert_self]
                simp only [List.length_append, List.length_cons, List.length_nil]
                omega
            · next hlt =>
              simp only [List.length_cons, List.length_nil] at hlt
              have hro : runsOf u [(COut.run ({ parcels := [p], savedNote := p.note, startTime := now, method := mm } : CTask μ))] =
                  [{ parcels := [p], savedNote := p.note, startTime := now, method := mm }] := by
                simp [runsOf, hu]
              rw [hro]
              refine ⟨?_, ?_, ?_⟩
              · intro w hw'; rw [hu, GoMap.lookup_erase_self] at hw'; cases hw'
              · intro t htm
                rcases List.mem_append.1 htm with htm | htm
                · exact ⟨(i4 t htm).1.mono hmono, (i4 t htm).2⟩
                · rw [List.mem_singleton.1 htm]
                  exact ⟨hT, by simp only [List.length_cons, List.length_nil]; omega⟩
              · unfold waiting
                rw [hu, GoMap.lookup_erase_self]
                simp only [List.length_append, List.length_cons, List.length_nil]
                have : m * ((runsOf u outs).length + (0 + 1)) = m * (runsOf u outs).length + m := Nat.mul_succ _ _
                omega
      · have hc : callParcels u [CEv.parcel now p] = [] := by simp [callParcels, hu]
        rw [hc, List.append_nil]
        have key : (collectorStep m ttl lk tasks (.parcel now p)).1.lookup u = tasks.lookup u ∧ runsOf u (collectorStep m ttl lk tasks (.parcel now p)).2 = [] := by
          simp only [collectorStep, getOrCreateTask]
          cases hl : lk p.method with
          | error e => exact ⟨rfl, rfl⟩
          | ok mm =>
            simp only
            cases htt : tasks.lookup p.note.calluuid with
            | some v =>
              simp only
              split
              · exact ⟨GoMap.lookup_insert_ne _ _ (Ne.symm hu), rfl⟩
              · have hv : v.savedNote.calluuid = p.note.calluuid := i1 _ _ htt
                refine ⟨?_, ?_⟩
                · rw [GoMap.lookup_erase_ne _ (by rw [hv]; exact Ne.symm hu)]
                · simp [runsOf, hv, hu]
            | none =>
              simp only
              split
              · refine ⟨?_, rfl⟩
                rw [GoMap.lookup_insert_ne _ _ (Ne.symm hu), GoMap.lookup_insert_ne _ _ (Ne.symm hu)]
              · refine ⟨?_, ?_⟩
                · rw [GoMap.lookup_erase_ne _ (Ne.symm hu), GoMap.lookup_insert_ne _ _ (Ne.symm hu)]
                · simp [runsOf, hu]
        rw [key.2, List.append_nil]
        refine ⟨fun v hv => i3 v (key.1 ▸ hv), i4, ?_⟩
        unfold waiting at i5 ⊢
        rw [key.1]; exact i5

end Resmix.Rrpc
