import Verif.Proofs.CallB
import Verif.Proofs.EccCode
set_option autoImplicit false
/-
Which parcels the tasks of one call are made of, whatever arrives; how many relays a task needs whose payload can be reconstructed.
-/
namespace Resmix.Rrpc
open Resmix.Ecc
variable {μ : Type}

/-- The parcels that wait for call `u`. -/
def waitingParcels (tasks : GoMap Str (CTask μ)) (u : Str) : List Parcel := match GoMap.lookup tasks u with | some v => v.parcels | none => []

/-- No parcel is used for two tasks: the tasks' parcels, one task after the other, are among those that arrived, in their order. -/
theorem collector_flat (m : Nat) (hm : 0 < m) (ttl : Nat) (lk : Str → Go μ) (u : Str) (evs : List CEv) :
    (((runsOf u (collectorRun m ttl lk [] evs).2).map (·.parcels)).flatten ++ waitingParcels (collectorRun m ttl lk [] evs).1 u).Sublist (callParcels u evs) := by
  induction evs using List.reverseRecOn with
  | nil => simp [collectorRun, runsOf, waitingParcels, callParcels]
  | append_singleton evs e ih =>
    obtain ⟨i1, i2, -⟩ := collector_any m hm ttl lk u evs
    have hrun : collectorRun m ttl lk [] (evs ++ [e]) = ((collectorStep m ttl lk (collectorRun m ttl lk [] evs).1 e).1,
        (collectorRun m ttl lk [] evs).2 ++ (collectorStep m ttl lk (collectorRun m ttl lk [] evs).1 e).2) := by
      rw [collectorRun_append]; simp [collectorRun]
    rw [hrun]
    simp only
    rw [runsOf_append, callParcels_append, List.map_append, List.flatten_append]
    generalize collectorRun m ttl lk [] evs = R at *
    obtain ⟨tasks, outs⟩ := R
    simp only at *
    clear hrun
    cases e with
    | tick now =>
      have hc : callParcels u [CEv.tick now] = [] := rfl
      simp only [collectorStep, hc, List.append_nil, show runsOf u ([] : List (COut μ)) = [] from rfl, List.map_nil, List.flatten_nil]
      refine List.Sublist.trans ?_ ih
      refine List.Sublist.append (List.Sublist.refl _) ?_
      unfold waitingParcels
      cases hv : GoMap.lookup (List.filter (fun e : Str × CTask μ => decide (now - e.2.startTime ≤ ttl)) tasks) u with
      | none => exact List.nil_sublist _
      | some v =>
        have : (u, v) ∈ tasks.filter fun e => decide (now - e.2.startTime ≤ ttl) := GoMap.lookup_mem hv
        rw [GoMap.mem_lookup i2 (List.mem_filter.1 this).1]
    | parcel now p =>
      by_cases hu : p.note.calluuid = u
      · have hc : callParcels u [CEv.parcel now p] = [p] := by simp [callParcels, hu]
        rw [hc]
        simp only [collectorStep, getOrCreateTask]
        cases hl : lk p.method with
        | error er =>
          simp only [show runsOf u [(COut.refuse p.relayIndex er : COut μ)] = [] from rfl, List.append_nil, List.map_nil, List.flatten_nil]
          exact ih.trans (List.sublist_append_left _ _)
        | ok mm =>
          simp only [hu]
          cases ht : GoMap.lookup tasks u with
          | some v =>
            simp only
            have hsn : v.savedNote.calluuid = u := i1 u v ht
            have hw : waitingParcels tasks u = v.parcels := by unfold waitingParcels; rw [ht]
            rw [hw] at ih
            split
            · simp only [show runsOf u ([] : List (COut μ)) = [] from rfl, List.append_nil, List.map_nil, List.flatten_nil]
              unfold waitingParcels
              rw [GoMap.lookup_insert_self]
              simp only
              rw [← List.append_assoc]
              exact ih.append (List.Sublist.refl _)
            · have hro : runsOf u [(COut.run { v with parcels := v.parcels ++ [p] } : COut μ)] = [{ v with parcels := v.parcels ++ [p] }] := by
                simp [runsOf, hsn]
              rw [hro]
              unfold waitingParcels
              rw [hsn, GoMap.lookup_erase_self]
              simp only [List.map_cons, List.map_nil, List.flatten_cons, List.flatten_nil, List.append_nil]
              rw [← List.append_assoc]
              exact ih.append (List.Sublist.refl _)
          | none =>
            simp only [List.nil_append]
            have ih' : (((runsOf u outs).map (·.parcels)).flatten).Sublist (callParcels u evs) := (List.sublist_append_left _ _).trans ih
            split
            · simp only [show runsOf u ([] : List (COut μ)) = [] from rfl, List.append_nil, List.map_nil, List.flatten_nil]
              unfold waitingParcels
              rw [GoMap.lookup_insert_self]
              exact ih'.append (List.Sublist.refl _)
            · have hro : runsOf u [(COut.run ({ parcels := [p], savedNote := p.note, startTime := now, method := mm } : CTask μ))] =
                  [{ parcels := [p], savedNote := p.note, startTime := now, method := mm }] := by
                simp [runsOf, hu]
              rw [hro]
              unfold waitingParcels
              rw [hu, GoMap.lookup_erase_self]
              simp only [List.map_cons, List.map_nil, List.flatten_cons, List.flatten_nil, List.append_nil]
              exact ih'.append (List.Sublist.refl _)
      · have hc : callParcels u [CEv.parcel now p] = [] := by simp [callParcels, hu]
        rw [hc, List.append_nil]
        have key : GoMap.lookup (collectorStep m ttl lk tasks (.parcel now p)).1 u = GoMap.lookup tasks u ∧ runsOf u (collectorStep m ttl lk tasks (.parcel now p)).2 = [] := by
          simp only [collectorStep, getOrCreateTask]
          cases hl : lk p.method with
          | error e => exact ⟨rfl, rfl⟩
          | ok mm =>
            simp only
            cases htt : GoMap.lookup tasks p.note.calluuid with
            | some v =>
              simp only
              split
              · exact ⟨GoMap.lookup_insert_ne _ _ (Ne.symm hu), rfl⟩
              · have hv : v.savedNote.calluuid = p.note.calluuid := i1 _ _ htt
                refine ⟨?_, ?_⟩
                · rw [GoMap.lookup_erase_ne _ (by rw [hv]; exact Ne.symm hu)]
                · simp [runsOf, hv, hu]
            | none =>
              simp only
              split
              · refine ⟨?_, rfl⟩
                rw [GoMap.lookup_insert_ne _ _ (Ne.symm hu), GoMap.lookup_insert_ne _ _ (Ne.symm hu)]
              · refine ⟨?_, ?_⟩
                · rw [GoMap.lookup_erase_ne _ (Ne.symm hu), GoMap.lookup_insert_ne _ _ (Ne.symm hu)]
                · simp [runsOf, hu]
        rw [key.2]
        unfold waitingParcels at ih ⊢
        rw [key.1]
        simpa using ih

/-- The positions filled in a row are those of parcels. -/
def RowsFrom (idx : List Int) (rows : List (List Bytes)) : Prop := ∀ row ∈ rows, ∀ (j : Nat) (s : Bytes), row[j]? = some s → s ≠ [] → (j : Int) ∈ idx

theorem mapM_zip_ok {α β : Type} {f : α → Go β} {l : List α} {r : List β} (h : l.mapM f = .ok r) : List.Forall₂ (fun a b => f a = .ok b) l r := by
  induction l generalizing r with
  | nil => simp [pure, Except.pure] at h; subst h; exact .nil
  | cons a l ih =>
    rw [List.mapM_cons] at h
    cases hf : f a with
    | error e => rw [hf] at h; cases h
    | ok b =>
      rw [hf] at h
      cases hl : l.mapM f with
      | error e => rw [hl] at h; cases h
      | ok bs =>
        rw [hl] at h
        simp only [bind, Except.bind, pure, Except.pure, Except.ok.injEq] at h
        subst h
        exact .cons hf (ih hl)

theorem RowsFrom.put {idx : List Int} {rows rows' : List (List Bytes)} (h : RowsFrom idx rows) {i : Int} {payload : List Bytes} (hp : putIntoShards rows i payload = .ok rows') :
    RowsFrom (i :: idx) rows' := by
  have hf := mapM_zip_ok hp
  intro row' hr' j s hj hs
  obtain ⟨c, hc⟩ := List.getElem?_of_mem hr'
  obtain ⟨hlen, hall⟩ := List.forall₂_iff_get.1 hf
  obtain ⟨hc1, hc2⟩ := List.getElem?_eq_some_iff.1 hc
  have hx := hall c (by omega) hc1
  simp only [List.get_eq_getElem, hc2, List.getElem_zipIdx] at hx
  cases hg : goIndex payload (0 + c) with
  | error e => rw [hg] at hx; cases hx
  | ok p =>
    rw [hg] at hx
    simp only [bind, Except.bind] at hx
    split at hx
    · cases hx
    · next hi =>
      unfold goSet at hx
      split at hx
      · next hlt =>
        injection hx with hx
        subst hx
        by_cases hij : i.toNat = j
        · have : i = (j : Int) := by omega
          rw [this]; exact List.mem_cons_self ..
        · rw [List.getElem?_set_ne hij] at hj
          exact List.mem_cons_of_mem _ (h _ (List.getElem_mem _) j s hj hs)
      · cases hx

theorem fill_rows {C : RS} {ps : List (Int × List Bytes)} {shards : List (List Bytes)} (h : fillShards C ps = .ok shards) : RowsFrom (ps.map (·.1)) shards := by
  have key : ∀ (ps : List (Int × List Bytes)) (idx : List Int) (sh sh' : List (List Bytes)), RowsFrom idx sh →
      ps.foldlM (fun sh p => putIntoShards sh p.1 p.2) sh = .ok sh' → RowsFrom (ps.map (·.1) ++ idx) sh' := by
    intro ps
    induction ps with
    | nil => intro idx sh sh' h1 h2; simp [pure, Except.pure] at h2; subst h2; simpa using h1
    | cons p ps ih =>
      intro idx sh sh' h1 h2
      rw [List.foldlM_cons] at h2
      cases hp : putIntoShards sh p.1 p.2 with
      | error e => rw [hp] at h2; cases h2
      | ok s1 =>
        rw [hp] at h2
        have := ih (p.1 :: idx) s1 sh' (h1.put hp) h2
        intro row hr j s hj hs
        have := this row hr j s hj hs
        simp only [List.map_cons, List.mem_append, List.mem_cons] at this ⊢
        tauto
  have h0 : RowsFrom [] (newShards C) := by
    intro row hr j s hj hs
    unfold newShards at hr
    rw [List.eq_of_mem_replicate hr] at hj
    have := List.mem_of_getElem? hj
    exact absurd (List.eq_of_mem_replicate this) hs
  have := key ps [] _ _ h0 h
  simpa using this

theorem rows_length {C : RS} {ps : List (Int × List Bytes)} {shards : List (List Bytes)} (h : fillShards C ps = .ok shards) : shards.length = numChunks := by
  have key : ∀ (ps : List (Int × List Bytes)) (sh sh' : List (List Bytes)),
      ps.foldlM (fun sh p => putIntoShards sh p.1 p.2) sh = .ok sh' → sh'.length = sh.length := by
    intro ps
    induction ps with
    | nil => intro sh sh' h2; simp [pure, Except.pure] at h2; rw [h2]
    | cons p ps ih =>
      intro sh sh' h2
      rw [List.foldlM_cons] at h2
      cases hp : putIntoShards sh p.1 p.2 with
      | error e => rw [hp] at h2; cases h2
      | ok s1 =>
        rw [hp] at h2
        rw [ih s1 sh' h2]
        have := (mapM_zip_ok hp).length_eq
        simpa using this.symm
  rw [key ps _ _ h]; simp [newShards]

/-- A row of which enough shards are present for the decoder comes from at least `k` different relays. -/
theorem row_distinct {C : RS} {idx : List Int} {rows : List (List Bytes)} (h : RowsFrom idx rows) {row : List Bytes} (hr : row ∈ rows) {d : List Bytes}
    (hok : reconstruct C row = .ok d) : C.k ≤ idx.toFinset.card := by
  have hcount : C.k ≤ row.countP (· ≠ []) := by
    unfold reconstruct at hok
    split at hok
    · cases hok
    · split at hok
      · cases hok
      · split at hok
        · cases hok
        · split at hok
          · omega
          · split at hok
            · cases hok
            · omega
  rw [← card_present] at hcount
  refine hcount.trans ?_
  refine Finset.card_le_card_of_injOn (fun j => (j : Int)) ?_ (fun a _ b _ hab => by simpa using hab)
  intro j hj
  unfold present at hj
  simp only [Finset.coe_filter, Set.mem_setOf_eq, Finset.mem_range] at hj
  simp only [Finset.mem_coe, List.mem_toFinset]
  refine h row hr j (row.getD j []) ?_ hj.2
  rw [List.getD_eq_getElem?_getD, List.getElem?_eq_getElem hj.1]; rfl

/-- Whatever the parcels are: if their payload can be reconstructed, they come from at least `k` different relays. -/
theorem reconstruct_distinct {C : RS} {stopped : Bool} {ps : List Parcel} {d : Bytes} (h : ReconstructParcels C stopped ps (.ok d)) :
    C.k ≤ (ps.map (·.relayIndex)).toFinset.card := by
  cases ps with
  | nil => simp [ReconstructParcels] at h
  | cons p ps =>
    unfold ReconstructParcels at h
    dsimp only at h
    cases hl : leUint32 p.messageLength with
    | error e => rw [hl] at h; cases h
    | ok size =>
      rw [hl] at h
      dsimp only at h
      cases hf : fillShards C ((p :: ps).map fun p => (p.relayIndex, p.payload)) with
      | error e => rw [hf] at h; cases h
      | ok shards =>
        rw [hf] at h
        dsimp only at h
        obtain ⟨out, ho, he⟩ := h
        have hout : out = .ok d := by
          cases out with
          | ok x => simpa using he.symm
          | error e => cases e <;> cases he
        subst hout
        rcases ho with ⟨-, ho⟩ | ⟨order, hperm, ho⟩
        · cases ho
        · have hrows := fill_rows hf
          have hlen := rows_length hf
          unfold authReconstructIn at ho
          rw [if_neg (by omega)] at ho
          cases ho' : order.foldlM (decodeArrival C shards (size + numChunks)) (List.replicate (size + numChunks) 0) with
          | error e => rw [ho'] at ho; cases ho
          | ok data =>
            have hne : order ≠ [] := by
              intro h0; subst h0
              have := hperm.length_eq
              simp [numChunks] at this
            obtain ⟨i, rest, rfl⟩ := List.exists_cons_of_ne_nil hne
            rw [List.foldlM_cons] at ho'
            cases hd : decodeArrival C shards (size + numChunks) (List.replicate (size + numChunks) 0) i with
            | error e => rw [hd] at ho'; cases ho'
            | ok x =>
              unfold decodeArrival at hd
              cases hg : goIndex shards i with
              | error e => rw [hg] at hd; cases hd
              | ok row =>
                have hrow : row ∈ shards := by
                  unfold goIndex at hg
                  split at hg
                  · next y hy => injection hg with hg; subst hg; exact List.mem_of_getElem? hy
                  · cases hg
                rw [hg] at hd
                simp only [bind, Except.bind] at hd
                split at hd
                · cases hd
                · next c hc =>
                  unfold authReconstruct at hc
                  simp only [bind, Except.bind] at hc
                  split at hc
                  · cases hc
                  · next full hfull =>
                    have := row_distinct hrows hrow hfull
                    simpa [List.map_map, Function.comp_def] using this

theorem putIntoShards_range {rows rows' : List (List Bytes)} {i : Int} {payload : List Bytes} {w : Nat} (hne : rows ≠ []) (hw : ∀ row ∈ rows, row.length = w)
    (hp : putIntoShards rows i payload = .ok rows') : (0 ≤ i ∧ i < (w : Int)) ∧ rows' ≠ [] ∧ ∀ row ∈ rows', row.length = w := by
  have hf := mapM_zip_ok hp
  obtain ⟨hlen, hall⟩ := List.forall₂_iff_get.1 hf
  rw [List.length_zipIdx] at hlen
  have key : ∀ c (hc : c < rows.length) (hc' : c < rows'.length), (0 ≤ i ∧ i < (w : Int)) ∧ rows'[c].length = w := by
    intro c hc hc'
    have hx := hall c (by simpa using hc) hc'
    simp only [List.get_eq_getElem, List.getElem_zipIdx] at hx
    cases hg : goIndex payload (0 + c) with
    | error e => rw [hg] at hx; cases hx
    | ok p =>
      rw [hg] at hx
      simp only [bind, Except.bind] at hx
      split at hx
      · cases hx
      · next hi =>
        unfold goSet at hx
        split at hx
        · next hlt =>
          injection hx with hx
          have hl := hw _ (List.getElem_mem hc)
          refine ⟨by omega, ?_⟩
          rw [← hx, List.length_set, hl]
        · cases hx
  have h0 : 0 < rows.length := List.length_pos_iff.2 hne
  refine ⟨(key 0 h0 (by omega)).1, List.length_pos_iff.1 (by omega), fun row hr => ?_⟩
  obtain ⟨c, hc⟩ := List.getElem?_of_mem hr
  obtain ⟨hc1, hc2⟩ := List.getElem?_eq_some_iff.1 hc
  rw [← hc2]; exact (key c (by omega) hc1).2

theorem fill_range {C : RS} {ps : List (Int × List Bytes)} {shards : List (List Bytes)} (h : fillShards C ps = .ok shards) : ∀ p ∈ ps, 0 ≤ p.1 ∧ p.1 < ((C.k + C.m : Nat) : Int) := by
  have key : ∀ (ps : List (Int × List Bytes)) (sh sh' : List (List Bytes)), sh ≠ [] → (∀ row ∈ sh, row.length = C.k + C.m) →
      ps.foldlM (fun sh p => putIntoShards sh p.1 p.2) sh = .ok sh' → ∀ p ∈ ps, 0 ≤ p.1 ∧ p.1 < ((C.k + C.m : Nat) : Int) := by
    intro ps
    induction ps with
    | nil => intro _ _ _ _ _ p hp; cases hp
    | cons p ps ih =>
      intro sh sh' h0 h1 h2 q hq
      rw [List.foldlM_cons] at h2
      cases hp : putIntoShards sh p.1 p.2 with
      | error e => rw [hp] at h2; cases h2
      | ok s1 =>
        rw [hp] at h2
        obtain ⟨g1, g2, g3⟩ := putIntoShards_range h0 h1 hp
        rcases List.mem_cons.1 hq with rfl | hq
        · exact g1
        · exact ih s1 sh' g2 g3 h2 q hq
  exact key ps _ _ (by simp [newShards, numChunks]) (by
    intro row hr
    rw [List.eq_of_mem_replicate hr, List.length_replicate]) h

theorem reconstruct_range {C : RS} {stopped : Bool} {ps : List Parcel} {d : Bytes} (h : ReconstructParcels C stopped ps (.ok d)) :
    ∀ p ∈ ps, 0 ≤ p.relayIndex ∧ p.relayIndex < ((C.k + C.m : Nat) : Int) := by
  cases ps with
  | nil => simp
  | cons p ps =>
    unfold ReconstructParcels at h
    dsimp only at h
    cases hl : leUint32 p.messageLength with
    | error e => rw [hl] at h; cases h
    | ok size =>
      rw [hl] at h
      dsimp only at h
      cases hf : fillShards C ((p :: ps).map fun p => (p.relayIndex, p.payload)) with
      | error e => rw [hf] at h; cases h
      | ok shards =>
        intro q hq
        exact fill_range hf _ (List.mem_map_of_mem hq)

theorem sublist_flatten_two {α : Type} {L : List (List α)} {i j : Nat} {a b : List α} (hij : i < j) (hi : L[i]? = some a) (hj : L[j]? = some b) : (a ++ b).Sublist L.flatten := by
  induction L generalizing i j with
  | nil => simp at hi
  | cons x L ih =>
    obtain ⟨j, rfl⟩ : ∃ j', j = j' + 1 := ⟨j - 1, by omega⟩
    rw [List.getElem?_cons_succ] at hj
    rw [List.flatten_cons]
    cases i with
    | zero =>
      simp only [List.getElem?_cons_zero, Option.some.injEq] at hi
      subst hi
      exact (List.Sublist.refl _).append (List.sublist_flatten_of_mem (List.mem_of_getElem? hj))
    | succ i =>
      rw [List.getElem?_cons_succ] at hi
      exact (ih (by omega) hi hj).trans (List.sublist_append_right _ _)

end Resmix.Rrpc
