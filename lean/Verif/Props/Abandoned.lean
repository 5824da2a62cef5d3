import Mathlib.Data.List.Perm.Subperm
import Verif.Spec.Abandoned
import Verif.Proofs.Collector
set_option autoImplicit false
/-
C137: what calls that never complete leave behind.
-/
namespace Resmix.Rrpc
variable {κ μ : Type}

/-! ### The collector of the server -/

theorem perm_erase {ν : Type} [DecidableEq κ] {m : GoMap κ ν} (hn : GoMap.NodupKeys m) {k : κ} {v : ν} (h : GoMap.lookup m k = some v) :
    m.Perm ((k, v) :: GoMap.erase m k) := by
  induction m with
  | nil => cases h
  | cons e m ih =>
    obtain ⟨k', v'⟩ := e
    have hn' : GoMap.NodupKeys m := (List.nodup_cons.1 hn).2
    have hnot : k' ∉ m.map Prod.fst := (List.nodup_cons.1 hn).1
    by_cases hk : k' = k
    · subst hk
      simp only [GoMap.lookup, if_true] at h
      injection h with h; subst h
      simp only [GoMap.erase, if_true]
      rw [GoMap.erase_eq_self hnot]
    · simp only [GoMap.lookup, if_neg hk] at h
      simp only [GoMap.erase, if_neg hk]
      exact ((ih hn' h).cons _).trans (List.Perm.swap _ _ _)

theorem flatMap_sublist {α β : Type} (f : α → List β) {a b : List α} (h : a.Sublist b) : (a.flatMap f).Sublist (b.flatMap f) := by
  induction h with
  | slnil => exact List.Sublist.refl _
  | cons x _ ih => rw [List.flatMap_cons]; exact ih.trans (List.sublist_append_right _ _)
  | cons_cons x _ ih => rw [List.flatMap_cons, List.flatMap_cons]; exact ih.append_left _

/-- The parcels of the tasks begun at time `c` or later. -/
def heldSince (c : Nat) (tasks : GoMap Str (CTask μ)) : List Parcel := tasks.flatMap fun e => if c ≤ e.2.startTime then e.2.parcels else []

theorem heldSince_erase (c : Nat) (tasks : GoMap Str (CTask μ)) (k : Str) : (heldSince c (GoMap.erase tasks k)).Subperm (heldSince c tasks) :=
  (flatMap_sublist _ (GoMap.erase_sublist tasks k)).subperm

structure CInv (m : Int) (ttl : Nat) (evs : List CEv) (tasks : GoMap Str (CTask μ)) : Prop where
  nd : GoMap.NodupKeys tasks
  keys : KeysOk tasks
  few : ∀ e ∈ tasks, e.2.parcels ≠ [] ∧ (e.2.parcels.length : Int) < m
  ticks : ∀ e ∈ tasks, ∀ now, CEv.tick now ∈ evs → now ≤ e.2.startTime + ttl
  start : ∀ e ∈ tasks, ∃ x ∈ evs, x.time = e.2.startTime
  held : ∀ c, (heldSince c tasks).Subperm (receivedSince c evs)

theorem receivedSince_snoc (c : Nat) (evs : List CEv) (e : CEv) : receivedSince c (evs ++ [e]) = receivedSince c evs ++ receivedSince c [e] := by
  simp [receivedSince]

/-- The collector on a parcel of a known method. -/
theorem collectorStep_parcel {m : Int} {ttl : Nat} {lk : Str → Go μ} {tasks : GoMap Str (CTask μ)} (hk : KeysOk tasks) {now : Nat} {p : Parcel} {mm : μ} (hl : lk p.method = .ok mm) :
    (collectorStep m ttl lk tasks (.parcel now p)).1 =
      let v : CTask μ := (GoMap.lookup tasks p.note.calluuid).getD { parcels := [], savedNote := p.note, startTime := now, method := mm }
      if ((v.parcels.length + 1 : Nat) : Int) < m then GoMap.insert tasks p.note.calluuid { v with parcels := v.parcels ++ [p] } else GoMap.erase tasks p.note.calluuid := by
  unfold collectorStep getOrCreateTask
  dsimp only
  rw [hl]
  dsimp only
  cases ht : GoMap.lookup tasks p.note.calluuid with
  | some v =>
    simp only [Option.getD_some, List.length_append, List.length_singleton]
    split
    · rfl
    · dsimp only; rw [hk _ _ ht]
  | none =>
    have hne := GoMap.lookup_eq_none.1 ht
    simp only [Option.getD_none, List.nil_append, List.length_nil, List.length_singleton, Nat.zero_add]
    have he : GoMap.erase tasks p.note.calluuid = tasks := GoMap.erase_eq_self hne
    split
    · simp [GoMap.insert, GoMap.erase, he]
    · simp [GoMap.insert, GoMap.erase, he]

theorem CInv.step {m : Int} {ttl : Nat} {lk : Str → Go μ} {evs : List CEv} {tasks : GoMap Str (CTask μ)} (h : CInv m ttl evs tasks) (e : CEv)
    (hle : ∀ x ∈ evs, x.time ≤ e.time) : CInv m ttl (evs ++ [e]) (collectorStep m ttl lk tasks e).1 := by
  obtain ⟨hk', hnd'⟩ := KeysOk.step (m := m) (ttl := ttl) (lk := lk) h.nd h.keys e
  have grow : ∀ c, (receivedSince c evs).Subperm (receivedSince c (evs ++ [e])) := by
    intro c; rw [receivedSince_snoc]; exact (List.sublist_append_left _ _).subperm
  cases e with
  | tick now =>
    have hsub : (collectorStep m ttl lk tasks (.tick now)).1 = tasks.filter fun e => decide (now - e.2.startTime ≤ ttl) := rfl
    have hmem : ∀ e ∈ (collectorStep m ttl lk tasks (.tick now)).1, e ∈ tasks ∧ now - e.2.startTime ≤ ttl := by
      intro e he; rw [hsub] at he
      exact ⟨(List.mem_filter.1 he).1, by simpa using (List.mem_filter.1 he).2⟩
    refine ⟨hnd', hk', fun e he => h.few e (hmem e he).1, ?_, ?_, ?_⟩
    · intro e he t ht
      rcases List.mem_append.1 ht with ht | ht
      · exact h.ticks e (hmem e he).1 t ht
      · rw [List.mem_singleton] at ht
        injection ht with ht; subst ht
        have := (hmem e he).2
        omega
    · intro e he
      obtain ⟨x, hx, hxe⟩ := h.start e (hmem e he).1
      exact ⟨x, List.mem_append_left _ hx, hxe⟩
    · intro c
      refine List.Subperm.trans ?_ ((h.held c).trans (grow c))
      rw [hsub]
      exact (flatMap_sublist _ List.filter_sublist).subperm
  | parcel now p =>
    cases hl : lk p.method with
    | error e =>
      have hs : (collectorStep m ttl lk tasks (.parcel now p)).1 = tasks := by
        unfold collectorStep getOrCreateTask; dsimp only; rw [hl]
      rw [hs]
      refine ⟨h.nd, h.keys, h.few, ?_, ?_, fun c => (h.held c).trans (grow c)⟩
      · intro e he t ht
        rcases List.mem_append.1 ht with ht | ht
        · exact h.ticks e he t ht
        · rw [List.mem_singleton] at ht; cases ht
      · intro e he
        obtain ⟨x, hx, hxe⟩ := h.start e he
        exact ⟨x, List.mem_append_left _ hx, hxe⟩
    | ok mm =>
      have hs := collectorStep_parcel (m := m) (ttl := ttl) (now := now) h.keys hl
      have hkeep : ∀ e ∈ tasks, (e.2.parcels ≠ [] ∧ (e.2.parcels.length : Int) < m) ∧ (∀ t, CEv.tick t ∈ evs ++ [.parcel now p] → t ≤ e.2.startTime + ttl) ∧
          ∃ x ∈ evs ++ [.parcel now p], x.time = e.2.startTime := by
        intro e he
        refine ⟨h.few e he, ?_, ?_⟩
        · intro t ht
          rcases List.mem_append.1 ht with ht | ht
          · exact h.ticks e he t ht
          · rw [List.mem_singleton] at ht; cases ht
        · obtain ⟨x, hx, hxe⟩ := h.start e he
          exact ⟨x, List.mem_append_left _ hx, hxe⟩
      dsimp only at hs
      by_cases hlt : (((((GoMap.lookup tasks p.note.calluuid).getD { parcels := [], savedNote := p.note, startTime := now, method := mm }).parcels.length + 1 : Nat)) : Int) < m
      · rw [if_pos hlt] at hs
        rw [hs] at hk' hnd' ⊢
        have hnew : ∀ (v : CTask μ), v = (GoMap.lookup tasks p.note.calluuid).getD { parcels := [], savedNote := p.note, startTime := now, method := mm } →
            (∀ t, CEv.tick t ∈ evs → t ≤ v.startTime + ttl) ∧ (∃ x ∈ evs ++ [.parcel now p], x.time = v.startTime) ∧ v.startTime ≤ now ∧
            ∀ c, (heldSince c ((p.note.calluuid, v) :: GoMap.erase tasks p.note.calluuid)).Subperm (receivedSince c evs) := by
          intro v hv
          cases ht : GoMap.lookup tasks p.note.calluuid with
          | some w =>
            rw [ht, Option.getD_some] at hv
            subst hv
            have hm := GoMap.lookup_mem ht
            obtain ⟨x, hx, hxe⟩ := h.start _ hm
            refine ⟨h.ticks _ hm, ⟨x, List.mem_append_left _ hx, hxe⟩, ?_, ?_⟩
            · have := hle x hx; dsimp only at hxe; rw [← hxe]; exact this
            · intro c
              exact (List.Perm.subperm ((perm_erase h.nd ht).flatMap_right _).symm).trans (h.held c)
          | none =>
            rw [ht, Option.getD_none] at hv
            subst hv
            refine ⟨?_, ⟨_, List.mem_append_right _ (List.mem_singleton.2 rfl), rfl⟩, le_refl _, ?_⟩
            · intro t hti
              have := hle _ hti
              exact le_trans this (Nat.le_add_right _ _)
            · intro c
              refine List.Subperm.trans ?_ (h.held c)
              rw [GoMap.erase_eq_self (GoMap.lookup_eq_none.1 ht)]
              unfold heldSince
              rw [List.flatMap_cons]
              dsimp only
              split <;> exact List.Subperm.refl _
        obtain ⟨h1, h2, h3, h4⟩ := hnew _ rfl
        refine ⟨hnd', hk', ?_, ?_, ?_, ?_⟩
        · intro e he
          rcases List.mem_cons.1 he with rfl | he
          · refine ⟨by simp, ?_⟩
            simpa using hlt
          · exact (hkeep e ((GoMap.erase_sublist _ _).subset he)).1
        · intro e he t hti
          rcases List.mem_cons.1 he with rfl | he
          · rcases List.mem_append.1 hti with hti | hti
            · exact h1 t hti
            · rw [List.mem_singleton] at hti; cases hti
          · exact (hkeep e ((GoMap.erase_sublist _ _).subset he)).2.1 t hti
        · intro e he
          rcases List.mem_cons.1 he with rfl | he
          · exact h2
          · exact (hkeep e ((GoMap.erase_sublist _ _).subset he)).2.2
        · intro c
          have h4' := h4 c
          rw [receivedSince_snoc]
          unfold heldSince at h4' ⊢
          unfold GoMap.insert
          rw [List.flatMap_cons] at h4' ⊢
          dsimp only at h4' ⊢
          by_cases hc : c ≤ ((GoMap.lookup tasks p.note.calluuid).getD { parcels := [], savedNote := p.note, startTime := now, method := mm }).startTime
          · rw [if_pos hc] at h4' ⊢
            have hr : receivedSince c [CEv.parcel now p] = [p] := by simp [receivedSince, le_trans hc h3]
            rw [hr]
            refine List.Subperm.trans (List.Perm.subperm ?_) (h4'.append (List.Subperm.refl [p]))
            rw [List.append_assoc, List.append_assoc]
            exact List.perm_append_comm.append_left _
          · rw [if_neg hc] at h4' ⊢
            exact h4'.trans (List.sublist_append_left _ _).subperm
      · rw [if_neg hlt] at hs
        rw [hs] at hk' hnd' ⊢
        have hsub := (GoMap.erase_sublist tasks p.note.calluuid).subset
        exact ⟨hnd', hk', fun e he => (hkeep e (hsub he)).1, fun e he => (hkeep e (hsub he)).2.1, fun e he => (hkeep e (hsub he)).2.2,
          fun c => (heldSince_erase c tasks _).trans ((h.held c).trans (grow c))⟩

theorem cinv_run (m : Int) (ttl : Nat) (lk : Str → Go μ) (evs : List CEv) (ho : (evs.map CEv.time).Pairwise (· ≤ ·)) :
    CInv m ttl evs (collectorRun m ttl lk [] evs).1 := by
  induction evs using List.reverseRecOn with
  | nil => exact ⟨GoMap.nodup_nil, fun k v h => by simp [collectorRun, GoMap.lookup] at h, by simp [collectorRun], by simp [collectorRun], by simp [collectorRun], by simp [collectorRun, heldSince, receivedSince]⟩
  | append_singleton evs e ih =>
    rw [List.map_append, List.pairwise_append] at ho
    obtain ⟨h1, _, h2⟩ := ho
    have := (ih h1).step (lk := lk) e (fun x hx => h2 _ (List.mem_map.2 ⟨x, hx, rfl⟩) _ (by simp))
    rw [collectorRun_append]
    simpa [collectorRun] using this

/-- C137. Whatever parcels reach a server, in whatever order: if its cleanup ticks are selected at least once in every stretch of time of length `P`, then at time `T`
the collector remembers nothing but parcels received during the last 5 s + `P`, each at most once; for no call more than it needs less one; and no call older than
that. Calls that never complete are forgotten. -/
theorem C137_server_forgets (net : Network) (lookup : Str → Go μ) (P T : Nat) (evs : List CEv) (hc : CClock T evs) (ht : CTicks P T evs) :
    ((collectorTasks net lookup evs).flatMap fun e => e.2.parcels).Subperm (receivedSince (T - (5000000000 + P)) evs) ∧
    (∀ e ∈ collectorTasks net lookup evs, T ≤ e.2.startTime + (5000000000 + P) ∧ 0 < e.2.parcels.length ∧ (e.2.parcels.length : Int) < net.minimalRelayedParcels) ∧
    ((collectorTasks net lookup evs).map Prod.fst).Nodup := by
  have h := cinv_run net.minimalRelayedParcels 5000000000 lookup evs hc.1
  have hold : ∀ e ∈ collectorTasks net lookup evs, T ≤ e.2.startTime + (5000000000 + P) := by
    intro e he
    by_contra hx
    push Not at hx
    obtain ⟨now, h1, h2, h3⟩ := ht (e.2.startTime + 5000000000 + 1) (by omega)
    have := h.ticks e he now h1
    omega
  refine ⟨?_, ?_, h.nd⟩
  · have := h.held (T - (5000000000 + P))
    refine List.Subperm.trans (List.Perm.subperm (List.Perm.of_eq ?_)) this
    unfold heldSince
    refine List.flatMap_congr fun e he => ?_
    rw [if_pos]
    have := hold e he
    omega
  · intro e he
    exact ⟨hold e he, List.length_pos_iff.2 (h.few e he).1, (h.few e he).2⟩

/-- A server that needs two parcels per call receives one parcel each of two calls that never go on, after 1 s and 6 s; its collector ticks every 5 s. After 14 s it still remembers
the second call only, after 15 s nothing. -/
theorem exampleTicks : CTicks 5000000000 14000000000 [.tick 0, .tick 5000000000, .tick 10000000000] := by
  intro x hx
  by_cases h0 : x = 0
  · exact ⟨0, by simp, by omega, by omega⟩
  · by_cases h5 : x ≤ 5000000000
    · exact ⟨5000000000, by simp, h5, by omega⟩
    · exact ⟨10000000000, by simp, by omega, by omega⟩

theorem exampleRun (p q : Parcel) (hp : p.note.calluuid = [1]) (hq : q.note.calluuid = [2]) (ttl t1 t2 t3 t4 t5 : Nat) (h1 : t2 ≤ ttl + t1) (h2 : ¬ t4 ≤ ttl + t1) (h3 : t4 ≤ ttl + t3)
    (h4 : ¬ t5 ≤ ttl + t3) :
    let evs : List CEv := [.tick 0, .parcel t1 p, .tick t2, .parcel t3 q, .tick t4]
    ((collectorRun 2 ttl (fun _ => .ok ()) [] evs).1.map fun e => e.1) = [[2]] ∧ (collectorRun 2 ttl (fun _ => .ok ()) [] (evs ++ [.tick t5])).1 = [] := by
  simp [collectorRun, collectorStep, getOrCreateTask, hp, hq, GoMap.lookup, GoMap.insert, GoMap.erase, h1, h2, h3, h4, List.filter_cons]

example (p q : Parcel) (hp : p.note.calluuid = [1]) (hq : q.note.calluuid = [2]) (net : Network) (h2 : net.minimalRelayedParcels = 2) :
    let evs : List CEv := [.tick 0, .parcel 1000000000 p, .tick 5000000000, .parcel 6000000000 q, .tick 10000000000]
    CClock 14000000000 evs ∧ CTicks 5000000000 14000000000 evs ∧ ((collectorTasks net (fun _ => .ok ()) evs).map fun e => e.1) = [[2]] ∧
    collectorTasks net (fun _ => .ok ()) (evs ++ [.tick 15000000001]) = [] := by
  intro evs
  obtain ⟨k1, k2⟩ := exampleRun p q hp hq 5000000000 1000000000 5000000000 6000000000 10000000000 15000000001 (by omega) (by omega) (by omega) (by omega)
  refine ⟨⟨?_, ?_⟩, ?_, ?_, ?_⟩
  · simp [evs, CEv.time]
  · simp [evs, CEv.time]
  · intro x hx
    obtain ⟨now, h1, h3⟩ := exampleTicks x hx
    refine ⟨now, ?_, h3⟩
    simp only [List.mem_cons, List.not_mem_nil, or_false] at h1
    rcases h1 with h1 | h1 | h1 <;> simp [evs, h1]
  · unfold collectorTasks; rw [h2]; exact k1
  · unfold collectorTasks; rw [h2]; exact k2

/-! ### The maps of pending calls -/

theorem cleanMap_kept {ttl : Nat} {now : κ → Nat} {m : GoMap κ PendingEntry} {e : κ × PendingEntry} (h : e ∈ (cleanMap ttl now m).1) :
    e ∈ m ∧ ∃ t, e.2 = .direct t ∧ now e.1 - t < ttl := by
  induction m with
  | nil => cases h
  | cons a m ih =>
    obtain ⟨k, v⟩ := a
    unfold cleanMap at h
    dsimp only at h
    split at h
    · next hc =>
      rcases List.mem_cons.1 h with rfl | h
      · refine ⟨List.mem_cons_self, ?_⟩
        cases v with
        | direct t =>
          refine ⟨t, rfl, ?_⟩
          unfold cleanEntry PendingEntry.gcable at hc
          dsimp only at hc
          split at hc
          · assumption
          · cases hc
        | relayTask t => cases hc
        | relayRequest t => cases hc
        | verifyTask t => cases hc
      · exact ⟨List.mem_cons_of_mem _ (ih h).1, (ih h).2⟩
    · exact ⟨List.mem_cons_of_mem _ (ih h).1, (ih h).2⟩

theorem cleanMap_sublist (ttl : Nat) (now : κ → Nat) (m : GoMap κ PendingEntry) : (cleanMap ttl now m).1.Sublist m := by
  induction m with
  | nil => exact List.Sublist.refl _
  | cons a m ih =>
    obtain ⟨k, v⟩ := a
    unfold cleanMap
    dsimp only
    split
    · exact ih.cons_cons _
    · exact ih.cons _

variable [DecidableEq κ]

structure TInv (ttl : Nat) (evs : List (TableEv κ)) (m : GoMap κ PendingEntry) : Prop where
  nd : GoMap.NodupKeys m
  put : ∀ e ∈ m, TableEv.put e.2.made e.1 e.2 ∈ evs
  ticks : ∀ e ∈ m, ∀ t now, TableEv.clean t now ∈ evs → t ≤ e.2.made ∨ ((∃ x, e.2 = .direct x) ∧ t < e.2.made + ttl)

theorem TInv.step {ttl : Nat} {evs : List (TableEv κ)} {m : GoMap κ PendingEntry} (h : TInv ttl evs m) (e : TableEv κ)
    (hle : ∀ x ∈ evs, x.time ≤ e.time) (hmade : ∀ t k v, e = .put t k v → v.made = t) (hafter : ∀ t now, e = .clean t now → ∀ k, t ≤ now k) :
    TInv ttl (evs ++ [e]) (tableStep ttl m e) := by
  cases e with
  | put t k v =>
    have hv := hmade t k v rfl
    refine ⟨GoMap.nodup_insert h.nd _ _, ?_, ?_⟩
    · intro e he
      rcases List.mem_cons.1 he with rfl | he
      · rw [hv]; simp
      · exact List.mem_append_left _ (h.put e ((GoMap.erase_sublist _ _).subset he))
    · intro e he t' now ht
      have ht' : TableEv.clean t' now ∈ evs := by simpa using ht
      rcases List.mem_cons.1 he with rfl | he
      · left
        rw [hv]
        exact hle _ ht'
      · exact h.ticks e ((GoMap.erase_sublist _ _).subset he) t' now ht'
  | del t k =>
    have hs := (GoMap.erase_sublist m k).subset
    refine ⟨GoMap.nodup_erase h.nd _, fun e he => List.mem_append_left _ (h.put e (hs he)), ?_⟩
    intro e he t' now ht
    exact h.ticks e (hs he) t' now (by simpa using ht)
  | clean t now =>
    have hs : ∀ e ∈ tableStep ttl m (.clean t now), _ := fun e he => cleanMap_kept he
    refine ⟨List.Nodup.sublist ((cleanMap_sublist ttl now m).map _) h.nd, fun e he => List.mem_append_left _ (h.put e (hs e he).1), ?_⟩
    intro e he t' now' ht
    obtain ⟨h1, x, hx, hlt⟩ := hs e he
    rcases List.mem_append.1 ht with ht | ht
    · exact h.ticks e h1 t' now' ht
    · rw [List.mem_singleton] at ht
      injection ht with ht1 ht2
      subst ht1
      have h3 := hafter _ _ rfl e.1
      by_cases hxt : t' ≤ e.2.made
      · exact .inl hxt
      · refine .inr ⟨⟨x, hx⟩, ?_⟩
        rw [hx] at hxt ⊢
        simp only [PendingEntry.made] at hxt ⊢
        omega

theorem tinv_run (ttl T : Nat) (evs : List (TableEv κ)) (hc : TClock T evs) : TInv ttl evs (evs.foldl (tableStep ttl) []) := by
  induction evs using List.reverseRecOn with
  | nil => exact ⟨GoMap.nodup_nil, by simp, by simp⟩
  | append_singleton evs e ih =>
    have ho := hc.order
    rw [List.map_append, List.pairwise_append] at ho
    obtain ⟨h1, _, h2⟩ := ho
    have hc' : TClock T evs := ⟨h1, fun x hx => hc.last x (List.mem_append_left _ hx), fun t k v hx => hc.made t k v (List.mem_append_left _ hx),
      fun t now hx => hc.after t now (List.mem_append_left _ hx)⟩
    have := (ih hc').step e (fun x hx => h2 _ (List.mem_map.2 ⟨x, hx, rfl⟩) _ (by simp)) (fun t k v he => hc.made t k v (by simp [he]))
      (fun t now he => hc.after t now (by simp [he]))
    rw [List.foldl_append]
    exact this

/-- C137 for the maps of pending calls of clients, relays, connections to relays, and the verifier: whatever is stored and removed, if a cleanup starts at least once in every
stretch of time of length `P`, then at time `T` an entry of a direct call was stored within the last `ttl` + `P`, every other entry within the last `P`; no key has two
entries. So there are never more entries than calls begun in that time. -/
theorem C137_tables_forget (ttl P T : Nat) (evs : List (TableEv κ)) (hc : TClock T evs) (ht : TTicks P T evs) :
    (∀ e ∈ evs.foldl (tableStep ttl) [], ∃ t, TableEv.put t e.1 e.2 ∈ evs ∧ T ≤ t + (ttl + P) ∧ ((∀ x, e.2 ≠ .direct x) → T ≤ t + P)) ∧
    ((evs.foldl (tableStep ttl) []).map Prod.fst).Nodup := by
  have h := tinv_run ttl T evs hc
  refine ⟨?_, h.nd⟩
  intro e he
  refine ⟨e.2.made, h.put e he, ?_, ?_⟩
  · by_contra hx
    push Not at hx
    obtain ⟨t, now, h1, h2, h3⟩ := ht (e.2.made + ttl + 1) (by omega)
    rcases h.ticks e he t now h1 with h4 | ⟨_, h4⟩ <;> omega
  · intro hnd
    by_contra hx
    push Not at hx
    obtain ⟨t, now, h1, h2, h3⟩ := ht (e.2.made + 1) (by omega)
    rcases h.ticks e he t now h1 with h4 | ⟨⟨x, h4⟩, _⟩
    · omega
    · exact hnd x h4

/-- A direct call made at time 1 with ttl 5 survives the cleanup at time 5 and is gone after the one at 10; the hypotheses hold. -/
example : let evs : List (TableEv Nat) := [.clean 0 fun _ => 0, .put 1 7 (.direct 1), .clean 5 fun _ => 5]
    let evs' := evs ++ [.clean 10 fun _ => 10]
    TClock 9 evs ∧ TTicks 5 9 evs ∧ evs.foldl (tableStep 5) [] = [(7, .direct 1)] ∧ TClock 10 evs' ∧ TTicks 5 10 evs' ∧ evs'.foldl (tableStep 5) [] = [] := by
  have hm : ∀ (t k : Nat) (v : PendingEntry), t = 1 ∧ k = 7 ∧ v = .direct 1 → v.made = t := by rintro _ _ _ ⟨rfl, rfl, rfl⟩; rfl
  refine ⟨⟨by simp [TableEv.time], by simp [TableEv.time], by simpa using hm, ?_⟩, ?_, rfl, ⟨by simp [TableEv.time], by simp [TableEv.time], by simpa using hm, ?_⟩, ?_, rfl⟩
  · intro t now h k
    simp only [List.mem_cons, TableEv.clean.injEq, reduceCtorEq, List.not_mem_nil, or_false, false_or] at h
    rcases h with ⟨rfl, rfl⟩ | ⟨rfl, rfl⟩ <;> exact Nat.le_refl _
  · intro x hx
    by_cases h0 : x = 0
    · exact ⟨0, fun _ => 0, by simp, by omega, by omega⟩
    · exact ⟨5, fun _ => 5, by simp, by omega, by omega⟩
  · intro t now h k
    simp only [List.mem_append, List.mem_cons, TableEv.clean.injEq, reduceCtorEq, List.not_mem_nil, or_false, false_or] at h
    rcases h with (⟨rfl, rfl⟩ | ⟨rfl, rfl⟩) | ⟨rfl, rfl⟩ <;> exact Nat.le_refl _
  · intro x hx
    by_cases h0 : x = 0
    · exact ⟨0, fun _ => 0, by simp, by omega, by omega⟩
    · exact ⟨5, fun _ => 5, by simp, by omega, by omega⟩

end Resmix.Rrpc
