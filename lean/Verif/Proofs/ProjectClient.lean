import Verif.Proofs.ProjectRelay
import Verif.Props.RelayConn
set_option autoImplicit false
namespace Resmix.Rrpc.CallSystem
variable {μ : Type} {K m n : Nat} {cfg : Config μ K m n}

/-- Invariant: entries and answers at a client are for calls it has made. -/
structure Owned (cfg : Config μ K m n) (s : State μ K m n) : Prop where
  live : ∀ (c : Fin m) (r : Fin n) (u : Str) (k : Fin K), (s.live c r).lookup u = some k → (cfg.calls k).client = c ∧ s.begun k = true
  recv : ∀ (c : Fin m) (r : Fin n) (k : Fin K) (a : Ans K n), a ∈ s.answers (.recv c r k) → (cfg.calls k).client = c ∧ s.begun k = true
  queue : ∀ (k : Fin K) (a : Ans K n), a ∈ s.answers (.queue k) → s.begun k = true
  taken : ∀ (k : Fin K) (a : Ans K n), a ∈ s.answers (.taken k) → s.begun k = true
  ask : ∀ (k : Fin K) (x : Fin K × Fin n), x ∈ s.parcels (.ask k) → s.begun k = true

theorem mem_move' {L α : Type} [DecidableEq L] {f : L → List α} {l l' q : L} {x y : α} {rest : List α} (h : f l = x :: rest) (hy : y ∈ move f l l' x rest q) :
    y ∈ f q ∨ (q = l' ∧ y = x) := by
  unfold move at hy
  by_cases h1 : q = l'
  · subst h1
    rw [Function.update_self, List.mem_append] at hy
    rcases hy with hy | hy
    · by_cases h2 : q = l
      · subst h2; rw [Function.update_self] at hy; left; rw [h]; exact List.mem_cons_of_mem _ hy
      · rw [Function.update_of_ne h2] at hy; exact .inl hy
    · exact .inr ⟨rfl, by simpa using hy⟩
  · rw [Function.update_of_ne h1] at hy
    by_cases h2 : q = l
    · subst h2; rw [Function.update_self] at hy; left; rw [h]; exact List.mem_cons_of_mem _ hy
    · rw [Function.update_of_ne h2] at hy; exact .inl hy

/-- Nothing at the clients has changed. -/
theorem Owned.same {s s' : State μ K m n} (h : Owned cfg s) (h1 : s'.live = s.live) (h2 : ∀ c r k, s'.answers (.recv c r k) = s.answers (.recv c r k))
    (h3 : ∀ k, s'.answers (.queue k) = s.answers (.queue k)) (h4 : ∀ k, s'.answers (.taken k) = s.answers (.taken k)) (h5 : ∀ k, s'.parcels (.ask k) = s.parcels (.ask k))
    (h6 : s'.begun = s.begun) : Owned cfg s' := by
  obtain ⟨a, b, c, d, e⟩ := h
  refine ⟨?_, ?_, ?_, ?_, ?_⟩
  · rw [h1, h6]; exact a
  · intro c r k; rw [h2, h6]; exact b c r k
  · intro k; rw [h3, h6]; exact c k
  · intro k; rw [h4, h6]; exact d k
  · intro k; rw [h5, h6]; exact e k

/-- Steps that change nothing at the clients. -/
theorem Owned.step (s s' : State μ K m n) (e : Event μ K m n) (h : Owned cfg s) (st : Step cfg s e s') : Owned cfg s' := by
  cases st with
  | begin k h0 hb =>
    have hbb : ∀ k', s.begun k' = true → Function.update s.begun k true k' = true := by
      intro k' hk'
      by_cases hk : k' = k
      · rw [hk, Function.update_self]
      · rw [Function.update_of_ne hk]; exact hk'
    refine ⟨fun c r u k' hh => ⟨(h.live c r u k' hh).1, hbb _ (h.live c r u k' hh).2⟩, fun c r k' a hh => ⟨(h.recv c r k' a hh).1, hbb _ (h.recv c r k' a hh).2⟩,
      fun k' a hh => hbb _ (h.queue k' a hh), fun k' a hh => hbb _ (h.taken k' a hh), fun k' x hx => ?_⟩
    dsimp only at hx ⊢
    by_cases hk : k' = k
    · rw [hk, Function.update_self]
    · rw [Function.update_of_ne (by simpa using hk)] at hx; exact hbb _ (h.ask k' x hx)
  | register k x rest h0 hl hr =>
    have hk : s.begun k = true := h.ask k x (by rw [hl]; exact List.mem_cons_self)
    refine ⟨fun c r u k' hh => ?_, h.recv, h.queue, h.taken, fun k' y hy => ?_⟩
    · dsimp only at hh ⊢
      by_cases hcr : c = (cfg.calls k).client ∧ r = x.2
      · obtain ⟨rfl, rfl⟩ := hcr
        rw [set2_on, GoMap.lookup_insert] at hh
        split at hh
        · cases hh; exact ⟨rfl, hk⟩
        · exact h.live _ _ u k' hh
      · rw [set2_off _ _ _ _ _ _ hcr] at hh; exact h.live _ _ u k' hh
    · dsimp only at hy ⊢
      rcases mem_move' hl hy with hy | ⟨hq, -⟩
      · exact h.ask k' y hy
      · cases hq
  | answer c r k a rest h0 hf hl hp =>
    have hk := h.live _ _ _ _ hp
    refine ⟨fun c' r' u k' hh => ?_, fun c' r' k' b hb => ?_, fun k' b hb => ?_, fun k' b hb => ?_, h.ask⟩
    · dsimp only at hh ⊢
      by_cases hcr : c' = c ∧ r' = r
      · obtain ⟨rfl, rfl⟩ := hcr
        rw [set2_on, GoMap.lookup_erase] at hh
        split at hh
        · cases hh
        · exact h.live _ _ u k' hh
      · rw [set2_off _ _ _ _ _ _ hcr] at hh; exact h.live _ _ u k' hh
    · dsimp only at hb; rcases mem_move' hl hb with hb | ⟨hq, -⟩
      · exact h.recv _ _ _ _ hb
      · cases hq; exact hk
    · dsimp only at hb; rcases mem_move' hl hb with hb | ⟨hq, -⟩
      · exact h.queue _ _ hb
      · cases hq
    · dsimp only at hb; rcases mem_move' hl hb with hb | ⟨hq, -⟩
      · exact h.taken _ _ hb
      · cases hq
  | moveA l l' a rest h0 hl hn hr =>
    refine ⟨h.live, fun c' r' k' b hb => ?_, fun k' b hb => ?_, fun k' b hb => ?_, h.ask⟩
    · dsimp only at hb; rcases mem_move' hl hb with hb | ⟨hq, -⟩
      · exact h.recv _ _ _ _ hb
      · subst hq; cases l <;> simp [nextA] at hn
    · dsimp only at hb; rcases mem_move' hl hb with hb | ⟨hq, rfl⟩
      · exact h.queue _ _ hb
      · subst hq; cases l <;> simp [nextA] at hn
        subst hn
        exact (h.recv _ _ _ _ (by rw [hl]; exact List.mem_cons_self)).2
    · dsimp only at hb; rcases mem_move' hl hb with hb | ⟨hq, -⟩
      · exact h.taken _ _ hb
      · subst hq; cases l <;> simp [nextA] at hn
  | take k cache a rest h0 hw hask hl =>
    refine ⟨h.live, fun c' r' k' b hb => ?_, fun k' b hb => ?_, fun k' b hb => ?_, h.ask⟩
    · dsimp only at hb; rcases mem_move' hl hb with hb | ⟨hq, -⟩
      · exact h.recv _ _ _ _ hb
      · cases hq
    · dsimp only at hb; rcases mem_move' hl hb with hb | ⟨hq, rfl⟩
      · exact h.queue _ _ hb
      · cases hq
    · dsimp only at hb; rcases mem_move' hl hb with hb | ⟨hq, rfl⟩
      · exact h.taken _ _ hb
      · cases hq
        exact h.queue _ b (by rw [hl]; exact List.mem_cons_self)
  | moveP l l' x rest h0 hl hn hr =>
    refine ⟨h.live, h.recv, h.queue, h.taken, fun k' y hy => ?_⟩
    rcases mem_move' hl hy with hy | ⟨hq, -⟩
    · exact h.ask _ _ hy
    · subst hq; cases l <;> simp [nextP] at hn
  | forward r c x rest d h0 hl hd hr => exact h.same rfl (fun _ _ _ => rfl) (fun _ => rfl) (fun _ => rfl) (fun _ => by dsimp only; exact move_ne _ _ _ _ _ _ (by simp) (by simp)) rfl
  | accept d r cache tick x rest h0 hl hc hr => exact h.same rfl (fun _ _ _ => rfl) (fun _ => rfl) (fun _ => rfl) (fun _ => by dsimp only; exact move_ne _ _ _ _ _ _ (by simp) (by simp)) rfl
  | refuse d r cache tick x rest resp h0 hl hc =>
    exact h.same rfl (fun _ _ _ => by dsimp only; exact push_ne _ _ _ _ (by simp)) (fun _ => by dsimp only; exact push_ne _ _ _ _ (by simp))
      (fun _ => by dsimp only; exact push_ne _ _ _ _ (by simp)) (fun _ => by dsimp only; exact Function.update_of_ne (by simp) _ _) rfl
  | collect d now x rest tasks' h0 hl hb hc => exact h.same rfl (fun _ _ _ => rfl) (fun _ => rfl) (fun _ => rfl) (fun _ => by dsimp only; exact move_ne _ _ _ _ _ _ (by simp) (by simp)) rfl
  | collectRun d now x rest tasks' t h0 hl hb hc => exact h.same rfl (fun _ _ _ => rfl) (fun _ => rfl) (fun _ => rfl) (fun _ => by dsimp only; exact move_ne _ _ _ _ _ _ (by simp) (by simp)) rfl
  | collectRefuse d now x rest tasks' i e h0 hl hb hc =>
    exact h.same rfl (fun _ _ _ => by dsimp only; exact push_ne _ _ _ _ (by simp)) (fun _ => by dsimp only; exact push_ne _ _ _ _ (by simp))
      (fun _ => by dsimp only; exact push_ne _ _ _ _ (by simp)) (fun _ => by dsimp only; exact move_ne _ _ _ _ _ _ (by simp) (by simp)) rfl
  | finish k r b buf t resps h0 hj ho =>
    exact h.same rfl (fun _ _ _ => by dsimp only; exact Function.update_of_ne (by simp) _ _) (fun _ => by dsimp only; exact Function.update_of_ne (by simp) _ _)
      (fun _ => by dsimp only; exact Function.update_of_ne (by simp) _ _) (fun _ => rfl) rfl
  | route r c a rest x h0 hf hl hn hp =>
    exact h.same rfl (fun _ _ _ => by dsimp only; exact move_ne _ _ _ _ _ _ (by simp) (by simp)) (fun _ => by dsimp only; exact move_ne _ _ _ _ _ _ (by simp) (by simp))
      (fun _ => by dsimp only; exact move_ne _ _ _ _ _ _ (by simp) (by simp)) (fun _ => rfl) rfl
  | drop r a rest x h0 hf hl hn hp =>
    exact h.same rfl (fun _ _ _ => by dsimp only; exact move_ne _ _ _ _ _ _ (by simp) (by simp)) (fun _ => by dsimp only; exact move_ne _ _ _ _ _ _ (by simp) (by simp))
      (fun _ => by dsimp only; exact move_ne _ _ _ _ _ _ (by simp) (by simp)) (fun _ => rfl) rfl
  | ignore c r a rest h0 hf hl hp =>
    exact h.same rfl (fun _ _ _ => by dsimp only; exact move_ne _ _ _ _ _ _ (by simp) (by simp)) (fun _ => by dsimp only; exact move_ne _ _ _ _ _ _ (by simp) (by simp))
      (fun _ => by dsimp only; exact move_ne _ _ _ _ _ _ (by simp) (by simp)) (fun _ => rfl) rfl
  | _ => exact h.same rfl (fun _ _ _ => rfl) (fun _ => rfl) (fun _ => rfl) (fun _ => rfl) rfl

theorem conn_run_append (s : RelayConn.State) (a b : List RelayConn.Ev) : RelayConn.run s (a ++ b) = (RelayConn.run s a).bind fun s' => RelayConn.run s' b := by
  induction a generalizing s with
  | nil => rfl
  | cons e a ih =>
    simp only [List.cons_append, RelayConn.run]
    cases RelayConn.step s e with
    | none => rfl
    | some s' => exact ih s'

theorem conn_run_one (t t' : RelayConn.State) (e : RelayConn.Ev) (h : RelayConn.step t e = some t') : RelayConn.run t [e] = some t' := by simp [RelayConn.run, h]

/-- Nothing at client `c` has changed. -/
theorem ClientView.same {c : Fin m} {order : List (Fin K)} {s s' : State μ K m n} {t : RelayConn.State} (h : ClientView cfg c order s t) (h1 : ∀ r, s'.live c r = s.live c r)
    (h2 : ∀ r k, s'.answers (.recv c r k) = s.answers (.recv c r k)) (h3 : ∀ k ∈ order, s'.answers (.queue k) = s.answers (.queue k))
    (h4 : ∀ k ∈ order, s'.answers (.taken k) = s.answers (.taken k)) (h5 : ∀ k ∈ order, s'.parcels (.ask k) = s.parcels (.ask k))
    (h6 : ∀ k, (cfg.calls k).client = c → s'.begun k = s.begun k) : ClientView cfg c order s' t := by
  refine ⟨h.nodup, fun k => ?_, h.relays, h.size, fun i k hk => ?_, fun r => ?_⟩
  · rw [h.made]
    constructor
    · rintro ⟨a, b⟩; exact ⟨by rw [h6 k b]; exact a, b⟩
    · rintro ⟨a, b⟩; exact ⟨by rw [← h6 k b]; exact a, b⟩
  · have hm : k ∈ order := List.mem_of_getElem? hk
    rw [h3 k hm, h4 k hm, h5 k hm]; exact h.call i k hk
  · rw [h1]; simpa only [h2] using h.conn r

theorem mem_at {order : List (Fin K)} {k : Fin K} (h : k ∈ order) : order[order.idxOf k]? = some k := by
  have := List.idxOf_lt_length_iff.2 h
  rw [List.getElem?_eq_getElem this, List.getElem_idxOf]

theorem at_inj {order : List (Fin K)} (hn : order.Nodup) {k : Fin K} {i : Nat} (h : order[i]? = some k) : order.idxOf k = i := by
  obtain ⟨hi, rfl⟩ := List.getElem?_eq_some_iff.1 h
  exact List.Nodup.idxOf_getElem hn i hi

theorem finRange_drop {j : Nat} (h : j < n) : (List.finRange n).drop j = ⟨j, h⟩ :: (List.finRange n).drop (j + 1) := by
  rw [List.drop_eq_getElem_cons (by simpa using h)]
  simp

set_option maxHeartbeats 4000000 in
/-- What client `c` does in a step of the system it can do alone. -/
theorem client_step (hu : ∀ (k : Fin K) (r : Fin n), ((cfg.calls k).parcels r).note.calluuid = cfg.uuid k) (c : Fin m) (order : List (Fin K)) (s : State μ K m n) (t : RelayConn.State)
    (e : Event μ K m n) (s' : State μ K m n) (hv : ClientView cfg c order s t) (ho : Owned cfg s) (st : Step cfg s e s') :
    ∃ (e : Option RelayConn.Ev) (order' : List (Fin K)) (t' : RelayConn.State), RelayConn.run t e.toList = some t' ∧ ClientView cfg c order' s' t' := by
  cases st with
  | begin k h0 hb =>
    by_cases hkc : (cfg.calls k).client = c
    · have hkn : k ∉ order := fun h => by
        have := ((hv.made k).1 h).1
        rw [hb] at this; cases this
      refine ⟨some (.call (cfg.uuid k)), order ++ [k], { t with calls := t.calls ++ [⟨cfg.uuid k, [], 0, true, []⟩] }, conn_run_one _ _ _ rfl, ?_, ?_, hv.relays, ?_, ?_, ?_⟩
      · rw [List.nodup_append]
        exact ⟨hv.nodup, by simp, by rintro a ha b hb rfl; simp at hb; subst hb; exact hkn ha⟩
      · intro k'
        rw [List.mem_append, hv.made]
        dsimp only
        by_cases hk : k' = k
        · subst hk; simp [hkc]
        · simp [Function.update_of_ne hk, hk]
      · simp [hv.size]
      · intro i k' hi
        by_cases hlt : i < order.length
        · rw [List.getElem?_append_left hlt] at hi
          obtain ⟨x, hx, hrest⟩ := hv.call i k' hi
          refine ⟨x, by dsimp only; rw [List.getElem?_append_left (by rw [hv.size]; exact hlt)]; exact hx, ?_⟩
          have : k' ≠ k := fun e => hkn (e ▸ List.mem_of_getElem? hi)
          dsimp only
          rw [Function.update_of_ne (by simpa using this)]
          exact hrest
        · have hi' : i = order.length := by
            have := (List.getElem?_eq_some_iff.1 hi).1
            simp at this; omega
          subst hi'
          simp at hi
          subst hi
          refine ⟨⟨cfg.uuid k, [], 0, true, []⟩, by dsimp only; rw [← hv.size]; simp, rfl, ?_, ?_, rfl, Nat.zero_le _, by simp⟩
          · have : s.answers (.queue k) = [] := by
              apply List.eq_nil_iff_forall_not_mem.2
              intro a ha
              have := ho.queue k a ha
              rw [hb] at this; cases this
            simp [this]
          · have : s.answers (.taken k) = [] := by
              apply List.eq_nil_iff_forall_not_mem.2
              intro a ha
              have := ho.taken k a ha
              rw [hb] at this; cases this
            simp [this]
      · intro r
        obtain ⟨y, hy, hcl, hlv, hrc⟩ := hv.conn r
        refine ⟨y, hy, hcl, fun u => ?_, ?_⟩
        · dsimp only
          rw [hlv]
          cases hlk : (s.live c r).lookup u with
          | none => rfl
          | some k' =>
            have hk' : k' ∈ order := (hv.made k').2 ⟨(ho.live c r u k' hlk).2, (ho.live c r u k' hlk).1⟩
            simp [List.idxOf_append_of_mem hk']
        · dsimp only
          rcases hrc with h | ⟨k', a, hk', h1, h2, h3⟩
          · exact .inl h
          · exact .inr ⟨k', a, List.mem_append_left _ hk', by rw [List.idxOf_append_of_mem hk']; exact h1, h2, h3⟩
    · refine ⟨none, order, t, rfl, hv.same (fun _ => rfl) (fun _ _ => rfl) (fun _ _ => rfl) (fun _ _ => rfl) (fun k' hk' => ?_) (fun k' hk' => ?_)⟩
      · have : k' ≠ k := fun e => hkc (e ▸ ((hv.made k').1 hk').2)
        dsimp only
        rw [Function.update_of_ne (by simpa using this)]
      · have : k' ≠ k := fun e => hkc (e ▸ hk')
        dsimp only
        rw [Function.update_of_ne this]
  | register k x rest h0 hl hr =>
    by_cases hkc : (cfg.calls k).client = c
    · have hk : k ∈ order := (hv.made k).2 ⟨ho.ask k x (by rw [hl]; exact List.mem_cons_self), hkc⟩
      obtain ⟨z, hz, hzu, hzq, hzt, hzr, hza, hzp⟩ := hv.call _ k (mem_at hk)
      have hlt : z.asked < n := by
        by_contra hge
        rw [List.drop_eq_nil_of_le (by simpa using hge)] at hzp
        rw [hzp] at hl; cases hl
      rw [finRange_drop hlt, List.map_cons] at hzp
      obtain ⟨rfl, rfl⟩ := List.cons.inj (hl.symm.trans hzp)
      obtain ⟨y, hy, hcl, hlv, hrc⟩ := hv.conn ⟨z.asked, hlt⟩
      refine ⟨some (.ask (order.idxOf k)), order, _, conn_run_one _ _ _ (show _ = some { conns := t.conns.set z.asked { y with live := y.live.insert z.uuid (order.idxOf k) }, calls := t.calls.set (order.idxOf k) { z with asked := z.asked + 1 } } from ?_),
        hv.nodup, hv.made, by simpa using hv.relays, by simpa using hv.size, ?_, ?_⟩
      · simp only at hy
        simp [RelayConn.step, hz, hy]
      · intro i k' hi
        dsimp only
        by_cases hik : k' = k
        · subst hik
          have hi' := at_inj hv.nodup hi
          subst hi'
          have hlen : order.idxOf k' < t.calls.length := by rw [hv.size]; exact List.idxOf_lt_length_iff.2 hk
          refine ⟨_, List.getElem?_set_self hlen, hzu, hzq, hzt, hzr, hlt, ?_⟩
          rw [move_src _ _ _ _ _ (by simp)]
        · have hi' : order.idxOf k ≠ i := fun e => hik (by rw [← e, mem_at hk] at hi; exact (Option.some.inj hi).symm)
          rw [List.getElem?_set_ne hi', move_ne _ _ _ _ _ _ (by simpa using hik) (by simp)]
          exact hv.call i k' hi
      · intro r
        dsimp only
        by_cases hrr : r = ⟨z.asked, hlt⟩
        · subst hrr
          have hlen : z.asked < t.conns.length := by rw [hv.relays]; exact hlt
          refine ⟨_, List.getElem?_set_self hlen, hcl, fun u => ?_, hrc⟩
          dsimp only
          rw [hkc, set2_on, GoMap.lookup_insert, GoMap.lookup_insert, hlv, hzu, show (cfg.parcel (k, ⟨z.asked, hlt⟩)).note.calluuid = cfg.uuid k from hu k _]
          split <;> simp [hkc]
        · have : z.asked ≠ (r : Nat) := fun e => hrr (Fin.ext e.symm)
          rw [List.getElem?_set_ne this, set2_off _ _ _ _ _ _ (by rintro ⟨-, h⟩; exact hrr h)]
          exact hv.conn r
    · refine ⟨none, order, t, rfl, hv.same (fun r => ?_) (fun _ _ => rfl) (fun _ _ => rfl) (fun _ _ => rfl) (fun k' hk' => ?_) (fun _ _ => rfl)⟩
      · dsimp only
        rw [set2_off _ _ _ _ _ _ (by rintro ⟨h, -⟩; exact hkc h.symm)]
      · have : k' ≠ k := fun e => hkc (e ▸ ((hv.made k').1 hk').2)
        dsimp only
        rw [move_ne _ _ _ _ _ _ (by simpa using this) (by simp)]
  | answer c' r k a rest h0 hf hl hp =>
    by_cases hcc : c' = c
    · subst hcc
      have hk : k ∈ order := (hv.made k).2 ⟨(ho.live _ _ _ _ hp).2, (ho.live _ _ _ _ hp).1⟩
      obtain ⟨y, hy, hcl, hlv, hrc⟩ := hv.conn r
      have hy0 : y.recv = none := by
        rcases hrc with ⟨h, -⟩ | ⟨k', b, -, -, h, -⟩
        · exact h
        · rw [hf k'] at h; cases h
      have hlook : y.live.lookup (sent a).uuid = some (order.idxOf k) := by rw [hlv]; simp [sent, hp]
      refine ⟨some (.answer r (sent a)), order, _, conn_run_one _ _ _ (show _ = some { t with conns := t.conns.set r { y with live := y.live.erase (sent a).uuid, recv := some (order.idxOf k, sent a) } } from ?_),
        hv.nodup, hv.made, by simpa using hv.relays, hv.size, ?_, ?_⟩
      · simp [RelayConn.step, hy, hy0, hlook]
      · intro i k' hi
        dsimp only
        rw [move_ne _ _ _ _ _ _ (by simp) (by simp), move_ne _ _ _ _ _ _ (by simp) (by simp)]
        exact hv.call i k' hi
      · intro r'
        dsimp only
        by_cases hrr : r' = r
        · subst hrr
          have hlen : (r' : Nat) < t.conns.length := by rw [hv.relays]; exact r'.2
          refine ⟨_, List.getElem?_set_self hlen, hcl, fun u => ?_, .inr ⟨k, a, hk, rfl, ?_, fun k' hk' => ?_⟩⟩
          · dsimp only
            rw [set2_on, GoMap.lookup_erase, GoMap.lookup_erase, hlv]
            simp only [sent]
            split <;> rename_i h <;> simp [h]
          · rw [move_dst _ _ _ _ _ (by simp), hf k]; rfl
          · rw [move_ne _ _ _ _ _ _ (by simp) (by simpa using hk')]; exact hf k'
        · have : (r : Nat) ≠ (r' : Nat) := fun e => hrr (Fin.ext e.symm)
          rw [List.getElem?_set_ne this, set2_off _ _ _ _ _ _ (by rintro ⟨-, h⟩; exact hrr h)]
          have hm : ∀ k', move s.answers (.wireC r c') (.recv c' r k) a rest (.recv c' r' k') = s.answers (.recv c' r' k') :=
            fun k' => move_ne _ _ _ _ _ _ (by simp) (by simp [hrr])
          simpa only [hm] using hv.conn r'
    · refine ⟨none, order, t, rfl, hv.same (fun r' => ?_) (fun r' k' => ?_) (fun _ _ => ?_) (fun _ _ => ?_) (fun _ _ => rfl) (fun _ _ => rfl)⟩ <;> dsimp only
      · rw [set2_off _ _ _ _ _ _ (by rintro ⟨h, -⟩; exact hcc h.symm)]
      · rw [move_ne _ _ _ _ _ _ (by simp) (by simp only [ne_eq, ALoc.recv.injEq]; rintro ⟨h, -⟩; exact hcc h.symm)]
      · rw [move_ne _ _ _ _ _ _ (by simp) (by simp)]
      · rw [move_ne _ _ _ _ _ _ (by simp) (by simp)]
  | moveA l l' a rest h0 hl hn hr =>
    by_cases hll : ∃ c' r k, l = .recv c' r k
    · obtain ⟨c', r, k, rfl⟩ := hll
      simp only [nextA, Option.some.injEq] at hn
      subst hn
      have hown := ho.recv c' r k a (by rw [hl]; exact List.mem_cons_self)
      by_cases hcc : c' = c
      · subst hcc
        have hk : k ∈ order := (hv.made k).2 ⟨hown.2, hown.1⟩
        obtain ⟨y, hy, hcl, hlv, hrc⟩ := hv.conn r
        obtain ⟨k1, a1, hk1, hyr, hra, hrn⟩ : ∃ (k : Fin K) (a : Ans K n), k ∈ order ∧ y.recv = some (order.idxOf k, sent a) ∧ s.answers (.recv c' r k) = [a] ∧
            ∀ k', k' ≠ k → s.answers (.recv c' r k') = [] := by
          rcases hrc with ⟨-, h⟩ | h
          · rw [h k] at hl; cases hl
          · exact h
        have hkk : k = k1 := by
          by_contra hne
          rw [hrn k hne] at hl; cases hl
        subst hkk
        obtain ⟨rfl, rfl⟩ := List.cons.inj (hra.symm.trans hl)
        obtain ⟨z, hz, hzu, hzq, hzt, hzr, hza, hzp⟩ := hv.call _ k (mem_at hk)
        simp only [roomA] at hr
        refine ⟨some (.hand r), order, _, conn_run_one _ _ _ (show _ = some { conns := t.conns.set r { y with recv := none }, calls := t.calls.set (order.idxOf k) { z with queue := z.queue ++ [sent a1] } } from ?_),
          hv.nodup, hv.made, by simpa using hv.relays, by simpa using hv.size, ?_, ?_⟩
        · simp only [RelayConn.step, hy, hyr, RelayConn.put, hz]
          rw [if_pos (by rw [hzq, hv.relays]; simpa using hr)]
        · intro i k' hi
          dsimp only
          by_cases hik : k' = k
          · subst hik
            have hi' := at_inj hv.nodup hi
            subst hi'
            have hlen : order.idxOf k' < t.calls.length := by rw [hv.size]; exact List.idxOf_lt_length_iff.2 hk
            refine ⟨_, List.getElem?_set_self hlen, hzu, ?_, ?_, hzr, hza, hzp⟩
            · rw [move_dst _ _ _ _ _ (by simp), hzq]; simp
            · rw [move_ne _ _ _ _ _ _ (by simp) (by simp)]; exact hzt
          · have hi' : order.idxOf k ≠ i := fun e => hik (by rw [← e, mem_at hk] at hi; exact (Option.some.inj hi).symm)
            rw [List.getElem?_set_ne hi', move_ne _ _ _ _ _ _ (by simp) (by simpa using hik), move_ne _ _ _ _ _ _ (by simp) (by simp)]
            exact hv.call i k' hi
        · intro r'
          dsimp only
          by_cases hrr : r' = r
          · subst hrr
            have hlen : (r' : Nat) < t.conns.length := by rw [hv.relays]; exact r'.2
            refine ⟨_, List.getElem?_set_self hlen, hcl, hlv, .inl ⟨rfl, fun k' => ?_⟩⟩
            by_cases hk' : k' = k
            · subst hk'; exact move_src _ _ _ _ _ (by simp)
            · rw [move_ne _ _ _ _ _ _ (by simpa using hk') (by simp)]; exact hrn k' hk'
          · have : (r : Nat) ≠ (r' : Nat) := fun e => hrr (Fin.ext e.symm)
            rw [List.getElem?_set_ne this]
            have hm : ∀ k', move s.answers (.recv c' r k) (.queue k) a1 [] (.recv c' r' k') = s.answers (.recv c' r' k') :=
              fun k' => move_ne _ _ _ _ _ _ (by simp [hrr]) (by simp)
            simpa only [hm] using hv.conn r'
      · refine ⟨none, order, t, rfl, hv.same (fun r' => rfl) (fun r' k' => ?_) (fun k' hk' => ?_) (fun _ _ => ?_) (fun _ _ => rfl) (fun _ _ => rfl)⟩ <;> dsimp only
        · rw [move_ne _ _ _ _ _ _ (by simp only [ne_eq, ALoc.recv.injEq]; rintro ⟨h, -⟩; exact hcc h.symm) (by simp)]
        · have : k' ≠ k := by rintro rfl; exact hcc (hown.1.symm.trans ((hv.made _).1 hk').2)
          rw [move_ne _ _ _ _ _ _ (by simp) (by simpa using this)]
        · rw [move_ne _ _ _ _ _ _ (by simp) (by simp)]
    · refine ⟨none, order, t, rfl, hv.same (fun r' => rfl) (fun r' k' => ?_) (fun k' hk' => ?_) (fun _ _ => ?_) (fun _ _ => rfl) (fun _ _ => rfl)⟩ <;> dsimp only <;>
        refine move_ne _ _ _ _ _ _ ?_ ?_ <;> rintro rfl
      all_goals first | exact hll ⟨_, _, _, rfl⟩ | (simp [nextA] at hn; done) | (cases l <;> simp [nextA] at hn; done) | (cases l <;> simp [nextA] at hn; exact hll ⟨_, _, _, rfl⟩)
  | take k cache a rest h0 hw hask hl =>
    by_cases hk : k ∈ order
    · obtain ⟨z, hz, hzu, hzq, hzt, hzr, hza, hzp⟩ := hv.call _ k (mem_at hk)
      rw [hl] at hzq
      refine ⟨some (.take (order.idxOf k)), order, _, conn_run_one _ _ _ (show _ = some { t with calls := t.calls.set (order.idxOf k) { z with queue := rest.map sent, taken := z.taken ++ [sent a] } } from ?_),
        hv.nodup, hv.made, hv.relays, by simpa using hv.size, ?_, ?_⟩
      · simp [RelayConn.step, hz, hzq, hzr]
      · intro i k' hi
        dsimp only
        by_cases hik : k' = k
        · subst hik
          have hi' := at_inj hv.nodup hi
          subst hi'
          have hlen : order.idxOf k' < t.calls.length := by rw [hv.size]; exact List.idxOf_lt_length_iff.2 hk
          refine ⟨_, List.getElem?_set_self hlen, hzu, ?_, ?_, hzr, hza, hzp⟩
          · rw [move_src _ _ _ _ _ (by simp)]
          · rw [move_dst _ _ _ _ _ (by simp), hzt]; simp
        · have hi' : order.idxOf k ≠ i := fun e => hik (by rw [← e, mem_at hk] at hi; exact (Option.some.inj hi).symm)
          rw [List.getElem?_set_ne hi', move_ne _ _ _ _ _ _ (by simpa using hik) (by simp), move_ne _ _ _ _ _ _ (by simp) (by simpa using hik)]
          exact hv.call i k' hi
      · intro r'
        have hm : ∀ k', move s.answers (.queue k) (.taken k) a rest (.recv c r' k') = s.answers (.recv c r' k') :=
          fun k' => move_ne _ _ _ _ _ _ (by simp) (by simp)
        dsimp only
        simpa only [hm] using hv.conn r'
    · refine ⟨none, order, t, rfl, hv.same (fun r' => rfl) (fun r' k' => ?_) (fun k' hk' => ?_) (fun k' hk' => ?_) (fun _ _ => rfl) (fun _ _ => rfl)⟩ <;> dsimp only
      · rw [move_ne _ _ _ _ _ _ (by simp) (by simp)]
      · have : k' ≠ k := by rintro rfl; exact hk hk'
        rw [move_ne _ _ _ _ _ _ (by simpa using this) (by simp)]
      · have : k' ≠ k := by rintro rfl; exact hk hk'
        rw [move_ne _ _ _ _ _ _ (by simp) (by simpa using this)]
  | moveP l l' x rest h0 hl hn hr =>
    refine ⟨none, order, t, rfl, hv.same (fun _ => rfl) (fun _ _ => rfl) (fun _ _ => rfl) (fun _ _ => rfl) (fun k' _ => ?_) (fun _ _ => rfl)⟩
    dsimp only
    refine move_ne _ _ _ _ _ _ ?_ ?_ <;> rintro rfl
    · simp [nextP] at hn
    · cases l <;> simp [nextP] at hn
  | forward r c x rest d h0 hl hd hr => exact ⟨none, order, t, rfl, hv.same (fun _ => rfl) (fun _ _ => rfl) (fun _ _ => rfl) (fun _ _ => rfl) (fun _ _ => by dsimp only; exact move_ne _ _ _ _ _ _ (by simp) (by simp)) (fun _ _ => rfl)⟩
  | accept d r cache tick x rest h0 hl hc hr => exact ⟨none, order, t, rfl, hv.same (fun _ => rfl) (fun _ _ => rfl) (fun _ _ => rfl) (fun _ _ => rfl) (fun _ _ => by dsimp only; exact move_ne _ _ _ _ _ _ (by simp) (by simp)) (fun _ _ => rfl)⟩
  | refuse d r cache tick x rest resp h0 hl hc =>
    exact ⟨none, order, t, rfl, hv.same (fun _ => rfl) (fun _ _ => by dsimp only; exact push_ne _ _ _ _ (by simp)) (fun _ _ => by dsimp only; exact push_ne _ _ _ _ (by simp))
      (fun _ _ => by dsimp only; exact push_ne _ _ _ _ (by simp)) (fun _ _ => by dsimp only; exact Function.update_of_ne (by simp) _ _) (fun _ _ => rfl)⟩
  | collect d now x rest tasks' h0 hl hb hc => exact ⟨none, order, t, rfl, hv.same (fun _ => rfl) (fun _ _ => rfl) (fun _ _ => rfl) (fun _ _ => rfl) (fun _ _ => by dsimp only; exact move_ne _ _ _ _ _ _ (by simp) (by simp)) (fun _ _ => rfl)⟩
  | collectRun d now x rest tasks' tt h0 hl hb hc => exact ⟨none, order, t, rfl, hv.same (fun _ => rfl) (fun _ _ => rfl) (fun _ _ => rfl) (fun _ _ => rfl) (fun _ _ => by dsimp only; exact move_ne _ _ _ _ _ _ (by simp) (by simp)) (fun _ _ => rfl)⟩
  | collectRefuse d now x rest tasks' i e h0 hl hb hc =>
    exact ⟨none, order, t, rfl, hv.same (fun _ => rfl) (fun _ _ => by dsimp only; exact push_ne _ _ _ _ (by simp)) (fun _ _ => by dsimp only; exact push_ne _ _ _ _ (by simp))
      (fun _ _ => by dsimp only; exact push_ne _ _ _ _ (by simp)) (fun _ _ => by dsimp only; exact move_ne _ _ _ _ _ _ (by simp) (by simp)) (fun _ _ => rfl)⟩
  | finish k r b buf tt resps h0 hj ho =>
    exact ⟨none, order, t, rfl, hv.same (fun _ => rfl) (fun _ _ => by dsimp only; exact Function.update_of_ne (by simp) _ _) (fun _ _ => by dsimp only; exact Function.update_of_ne (by simp) _ _)
      (fun _ _ => by dsimp only; exact Function.update_of_ne (by simp) _ _) (fun _ _ => rfl) (fun _ _ => rfl)⟩
  | route r c a rest x h0 hf hl hn hp =>
    exact ⟨none, order, t, rfl, hv.same (fun _ => rfl) (fun _ _ => by dsimp only; exact move_ne _ _ _ _ _ _ (by simp) (by simp)) (fun _ _ => by dsimp only; exact move_ne _ _ _ _ _ _ (by simp) (by simp))
      (fun _ _ => by dsimp only; exact move_ne _ _ _ _ _ _ (by simp) (by simp)) (fun _ _ => rfl) (fun _ _ => rfl)⟩
  | drop r a rest x h0 hf hl hn hp =>
    exact ⟨none, order, t, rfl, hv.same (fun _ => rfl) (fun _ _ => by dsimp only; exact move_ne _ _ _ _ _ _ (by simp) (by simp)) (fun _ _ => by dsimp only; exact move_ne _ _ _ _ _ _ (by simp) (by simp))
      (fun _ _ => by dsimp only; exact move_ne _ _ _ _ _ _ (by simp) (by simp)) (fun _ _ => rfl) (fun _ _ => rfl)⟩
  | ignore c' r a rest h0 hf hl hp =>
    exact ⟨none, order, t, rfl, hv.same (fun _ => rfl) (fun _ _ => by dsimp only; exact move_ne _ _ _ _ _ _ (by simp) (by simp)) (fun _ _ => by dsimp only; exact move_ne _ _ _ _ _ _ (by simp) (by simp))
      (fun _ _ => by dsimp only; exact move_ne _ _ _ _ _ _ (by simp) (by simp)) (fun _ _ => rfl) (fun _ _ => rfl)⟩
  | _ => exact ⟨none, order, t, rfl, hv.same (fun _ => rfl) (fun _ _ => rfl) (fun _ _ => rfl) (fun _ _ => rfl) (fun _ _ => rfl) (fun _ _ => rfl)⟩

theorem client_view_init (c : Fin m) : ClientView cfg c [] (init : State μ K m n) (RelayConn.init n) := by
  refine ⟨List.nodup_nil, fun k => by simp [init], by simp [RelayConn.init], rfl, fun i k h => by simp at h, fun r => ⟨⟨[], none, .idle⟩, by simp [RelayConn.init], rfl, fun u => rfl, .inl ⟨rfl, fun _ => rfl⟩⟩⟩

theorem owned_init : Owned cfg (init : State μ K m n) :=
  ⟨fun c r u k h => by simp [init] at h, fun c r k a h => by simp [init] at h, fun k a h => by simp [init] at h, fun k a h => by simp [init] at h, fun k a h => by simp [init] at h⟩

theorem owned_run {s0 s : State μ K m n} {es : List (Event μ K m n)} (hr : Run cfg s0 es s) (ho : Owned cfg s0) : Owned cfg s := by
  induction hr with
  | nil => exact ho
  | cons st _ ih => exact ih (ho.step _ _ _ st)

/-- Every state of the whole system is, at a client, a state that the client alone can reach, in a run in which its cleanup does nothing. -/
theorem client_run (hu : ∀ (k : Fin K) (r : Fin n), ((cfg.calls k).parcels r).note.calluuid = cfg.uuid k) (c : Fin m) {s0 s : State μ K m n} {es : List (Event μ K m n)} (hr : Run cfg s0 es s)
    (evs0 : List RelayConn.Ev) (order : List (Fin K)) (t : RelayConn.State) (hv : ClientView cfg c order s0 t) (ho : Owned cfg s0) (h0 : RelayConn.run (RelayConn.init n) evs0 = some t)
    (hc : RelayConn.CalmRun n evs0 t) :
    ∃ evs order' t', RelayConn.run (RelayConn.init n) evs = some t' ∧ RelayConn.CalmRun n evs t' ∧ ClientView cfg c order' s t' := by
  induction hr generalizing evs0 order t with
  | nil s => exact ⟨evs0, order, t, h0, hc, hv⟩
  | @cons s1 s2 s3 e es st _ ih =>
    obtain ⟨e1, order1, t1, h1, h2⟩ := client_step hu c order s1 t e s2 hv ho st
    refine ih (evs0 ++ e1.toList) order1 t1 h2 (ho.step _ _ _ st) (by rw [conn_run_append, h0]; exact h1) ?_
    cases e1 with
    | none =>
      cases h1
      simpa using hc
    | some e1 =>
      refine .step evs0 t t1 e1 hc ?_ ?_
      · simp only [Option.toList_some, RelayConn.run] at h1
        cases hs : RelayConn.step t e1 with
        | none => rw [hs] at h1; cases h1
        | some t2 => rw [hs] at h1; exact h1
      · rintro r x rfl y hy
        have hlt : r < n := by rw [← hv.relays]; exact (List.getElem?_eq_some_iff.1 hy).1
        obtain ⟨y', hy', hcl, -⟩ := hv.conn ⟨r, hlt⟩
        obtain rfl : y' = y := Option.some.inj (hy'.symm.trans hy)
        simp [RelayConn.Conn.busyWith, hcl]

end Resmix.Rrpc.CallSystem
