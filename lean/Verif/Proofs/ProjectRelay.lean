import Verif.Spec.Project
import Verif.Proofs.GoMap
set_option autoImplicit false
namespace Resmix.Rrpc.CallSystem
variable {μ : Type} {K m n : Nat} {cfg : Config μ K m n}

theorem move_ne {L α : Type} [DecidableEq L] (f : L → List α) (l l' q : L) (x : α) (rest : List α) (h1 : q ≠ l) (h2 : q ≠ l') : move f l l' x rest q = f q := by
  simp [move, Function.update_of_ne, h1, h2]

theorem move_src {L α : Type} [DecidableEq L] (f : L → List α) (l l' : L) (x : α) (rest : List α) (h : l ≠ l') : move f l l' x rest l = rest := by
  simp [move, Function.update_of_ne, h]

theorem move_dst {L α : Type} [DecidableEq L] (f : L → List α) (l l' : L) (x : α) (rest : List α) (h : l ≠ l') : move f l l' x rest l' = f l' ++ [x] := by
  simp [move, Function.update_of_ne, h.symm]

theorem push_ne {L α : Type} [DecidableEq L] (f : L → List α) (l q : L) (x : α) (h1 : q ≠ l) : push f l x q = f q := by
  simp [push, Function.update_of_ne, h1]

/-- Invariant: a relay's handler has one request at a time. -/
def OneAtATime (s : State μ K m n) : Prop := ∀ (r : Fin n) (c : Fin m), s.parcels (.handling r c) = [] ∨ (s.storing r c = none ∧ (s.parcels (.handling r c)).length = 1)

theorem set2_on {A B V : Type} [DecidableEq A] [DecidableEq B] (f : A → B → V) (a : A) (b : B) (v : V) : set2 f a b v a b = v := by simp [set2]

theorem set2_off {A B V : Type} [DecidableEq A] [DecidableEq B] (f : A → B → V) (a a' : A) (b b' : B) (v : V) (h : ¬ (a' = a ∧ b' = b)) : set2 f a b v a' b' = f a' b' := by
  unfold set2
  by_cases h1 : a' = a
  · subst h1
    have : b' ≠ b := fun e => h ⟨rfl, e⟩
    simp [Function.update_of_ne, this]
  · simp [Function.update_of_ne, h1]

/-- A simulation step by step gives one of whole runs. -/
theorem simulate {β τ : Type} (proj : State μ K m n → Event μ K m n → List β) (run : τ → List β → Option τ)
    (hnil : ∀ t, run t [] = some t) (happ : ∀ t a b, run t (a ++ b) = (run t a).bind fun t' => run t' b) (View : State μ K m n → τ → Prop)
    (hstep : ∀ s t e s', View s t → Step cfg s e s' → ∃ t', run t (proj s e) = some t' ∧ View s' t') (s s' : State μ K m n) (es : List (Event μ K m n)) (t : τ) (hv : View s t)
    (hr : Run cfg s es s') : ∃ evs t', Trace cfg proj s es s' evs ∧ run t evs = some t' ∧ View s' t' := by
  induction hr generalizing t with
  | nil s => exact ⟨[], t, .nil _, hnil t, hv⟩
  | @cons s1 s2 s3 e es st _ ih =>
    obtain ⟨t1, h1, h2⟩ := hstep s1 t e s2 hv st
    obtain ⟨evs, t2, h3, h4, h5⟩ := ih t1 h2
    exact ⟨_, t2, .cons st h3, by rw [happ, h1]; exact h4, h5⟩

theorem relay_run_append (s : Relay.State) (a b : List Relay.Ev) : Relay.run s (a ++ b) = (Relay.run s a).bind fun s' => Relay.run s' b := by
  induction a generalizing s with
  | nil => rfl
  | cons e a ih =>
    simp only [List.cons_append, Relay.run]
    cases Relay.step s e with
    | none => rfl
    | some s' => exact ih s'

theorem one_step (s s' : State μ K m n) (e : Event μ K m n) (h : OneAtATime s) (st : Step cfg s e s') : OneAtATime s' := by
  intro r c
  have h' := h r c
  cases st with
  | moveP l l' x rest h0 hl hn hr =>
    simp only
    cases l <;> simp only [nextP, Option.some.injEq, reduceCtorEq] at hn <;> subst hn
    case up c' r' =>
      by_cases hrc : r' = r ∧ c' = c
      · obtain ⟨rfl, rfl⟩ := hrc
        right
        rw [move_dst _ _ _ _ _ (by simp)]
        simp only [roomP] at hr
        exact ⟨hr.2, by rw [hr.1]; rfl⟩
      · rw [move_ne _ _ _ _ _ _ (by simp) (by simp only [ne_eq, PLoc.handling.injEq]; rintro ⟨rfl, rfl⟩; exact hrc ⟨rfl, rfl⟩)]
        exact h'
    all_goals
      rw [move_ne _ _ _ _ _ _ (by simp) (by simp)]
      exact h'
  | forward r' c' x rest d h0 hl hd hr =>
    simp only
    by_cases hrc : r' = r ∧ c' = c
    · obtain ⟨rfl, rfl⟩ := hrc
      left
      rw [move_src _ _ _ _ _ (by simp)]
      rcases h' with h' | ⟨-, h'⟩
      · rw [h'] at hl; cases hl
      · rw [hl] at h'; simpa using h'
    · rw [move_ne _ _ _ _ _ _ (by simp only [ne_eq, PLoc.handling.injEq]; rintro ⟨rfl, rfl⟩; exact hrc ⟨rfl, rfl⟩) (by simp), set2_off _ _ _ _ _ _ (by rintro ⟨rfl, rfl⟩; exact hrc ⟨rfl, rfl⟩)]
      exact h'
  | store r' c' u h0 hs =>
    simp only
    by_cases hrc : r' = r ∧ c' = c
    · obtain ⟨rfl, rfl⟩ := hrc
      rw [set2_on]
      rcases h' with h' | ⟨-, h'⟩
      · exact .inl h'
      · exact .inr ⟨rfl, h'⟩
    · rw [set2_off _ _ _ _ _ _ (by rintro ⟨rfl, rfl⟩; exact hrc ⟨rfl, rfl⟩)]
      exact h'
  | begin k h0 hb => simp only; rw [Function.update_of_ne (by simp)]; exact h'
  | register k x rest h0 hl hr => simp only; rw [move_ne _ _ _ _ _ _ (by simp) (by simp)]; exact h'
  | accept d r' cache tick x rest h0 hl hc hr => simp only; rw [move_ne _ _ _ _ _ _ (by simp) (by simp)]; exact h'
  | refuse d r' cache tick x rest resp h0 hl hc => simp only; rw [Function.update_of_ne (by simp)]; exact h'
  | collect d now x rest tasks' h0 hl hb hc => simp only; rw [move_ne _ _ _ _ _ _ (by simp) (by simp)]; exact h'
  | collectRun d now x rest tasks' t h0 hl hb hc => simp only; rw [move_ne _ _ _ _ _ _ (by simp) (by simp)]; exact h'
  | collectRefuse d now x rest tasks' i e h0 hl hb hc => simp only; rw [move_ne _ _ _ _ _ _ (by simp) (by simp)]; exact h'
  | _ => exact h'

/-- Nothing at relay `r` has changed. -/
theorem RelayView.same {r : Fin n} {s s' : State μ K m n} {t : Relay.State} (h : RelayView r s t) (h1 : ∀ c, s'.answers (.resps r c) = s.answers (.resps r c))
    (h2 : ∀ c, s'.answers (.wireC r c) = s.answers (.wireC r c)) (h3 : ∀ c, s'.answers (.routing r c) = s.answers (.routing r c))
    (h4 : ∀ c, s'.storing r c = s.storing r c) (h5 : s'.pending r = s.pending r) (h6 : s'.crashed = false → s.crashed = false) : RelayView r s' t := by
  obtain ⟨a, b, c, d, e⟩ := h
  refine ⟨a, fun c => ?_, fun u => by rw [h5]; exact c u, ?_, fun h => e (h6 h)⟩
  · rw [h1, h2, h4]; exact b c
  · simpa only [h3] using d


/-- Only the stream of client `c` has changed. -/
theorem RelayView.stream_set {r : Fin n} {s : State μ K m n} {t : Relay.State} (h : RelayView r s t) (c : Fin m) (x : Relay.Stream) (c' : Fin m) :
    (t.streams.set (c : Nat) x)[(c' : Nat)]? = if c' = c then some x else t.streams[(c' : Nat)]? := by
  by_cases hc : c' = c
  · subst hc
    have : (c' : Nat) < t.streams.length := by rw [h.size]; exact c'.2
    simp [this]
  · have : (c : Nat) ≠ (c' : Nat) := fun e => hc (Fin.ext e.symm)
    simp [hc, List.getElem?_set_ne this]

theorem relay_run_one (t t' : Relay.State) (e : Relay.Ev) (h : Relay.step t e = some t') : Relay.run t [e] = some t' := by simp [Relay.run, h]

theorem move_resps {s : State μ K m n} {r : Fin n} {c : Fin m} (l l' : ALoc K m n) (a : Ans K n) (rest : List (Ans K n)) (h1 : .resps r c ≠ l) (h2 : .resps r c ≠ l') :
    move s.answers l l' a rest (.resps r c) = s.answers (.resps r c) := move_ne _ _ _ _ _ _ h1 h2

set_option maxHeartbeats 4000000 in
/-- What relay `r` does in a step of the system it can do alone. -/
theorem relay_step (r : Fin n) (s : State μ K m n) (t : Relay.State) (e : Event μ K m n) (s' : State μ K m n) (hv : RelayView r s t) (h1 : OneAtATime s) (st : Step cfg s e s') :
    ∃ t', Relay.run t (relayEv cfg r s e) = some t' ∧ RelayView r s' t' := by
  have same : ∀ (s' : State μ K m n), (∀ c, s'.answers (.resps r c) = s.answers (.resps r c)) → (∀ c, s'.answers (.wireC r c) = s.answers (.wireC r c)) →
      (∀ c, s'.answers (.routing r c) = s.answers (.routing r c)) → (∀ c, s'.storing r c = s.storing r c) → s'.pending r = s.pending r →
      (s'.crashed = false → s.crashed = false) → ∃ t', Relay.run t [] = some t' ∧ RelayView r s' t' :=
    fun s' a b c d e f => ⟨t, rfl, hv.same a b c d e f⟩
  cases st with
  | forward r' c x rest d h0 hl hd hr =>
    simp only [relayEv]
    split
    · rename_i hrr
      subst hrr
      obtain ⟨y, hy, hya, hyq, hyf, hyd⟩ := hv.stream c
      have hst : s.storing r' c = none := by
        rcases h1 r' c with h | ⟨h, -⟩
        · rw [h] at hl; cases hl
        · exact h
      rw [hl]
      refine ⟨_, relay_run_one t _ _ (show Relay.step t (.forward c (cfg.parcel x).note.calluuid) = some { t with streams := t.streams.set c { y with forwarding := some (cfg.parcel x).note.calluuid } } from ?_), ?_⟩
      · simp [Relay.step, hv.alive h0, Relay.State.update, hy, hyf, hst]
      · refine ⟨by simpa using hv.size, fun c' => ?_, hv.pending, hv.routing, fun _ => hv.alive h0⟩
        rw [show ({ t with streams := t.streams.set c { y with forwarding := some (cfg.parcel x).note.calluuid } } : Relay.State).streams = t.streams.set c { y with forwarding := some (cfg.parcel x).note.calluuid } from rfl, hv.stream_set]
        by_cases hc : c' = c
        · subst hc
          simp only [if_true]
          exact ⟨_, rfl, hya, hyq, by simp [set2_on], hyd⟩
        · simp only [hc, if_false]
          rw [set2_off _ _ _ _ _ _ (by rintro ⟨-, rfl⟩; exact hc rfl)]
          exact hv.stream c'
    · rename_i hrr
      exact same _ (fun _ => rfl) (fun _ => rfl) (fun _ => rfl) (fun c' => by dsimp only; exact set2_off _ _ _ _ _ _ (by rintro ⟨rfl, -⟩; exact hrr rfl)) rfl (fun h => h)
  | store r' c u h0 hs =>
    simp only [relayEv]
    split
    · rename_i hrr
      subst hrr
      obtain ⟨y, hy, hya, hyq, hyf, hyd⟩ := hv.stream c
      refine ⟨_, relay_run_one t _ _ (show Relay.step t (.store c) = some { t with streams := t.streams.set c { y with forwarding := none }, pending := t.pending.insert u c } from ?_), ?_⟩
      · simp [Relay.step, hv.alive h0, hy, hyf, hs]
      · refine ⟨by simpa using hv.size, fun c' => ?_, fun u' => ?_, hv.routing, fun _ => hv.alive h0⟩
        · rw [show ({ t with streams := t.streams.set c { y with forwarding := none }, pending := t.pending.insert u c } : Relay.State).streams = t.streams.set c { y with forwarding := none } from rfl, hv.stream_set]
          by_cases hc : c' = c
          · subst hc
            simp only [if_true]
            exact ⟨_, rfl, hya, hyq, by simp [set2_on], hyd⟩
          · simp only [hc, if_false]
            rw [set2_off _ _ _ _ _ _ (by rintro ⟨-, rfl⟩; exact hc rfl)]
            exact hv.stream c'
        · simp only [Function.update_self]
          rw [GoMap.lookup_insert, GoMap.lookup_insert, hv.pending]
          split <;> rfl
    · rename_i hrr
      exact same _ (fun _ => rfl) (fun _ => rfl) (fun _ => rfl) (fun c' => by dsimp only; exact set2_off _ _ _ _ _ _ (by rintro ⟨rfl, -⟩; exact hrr rfl))
        (Function.update_of_ne (fun e => hrr e.symm) _ _) (fun h => h)
  | route r' c a rest x h0 hf hl hn hp =>
    simp only [relayEv]
    split
    · rename_i hrr
      subst hrr
      have hro : t.routing = none := by
        rcases hv.routing with ⟨h, -⟩ | ⟨c', a', -, h, -⟩
        · exact h
        · rw [hf c'] at h; cases h
      have hsent : sent a = { relayStreamError := none, response := some a.msg, uuid := x.calluuid } := by simp [sent, hn]
      rw [hl]
      refine ⟨_, relay_run_one t _ _ (show Relay.step t (.incoming a.msg) = some { t with pending := t.pending.erase x.calluuid, routing := some ((c : Nat), sent a) } from ?_), ?_⟩
      · simp [Relay.step, hv.alive h0, hro, hn, hv.pending, hp, hsent]
      · refine ⟨hv.size, fun c' => ?_, fun u' => ?_, .inr ⟨c, a, rfl, ?_, fun c' hc => ?_⟩, fun _ => hv.alive h0⟩
        · dsimp only; rw [move_ne _ _ _ _ _ _ (by simp) (by simp), move_ne _ _ _ _ _ _ (by simp) (by simp)]
          exact hv.stream c'
        · simp only [Function.update_self]
          rw [GoMap.lookup_erase, GoMap.lookup_erase, hv.pending]
          split <;> rfl
        · dsimp only; rw [move_dst _ _ _ _ _ (by simp), hf c]; rfl
        · dsimp only; rw [move_ne _ _ _ _ _ _ (by simp) (by simpa using hc)]; exact hf c'
    · rename_i hrr
      exact same _ (fun _ => by dsimp only; exact move_ne _ _ _ _ _ _ (by simp) (by simp)) (fun _ => by dsimp only; exact move_ne _ _ _ _ _ _ (by simp) (by simp))
        (fun _ => by dsimp only; exact move_ne _ _ _ _ _ _ (by simp) (by simp only [ne_eq, ALoc.routing.injEq]; rintro ⟨rfl, -⟩; exact hrr rfl)) (fun _ => rfl)
        (Function.update_of_ne (fun e => hrr e.symm) _ _) (fun h => h)
  | drop r' a rest x h0 hf hl hn hp =>
    simp only [relayEv]
    have key : ∀ (t' : Relay.State), t' = t → RelayView r { s with answers := move s.answers (.incoming r') (.dropped r') a rest } t' := by
      rintro t' rfl
      exact hv.same (fun _ => by dsimp only; exact move_ne _ _ _ _ _ _ (by simp) (by simp)) (fun _ => by dsimp only; exact move_ne _ _ _ _ _ _ (by simp) (by simp))
        (fun _ => by dsimp only; exact move_ne _ _ _ _ _ _ (by simp) (by simp)) (fun _ => rfl) rfl (fun h => h)
    split
    · rename_i hrr
      subst hrr
      have hro : t.routing = none := by
        rcases hv.routing with ⟨h, -⟩ | ⟨c', a', -, h, -⟩
        · exact h
        · rw [hf c'] at h; cases h
      rw [hl]
      refine ⟨_, relay_run_one t _ _ (show Relay.step t (.incoming a.msg) = some t from ?_), key t rfl⟩
      simp [Relay.step, hv.alive h0, hro, hn, hv.pending, hp]
    · exact ⟨t, rfl, key t rfl⟩
  | routeCrash r' a rest h0 hf hl hn =>
    simp only [relayEv]
    split
    · rename_i hrr
      subst hrr
      have hro : t.routing = none := by
        rcases hv.routing with ⟨h, -⟩ | ⟨c', a', -, h, -⟩
        · exact h
        · rw [hf c'] at h; cases h
      rw [hl]
      refine ⟨_, relay_run_one t _ _ (show Relay.step t (.incoming a.msg) = some { t with crashed := true } from ?_), ?_⟩
      · simp [Relay.step, hv.alive h0, hro, hn]
      · exact ⟨hv.size, hv.stream, hv.pending, hv.routing, fun h => by cases h⟩
    · exact same _ (fun _ => rfl) (fun _ => rfl) (fun _ => rfl) (fun _ => rfl) rfl (fun h => by cases h)
  | clean r' u h0 =>
    simp only [relayEv]
    split
    · rename_i hrr
      subst hrr
      refine ⟨_, relay_run_one t _ _ (show Relay.step t (.clean u) = some { t with pending := t.pending.erase u } from ?_), ?_⟩
      · simp [Relay.step, hv.alive h0]
      · refine ⟨hv.size, hv.stream, fun u' => ?_, hv.routing, fun _ => hv.alive h0⟩
        simp only [Function.update_self]
        rw [GoMap.lookup_erase, GoMap.lookup_erase, hv.pending]
        split <;> rfl
    · rename_i hrr
      exact same _ (fun _ => rfl) (fun _ => rfl) (fun _ => rfl) (fun _ => rfl) (Function.update_of_ne (fun e => hrr e.symm) _ _) (fun h => h)
  | answer c r' k a rest h0 hf hl hp =>
    refine ⟨t, rfl, hv.size, fun c' => ?_, hv.pending, ?_, fun _ => hv.alive h0⟩
    · obtain ⟨y, hy, hya, hyq, hyf, hyd⟩ := hv.stream c'
      refine ⟨y, hy, hya, ?_, hyf, ?_⟩
      · dsimp only; rw [move_ne _ _ _ _ _ _ (by simp) (by simp)]; exact hyq
      · by_cases hrc : r' = r ∧ c = c'
        · obtain ⟨rfl, rfl⟩ := hrc
          dsimp only; rw [move_src _ _ _ _ _ (by simp)]
          rw [hl] at hyd
          exact (List.suffix_cons _ _).trans hyd
        · dsimp only; rw [move_ne _ _ _ _ _ _ (by simp only [ne_eq, ALoc.wireC.injEq]; rintro ⟨rfl, rfl⟩; exact hrc ⟨rfl, rfl⟩) (by simp)]; exact hyd
    · have hm : ∀ c', move s.answers (.wireC r' c) (.recv c r' k) a rest (.routing r c') = s.answers (.routing r c') := fun c' => move_ne _ _ _ _ _ _ (by simp) (by simp)
      dsimp only; simpa only [hm] using hv.routing
  | ignore c r' a rest h0 hf hl hp =>
    refine ⟨t, rfl, hv.size, fun c' => ?_, hv.pending, ?_, fun _ => hv.alive h0⟩
    · obtain ⟨y, hy, hya, hyq, hyf, hyd⟩ := hv.stream c'
      refine ⟨y, hy, hya, ?_, hyf, ?_⟩
      · dsimp only; rw [move_ne _ _ _ _ _ _ (by simp) (by simp)]; exact hyq
      · by_cases hrc : r' = r ∧ c = c'
        · obtain ⟨rfl, rfl⟩ := hrc
          dsimp only; rw [move_src _ _ _ _ _ (by simp)]
          rw [hl] at hyd
          exact (List.suffix_cons _ _).trans hyd
        · dsimp only; rw [move_ne _ _ _ _ _ _ (by simp only [ne_eq, ALoc.wireC.injEq]; rintro ⟨rfl, rfl⟩; exact hrc ⟨rfl, rfl⟩) (by simp)]; exact hyd
    · have hm : ∀ c', move s.answers (.wireC r' c) (.ignored c r') a rest (.routing r c') = s.answers (.routing r c') := fun c' => move_ne _ _ _ _ _ _ (by simp) (by simp)
      dsimp only; simpa only [hm] using hv.routing
  | moveA l l' a rest h0 hl hn hr =>
    cases l <;> simp only [nextA, Option.some.injEq, reduceCtorEq] at hn <;> subst hn
    case routing r' c =>
      simp only [relayEv]
      split
      · rename_i hrr
        subst hrr
        obtain ⟨y, hy, hya, hyq, hyf, hyd⟩ := hv.stream c
        obtain ⟨c1, a1, hro, hra, hrn⟩ : ∃ (c : Fin m) (a : Ans K n), t.routing = some ((c : Nat), sent a) ∧ s.answers (.routing r' c) = [a] ∧ ∀ c', c' ≠ c → s.answers (.routing r' c') = [] := by
          rcases hv.routing with ⟨-, h⟩ | h
          · rw [h c] at hl; cases hl
          · exact h
        have hc1 : c = c1 := by
          by_contra hne
          rw [hrn c hne] at hl; cases hl
        subst hc1
        rw [hra] at hl
        obtain ⟨rfl, rfl⟩ : a1 = a ∧ rest = [] := by simpa [eq_comm] using hl
        simp only [roomA] at hr
        refine ⟨_, relay_run_one t _ _ (show Relay.step t .route = some { t with streams := t.streams.set c { y with queue := y.queue ++ [sent a1] }, routing := none } from ?_), ?_⟩
        · simp [Relay.step, hv.alive h0, hro, hy, hyq, Relay.capacity, hr]
        · refine ⟨by simpa using hv.size, fun c' => ?_, hv.pending, .inl ⟨rfl, fun c' => ?_⟩, fun _ => hv.alive h0⟩
          · rw [show ({ t with streams := t.streams.set c { y with queue := y.queue ++ [sent a1] }, routing := none } : Relay.State).streams = t.streams.set c { y with queue := y.queue ++ [sent a1] } from rfl, hv.stream_set]
            by_cases hc : c' = c
            · subst hc
              simp only [if_true]
              refine ⟨_, rfl, hya, ?_, hyf, ?_⟩
              · dsimp only; rw [move_dst _ _ _ _ _ (by simp), hyq]; simp
              · dsimp only; rw [move_ne _ _ _ _ _ _ (by simp) (by simp)]; exact hyd
            · simp only [hc, if_false]
              rw [move_ne _ _ _ _ _ _ (by simp) (by simpa using hc), move_ne _ _ _ _ _ _ (by simp) (by simp)]
              exact hv.stream c'
          · by_cases hc : c' = c
            · subst hc
              dsimp only; exact move_src _ _ _ _ _ (by simp)
            · dsimp only; rw [move_ne _ _ _ _ _ _ (by simpa using hc) (by simp)]
              exact hrn c' hc
      · rename_i hrr
        exact same _ (fun _ => by dsimp only; exact move_ne _ _ _ _ _ _ (by simp) (by simp only [ne_eq, ALoc.resps.injEq]; rintro ⟨rfl, -⟩; exact hrr rfl)) (fun _ => by dsimp only; exact move_ne _ _ _ _ _ _ (by simp) (by simp))
          (fun _ => by dsimp only; exact move_ne _ _ _ _ _ _ (by simp only [ne_eq, ALoc.routing.injEq]; rintro ⟨rfl, -⟩; exact hrr rfl) (by simp)) (fun _ => rfl) rfl (fun h => h)
    case resps r' c =>
      simp only [relayEv]
      split
      · rename_i hrr
        subst hrr
        obtain ⟨y, hy, hya, hyq, hyf, hyd⟩ := hv.stream c
        rw [hl] at hyq
        refine ⟨_, relay_run_one t _ _ (show Relay.step t (.send c) = some { t with streams := t.streams.set c { y with queue := rest.map sent, delivered := y.delivered ++ [sent a] } } from ?_), ?_⟩
        · simp [Relay.step, hv.alive h0, Relay.State.update, hy, hyq, hya]
        · refine ⟨by simpa using hv.size, fun c' => ?_, hv.pending, ?_, fun _ => hv.alive h0⟩
          · rw [show ({ t with streams := t.streams.set c { y with queue := rest.map sent, delivered := y.delivered ++ [sent a] } } : Relay.State).streams = t.streams.set c { y with queue := rest.map sent, delivered := y.delivered ++ [sent a] } from rfl, hv.stream_set]
            by_cases hc : c' = c
            · subst hc
              simp only [if_true]
              refine ⟨_, rfl, hya, ?_, hyf, ?_⟩
              · dsimp only; rw [move_src _ _ _ _ _ (by simp)]
              · dsimp only; rw [move_dst _ _ _ _ _ (by simp)]
                obtain ⟨z, hz⟩ := hyd
                exact ⟨z, by simp [← hz]⟩
            · simp only [hc, if_false]
              rw [move_ne _ _ _ _ _ _ (by simpa using hc) (by simp), move_ne _ _ _ _ _ _ (by simp) (by simpa using hc)]
              exact hv.stream c'
          · have hm : ∀ c', move s.answers (.resps r' c) (.wireC r' c) a rest (.routing r' c') = s.answers (.routing r' c') := fun c' => move_ne _ _ _ _ _ _ (by simp) (by simp)
            dsimp only; simpa only [hm] using hv.routing
      · rename_i hrr
        exact same _ (fun _ => by dsimp only; exact move_ne _ _ _ _ _ _ (by simp only [ne_eq, ALoc.resps.injEq]; rintro ⟨rfl, -⟩; exact hrr rfl) (by simp))
          (fun _ => by dsimp only; exact move_ne _ _ _ _ _ _ (by simp) (by simp only [ne_eq, ALoc.wireC.injEq]; rintro ⟨rfl, -⟩; exact hrr rfl))
          (fun _ => by dsimp only; exact move_ne _ _ _ _ _ _ (by simp) (by simp)) (fun _ => rfl) rfl (fun h => h)
    all_goals
      exact same _ (fun _ => by dsimp only; exact move_ne _ _ _ _ _ _ (by simp) (by simp)) (fun _ => by dsimp only; exact move_ne _ _ _ _ _ _ (by simp) (by simp))
        (fun _ => by dsimp only; exact move_ne _ _ _ _ _ _ (by simp) (by simp)) (fun _ => rfl) rfl (fun h => h)
  | refuse d r' cache tick x rest resp h0 hl hc =>
    exact same _ (fun _ => by dsimp only; exact push_ne _ _ _ _ (by simp)) (fun _ => by dsimp only; exact push_ne _ _ _ _ (by simp)) (fun _ => by dsimp only; exact push_ne _ _ _ _ (by simp)) (fun _ => rfl) rfl (fun h => h)
  | collectRefuse d now x rest tasks' i e h0 hl hb hc =>
    exact same _ (fun _ => by dsimp only; exact push_ne _ _ _ _ (by simp)) (fun _ => by dsimp only; exact push_ne _ _ _ _ (by simp)) (fun _ => by dsimp only; exact push_ne _ _ _ _ (by simp)) (fun _ => rfl) rfl (fun h => h)
  | finish k r' h buf t' resps h0 hj ho =>
    exact same _ (fun _ => by dsimp only; exact Function.update_of_ne (by simp) _ _) (fun _ => by dsimp only; exact Function.update_of_ne (by simp) _ _) (fun _ => by dsimp only; exact Function.update_of_ne (by simp) _ _) (fun _ => rfl) rfl (fun h => h)
  | take k cache a rest h0 hw hask hl =>
    exact same _ (fun _ => by dsimp only; exact move_ne _ _ _ _ _ _ (by simp) (by simp)) (fun _ => by dsimp only; exact move_ne _ _ _ _ _ _ (by simp) (by simp))
        (fun _ => by dsimp only; exact move_ne _ _ _ _ _ _ (by simp) (by simp)) (fun _ => rfl) rfl (fun h => h)
  | checkCrash d r' cache tick x rest h0 hl hc => exact same _ (fun _ => rfl) (fun _ => rfl) (fun _ => rfl) (fun _ => rfl) rfl (fun h => by cases h)
  | finishCrash k r' h buf t' h0 hj ho => exact same _ (fun _ => rfl) (fun _ => rfl) (fun _ => rfl) (fun _ => rfl) rfl (fun h => by cases h)
  | _ => exact same _ (fun _ => rfl) (fun _ => rfl) (fun _ => rfl) (fun _ => rfl) rfl (fun h => h)

/-- The relay alone, with the streams of `m` clients. -/
def relayStart (m : Nat) : Relay.State := { Relay.init with streams := List.replicate m ⟨[], true, [], none⟩ }

theorem relay_connects (m : Nat) : Relay.run Relay.init (List.replicate m .connect) = some (relayStart m) := by
  have : ∀ (m : Nat) (t : Relay.State), t.crashed = false → Relay.run t (List.replicate m .connect) = some { t with streams := t.streams ++ List.replicate m ⟨[], true, [], none⟩ } := by
    intro m
    induction m with
    | zero => intro t _; simp [Relay.run]
    | succ m ih =>
      intro t ht
      simp only [List.replicate_succ, Relay.run, Relay.step, ht, Bool.false_eq_true, if_false]
      have := ih { t with streams := t.streams ++ [⟨[], true, [], none⟩] } ht
      simpa [ht] using this
  rw [this m _ rfl]
  simp [relayStart, Relay.init]

theorem relay_view_init (r : Fin n) : RelayView r (init : State μ K m n) (relayStart m) := by
  refine ⟨by simp [relayStart], fun c => ⟨⟨[], true, [], none⟩, ?_, rfl, rfl, rfl, ?_⟩, fun u => rfl, .inl ⟨rfl, fun _ => rfl⟩, fun _ => rfl⟩
  · simp [relayStart]
  · simp [init]

/-- Every run of the whole system is, at a relay, a run of the relay alone. -/
theorem relay_run (r : Fin n) (s : State μ K m n) (es : List (Event μ K m n)) (hr : Run cfg init es s) :
    ∃ evs t, Trace cfg (relayEv cfg r) init es s evs ∧ Relay.run (relayStart m) evs = some t ∧ RelayView r s t := by
  obtain ⟨evs, t, h1, h2, h3, -⟩ := simulate (cfg := cfg) (relayEv cfg r) Relay.run (fun _ => rfl) relay_run_append (fun s t => RelayView r s t ∧ OneAtATime s)
    (fun s t e s' hv st => by
      obtain ⟨t', h, hv'⟩ := relay_step r s t e s' hv.1 hv.2 st
      exact ⟨t', h, hv', one_step s s' e hv.2 st⟩) init s es (relayStart m) ⟨relay_view_init r, fun _ _ => .inl rfl⟩ hr
  exact ⟨evs, t, h1, h2, h3⟩

end Resmix.Rrpc.CallSystem
