import Verif.Model.SendConn
import Mathlib.Data.List.Perm.Basic
import Mathlib.Data.List.Nodup
set_option autoImplicit false
/-
C89, C90: connections whose stream has ended.
-/
namespace Resmix.Rrpc.SendConn
variable {α : Type}

theorem run_append (s : State α) (a b : List (Ev α)) : run s (a ++ b) = (run s a).bind fun s' => run s' b := by
  induction a generalizing s with
  | nil => rfl
  | cons e a ih =>
    simp only [List.cons_append, run]
    cases step s e with
    | none => rfl
    | some s' => exact ih s'

theorem run_then {s s1 : State α} {a b : List (Ev α)} (h : run s a = some s1) : run s (a ++ b) = run s1 b := by
  rw [run_append, h]; rfl

theorem run_step {s s1 : State α} {e : Ev α} {b : List (Ev α)} (h : step s e = some s1) : run s (e :: b) = run s1 b := by
  rw [run, h]

/-- A user waits to send over a full channel nobody empties, and the connection is not closed: -/
def Stuck (k u : Nat) (x : α) (rest : List (Nat × α)) (s : State α) : Prop :=
  s.users[u]? = some ((k, x) :: rest) ∧ ∃ c, s.conns[k]? = some c ∧ c.running = false ∧ c.cancelled = false ∧ c.queue.length = capacity

theorem stuck_step {k u : Nat} {x : α} {rest : List (Nat × α)} {s s' : State α} {e : Ev α} (h : Stuck k u x rest s) (he : e ≠ .cancel k)
    (hs : step s e = some s') : Stuck k u x rest s' := by
  obtain ⟨hu, c, hc, h1, h2, h3⟩ := h
  have hul := (List.getElem?_eq_some_iff.1 hu).1
  have hkl := (List.getElem?_eq_some_iff.1 hc).1
  cases e with
  | start todo =>
    simp only [step, Option.some.injEq] at hs; subst hs
    exact ⟨by rw [List.getElem?_append_left hul]; exact hu, c, hc, h1, h2, h3⟩
  | push v =>
    simp only [step] at hs
    split at hs
    · next k' y rest' hv =>
      split at hs
      · next c' hc' =>
        split at hs
        · next hlt =>
          injection hs with hs; subst hs
          have hk : k' ≠ k := by rintro rfl; rw [hc] at hc'; injection hc' with hc'; subst hc'; omega
          have hvu : v ≠ u := by
            rintro rfl; rw [hu] at hv; injection hv with hv; injection hv with hv _; injection hv with hv _; exact hk hv.symm
          exact ⟨by simp [List.getElem?_set_ne hvu, hu], c, by simp [List.getElem?_set_ne hk, hc], h1, h2, h3⟩
        · cases hs
      · cases hs
    · cases hs
  | skip v =>
    simp only [step] at hs
    split at hs
    · next k' y rest' hv =>
      split at hs
      · next c' hc' =>
        split at hs
        · next hcan =>
          injection hs with hs; subst hs
          have hvu : v ≠ u := by
            rintro rfl; rw [hu] at hv; injection hv with hv; injection hv with hv _; injection hv with hv _
            subst hv; rw [hc] at hc'; injection hc' with hc'; subst hc'; simp [h2] at hcan
          exact ⟨by simp [List.getElem?_set_ne hvu, hu], c, hc, h1, h2, h3⟩
        · cases hs
      · cases hs
    · cases hs
  | send j =>
    simp only [step] at hs
    split at hs
    · next c' hc' =>
      split at hs
      · next hr =>
        have hj : j ≠ k := by rintro rfl; rw [hc] at hc'; injection hc' with hc'; subst hc'; simp [h1] at hr
        split at hs
        · split at hs <;> (injection hs with hs; subst hs; exact ⟨hu, c, by simp [List.getElem?_set_ne hj, hc], h1, h2, h3⟩)
        · cases hs
      · cases hs
    · cases hs
  | sendErr j =>
    simp only [step] at hs
    split at hs
    · next c' hc' =>
      split at hs
      · next hr =>
        have hj : j ≠ k := by rintro rfl; rw [hc] at hc'; injection hc' with hc'; subst hc'; simp [h1] at hr
        split at hs
        · injection hs with hs; subst hs; exact ⟨hu, c, by simp [List.getElem?_set_ne hj, hc], h1, h2, h3⟩
        · cases hs
      · cases hs
    · cases hs
  | stop j =>
    simp only [step] at hs
    split at hs
    · next c' hc' =>
      split at hs
      · next hr =>
        have hj : j ≠ k := by rintro rfl; rw [hc] at hc'; injection hc' with hc'; subst hc'; simp [h2] at hr
        injection hs with hs; subst hs; exact ⟨hu, c, by simp [List.getElem?_set_ne hj, hc], h1, h2, h3⟩
      · cases hs
    · cases hs
  | ends j =>
    simp only [step] at hs
    split at hs
    · next c' hc' =>
      injection hs with hs; subst hs
      by_cases hj : j = k
      · subst hj
        rw [hc] at hc'; injection hc' with hc'; subst hc'
        exact ⟨hu, { c with alive := false }, by simp [hkl], h1, h2, h3⟩
      · exact ⟨hu, c, by simp [List.getElem?_set_ne hj, hc], h1, h2, h3⟩
    · cases hs
  | cancel j =>
    simp only [step] at hs
    split at hs
    · next c' hc' =>
      injection hs with hs; subst hs
      have hj : j ≠ k := fun h => he (by rw [h])
      exact ⟨hu, c, by simp [List.getElem?_set_ne hj, hc], h1, h2, h3⟩
    · cases hs

theorem stuck_run {k u : Nat} {x : α} {rest : List (Nat × α)} (evs : List (Ev α)) {s s' : State α} (h : Stuck k u x rest s)
    (he : .cancel k ∉ evs) (hs : run s evs = some s') : Stuck k u x rest s' := by
  induction evs generalizing s with
  | nil => simp only [run, Option.some.injEq] at hs; subst hs; exact h
  | cons e evs ih =>
    rw [run] at hs
    cases hst : step s e with
    | none => rw [hst] at hs; cases hs
    | some s1 =>
      rw [hst] at hs
      exact ih (stuck_step h (fun h => he (h ▸ List.mem_cons_self)) hst) (fun h => he (List.mem_cons_of_mem _ h)) hs

/-- The stream of connection `k` has ended, its channel holds `m` items; all other connections work and have sent everything. -/
structure Shape (n k m : Nat) (b : Bool) (s : State α) : Prop where
  len : s.conns.length = n
  dead : ∃ c, s.conns[k]? = some c ∧ c.running = b ∧ c.alive = false ∧ c.cancelled = false ∧ c.queue.length = m
  others : ∀ (i : Nat) c, i ≠ k → s.conns[i]? = some c → c.queue = [] ∧ c.running = true ∧ c.alive = true

theorem handover {n k : Nat} {b : Bool} (l tail : List (Nat × α)) (hl : ∀ e ∈ l, e.1 < n) (m : Nat) (s : State α) (u : Nat) (h : Shape n k m b s)
    (hu : s.users[u]? = some (l ++ tail)) (hm : m + l.countP (fun e => e.1 = k) ≤ capacity) :
    ∃ evs s', run s evs = some s' ∧ (∀ j, .cancel j ∉ evs) ∧ Shape n k (m + l.countP (fun e => e.1 = k)) b s' ∧ s'.users[u]? = some tail ∧ s'.users.length = s.users.length := by
  induction l generalizing m s with
  | nil => exact ⟨[], s, rfl, by simp, by simpa using h, hu, rfl⟩
  | cons e l ih =>
    obtain ⟨i, x⟩ := e
    have hi : i < n := hl (i, x) List.mem_cons_self
    have hul := (List.getElem?_eq_some_iff.1 hu).1
    by_cases hik : i = k
    · subst hik
      obtain ⟨c, hc, h1, h2, h3, h4⟩ := h.dead
      have hkl := (List.getElem?_eq_some_iff.1 hc).1
      simp only [List.countP_cons, decide_true, if_true] at hm
      have hst : step s (.push u) = some { conns := s.conns.set i { c with queue := c.queue ++ [x] }, users := s.users.set u (l ++ tail) } := by
        simp only [step, hu, List.cons_append, hc]
        rw [if_pos (by omega)]
      obtain ⟨evs, s', e1, e2, e3, e4, e5⟩ := ih (fun e he => hl e (List.mem_cons_of_mem _ he)) (m + 1)
        { conns := s.conns.set i { c with queue := c.queue ++ [x] }, users := s.users.set u (l ++ tail) }
        ⟨by simp [h.len], ⟨{ c with queue := c.queue ++ [x] }, by simp [hkl], h1, h2, h3, by simp [h4]⟩,
          fun j c' hj hc' => h.others j c' hj (by rwa [List.getElem?_set_ne (Ne.symm hj)] at hc')⟩ (by simp [hul]) (by omega)
      refine ⟨.push u :: evs, s', by rw [run, hst]; exact e1, ?_, ?_, e4, by rw [e5]; simp⟩
      · intro j hj; rcases List.mem_cons.1 hj with hj | hj
        · cases hj
        · exact e2 j hj
      · have : m + (((i, x) :: l).countP fun e => decide (e.1 = i)) = m + 1 + l.countP fun e => decide (e.1 = i) := by
          simp only [List.countP_cons, decide_true, if_true]; omega
        rw [this]; exact e3
    · have hil : i < s.conns.length := by rw [h.len]; exact hi
      obtain ⟨h1, h2, h3⟩ := h.others i s.conns[i] hik (List.getElem?_eq_getElem hil)
      set c := s.conns[i] with hcdef
      have hc : s.conns[i]? = some c := List.getElem?_eq_getElem hil
      set s1 : State α := { conns := s.conns.set i { c with queue := [x] }, users := s.users.set u (l ++ tail) } with hs1
      set s2 : State α := { conns := s.conns.set i { c with queue := [], sent := c.sent ++ [x] }, users := s.users.set u (l ++ tail) } with hs2
      have hst1 : step s (.push u) = some s1 := by
        simp only [step, hu, List.cons_append, hc]
        rw [if_pos (by rw [h1]; simp [capacity]), h1]; rfl
      have hst2 : step s1 (.send i) = some s2 := by
        simp [step, hs1, hs2, hil, h2, h3]
      have hkn : (decide (i = k)) = false := by simp [hik]
      simp only [List.countP_cons, hkn, Bool.false_eq_true, if_false, Nat.add_zero] at hm ⊢
      obtain ⟨evs, s', e1, e2, e3, e4, e5⟩ := ih (fun e he => hl e (List.mem_cons_of_mem _ he)) m s2
        ⟨by simp [hs2, h.len], by obtain ⟨d, hd, hr⟩ := h.dead; exact ⟨d, by simp [hs2, List.getElem?_set_ne hik, hd], hr⟩,
          fun j c' hj hc' => by
            by_cases hij : i = j
            · subst hij; simp [hs2, hil] at hc'; subst hc'; exact ⟨rfl, h2, h3⟩
            · simp only [hs2, List.getElem?_set_ne hij] at hc'; exact h.others j c' hj hc'⟩ (by simp [hs2, hul]) hm
      refine ⟨.push u :: .send i :: evs, s', by simp only [run, hst1, hst2]; exact e1, ?_, e3, e4, by rw [e5]; simp [hs2]⟩
      intro j hj
      simp only [List.mem_cons, reduceCtorEq, false_or] at hj
      exact e2 j hj

theorem Shape.start {n k m : Nat} {b : Bool} {s : State α} (h : Shape n k m b s) (todo : List (Nat × α)) :
    Shape n k m b { s with users := s.users ++ [todo] } := ⟨h.len, h.dead, h.others⟩

theorem robust_count (n k : Nat) (hk : k < n) (x : Nat → α) : (robustSends n x).countP (fun e => e.1 = k) = 1 := by
  unfold robustSends
  rw [List.countP_map]
  have : (List.range n).countP ((fun e : Nat × α => decide (e.1 = k)) ∘ fun i => (i, x i)) = (List.range n).count k := by
    rw [List.count]; apply List.countP_congr; intro a _; simp
  rw [this]
  have h1 := List.nodup_iff_count_le_one.1 (List.nodup_range (n := n)) k
  have h2 := List.count_pos_iff.2 (List.mem_range.2 hk)
  omega

theorem robust_lt (n : Nat) (x : Nat → α) : ∀ e ∈ robustSends n x, e.1 < n := by
  intro e he
  simp only [robustSends, List.mem_map, List.mem_range] at he
  obtain ⟨i, hi, rfl⟩ := he
  exact hi

/-- `j` robust calls hand over all their requests, one after the other. -/
theorem calls {n k : Nat} (hk : k < n) {b : Bool} (x : Nat → Nat → α) (j m : Nat) (s : State α) (h : Shape n k m b s) (hm : m + j ≤ capacity) :
    ∃ evs s', run s evs = some s' ∧ (∀ i, .cancel i ∉ evs) ∧ Shape n k (m + j) b s' ∧ s'.users.length = s.users.length + j := by
  induction j generalizing m s with
  | zero => exact ⟨[], s, rfl, by simp, h, rfl⟩
  | succ j ih =>
    have hcnt := robust_count n k hk (x j)
    obtain ⟨evs, s', e1, e2, e3, e4, e5⟩ := handover (robustSends n (x j)) [] (robust_lt n _) m { s with users := s.users ++ [robustSends n (x j)] } s.users.length (h.start _)
      (by simp) (by rw [hcnt]; omega)
    rw [hcnt] at e3
    obtain ⟨evs', s'', f1, f2, f3, f4⟩ := ih (m + 1) s' e3 (by omega)
    refine ⟨.start (robustSends n (x j)) :: evs ++ evs', s'', ?_, ?_, ?_, by rw [f4, e5]; simp; omega⟩
    · rw [run_append, run]; simp only [step, e1, Option.bind_some]; exact f1
    · intro i hi
      simp only [List.cons_append, List.mem_cons, reduceCtorEq, List.mem_append, false_or] at hi
      exact hi.elim (e2 i) (f2 i)
    · rw [show m + (j + 1) = m + 1 + j by omega]; exact f3

/-- C89 fails: a relay `k` ends its stream (for instance because it crashed), and the client goes on with robust calls, whatever their requests. After 101 calls
the next one waits at relay `k`: in no continuation does it ever get past it (so it neither reaches the later relays nor looks at its own context or at
answers), unless the connection is closed. -/
theorem C89_dead_relay_refuted (n k : Nat) (hk : k < n) (x : Nat → Nat → α) (y : Nat → α) :
    ∃ evs s, run (init n) (.ends k :: evs) = some s ∧ (∀ j, .cancel j ∉ evs) ∧ s.users.length = 102 ∧
      ∀ more s', .cancel k ∉ more → run s more = some s' →
        s'.users[101]? = some ((k, y k) :: (List.range' (k + 1) (n - k - 1)).map fun i => (i, y i)) := by
  set d : Conn α := { (Conn.new : Conn α) with alive := false } with hd
  set s0 : State α := { conns := (init n : State α).conns.set k d, users := [] } with hs0
  have hlen0 : (init n : State α).conns.length = n := by simp [init]
  have hst0 : step (init n : State α) (.ends k) = some s0 := by
    simp [step, init, hk, hs0, hd, Conn.new]
  have sh0 : Shape n k 0 true s0 := by
    refine ⟨by simp [hs0, hlen0], ⟨d, by simp [hs0, hlen0, hk], rfl, rfl, rfl, rfl⟩, ?_⟩
    intro i c hi hc
    simp only [hs0, List.getElem?_set_ne (Ne.symm hi), init, List.getElem?_replicate] at hc
    split at hc
    · injection hc with hc; subst hc; exact ⟨rfl, rfl, rfl⟩
    · cases hc
  obtain ⟨ev1, s1, a1, a2, a3, a4⟩ := calls hk x 1 0 s0 sh0 (by simp [capacity])
  -- the goroutine finds the stream ended
  obtain ⟨c, hc, c1, c2, c3, c4⟩ := a3.dead
  have hkl := (List.getElem?_eq_some_iff.1 hc).1
  obtain ⟨q, hq⟩ : ∃ z, c.queue = [z] := List.length_eq_one_iff.1 c4
  set s2 : State α := { s1 with conns := s1.conns.set k { c with queue := [], running := false } } with hs2
  have hst2 : step s1 (.send k) = some s2 := by simp [step, hc, c1, c2, hq, hs2]
  have sh2 : Shape n k 0 false s2 := by
    refine ⟨by simp [hs2, a3.len], ⟨{ c with queue := [], running := false }, by simp [hs2, hkl], rfl, c2, c3, rfl⟩, ?_⟩
    intro i c' hi hc'
    simp only [hs2, List.getElem?_set_ne (Ne.symm hi)] at hc'
    exact a3.others i c' hi hc'
  obtain ⟨ev3, s3, b1, b2, b3, b4⟩ := calls hk (fun j => x (j + 1)) 100 0 s2 sh2 (by simp [capacity])
  have hsplit : robustSends n y = (List.range k).map (fun i => (i, y i)) ++ ((k, y k) :: (List.range' (k + 1) (n - k - 1)).map fun i => (i, y i)) := by
    unfold robustSends
    rw [show ((k, y k) :: (List.range' (k + 1) (n - k - 1)).map fun i => (i, y i)) = (List.range' k (n - k)).map fun i => (i, y i) by
      rw [show n - k = (n - k - 1) + 1 by omega, List.range'_succ, List.map_cons]; simp, ← List.map_append]
    congr 1
    rw [List.range_eq_range', List.range_eq_range']
    have := List.range'_append (s := 0) (m := k) (n := n - k) (step := 1)
    simp only [Nat.zero_add, Nat.one_mul] at this
    rw [this]; congr 1; omega
  have hcnt : ((List.range k).map (fun i => (i, y i))).countP (fun e => e.1 = k) = 0 := by
    rw [List.countP_eq_zero]
    intro e he
    simp only [List.mem_map, List.mem_range] at he
    obtain ⟨i, hi, rfl⟩ := he
    simp; omega
  have h101 : s3.users.length = 101 := by rw [b4, show s2.users.length = s1.users.length from rfl, a4]; simp [hs0]
  obtain ⟨ev4, s4, d1, d2, d3, d4, d5⟩ := handover ((List.range k).map (fun i => (i, y i))) ((k, y k) :: (List.range' (k + 1) (n - k - 1)).map fun i => (i, y i))
    (fun e he => by simp only [List.mem_map, List.mem_range] at he; obtain ⟨i, hi, rfl⟩ := he; simp; omega)
    (0 + 100) { s3 with users := s3.users ++ [robustSends n y] } 101 (b3.start _) (by rw [List.getElem?_append_right (by omega), h101]; simp [hsplit])
    (by rw [hcnt]; simp [capacity])
  rw [hcnt] at d3
  refine ⟨ev1 ++ .send k :: ev3 ++ .start (robustSends n y) :: ev4, s4, ?_, ?_, by rw [d5]; simp [h101], ?_⟩
  · rw [run_step hst0, List.append_assoc, run_then a1, List.cons_append, run_step hst2, run_then b1, run_step rfl]
    exact d1
  · intro j hj
    simp only [List.append_assoc, List.cons_append, List.mem_append, List.mem_cons, reduceCtorEq, false_or] at hj
    rcases hj with hj | hj | hj
    · exact a2 j hj
    · exact b2 j hj
    · exact d2 j hj
  · intro more s' hm hr
    obtain ⟨c, e1, e2, e3, e4, e5⟩ := d3.dead
    exact (stuck_run more ⟨d4, c, e1, e2, e4, e5⟩ hm hr).1

/-- C90 fails: a server `k` ends its stream to a relay. A client sends the relay 102 parcels for server `k` and then one for server `j`: the relay's handler waits
at the 102nd, and in no continuation does the parcel for server `j` leave it, unless the relay closes its connection to `k`. -/
theorem C90_dead_server_refuted (n k j : Nat) (hk : k < n) (x : Nat → α) (y : α) :
    ∃ evs s, run (init n) (.ends k :: .start ((List.range 102).map (fun i => (k, x i)) ++ [(j, y)]) :: evs) = some s ∧ (∀ i, .cancel i ∉ evs) ∧
      ∀ more s', .cancel k ∉ more → run s more = some s' → s'.users[0]? = some [(k, x 101), (j, y)] := by
  set d : Conn α := { (Conn.new : Conn α) with alive := false } with hd
  set s0 : State α := { conns := (init n : State α).conns.set k d, users := [] } with hs0
  have hlen0 : (init n : State α).conns.length = n := by simp [init]
  have hst0 : step (init n : State α) (.ends k) = some s0 := by
    simp [step, init, hk, hs0, hd, Conn.new]
  have sh0 : Shape n k 0 true s0 := by
    refine ⟨by simp [hs0, hlen0], ⟨d, by simp [hs0, hlen0, hk], rfl, rfl, rfl, rfl⟩, ?_⟩
    intro i c hi hc
    simp only [hs0, List.getElem?_set_ne (Ne.symm hi), init, List.getElem?_replicate] at hc
    split at hc
    · injection hc with hc; subst hc; exact ⟨rfl, rfl, rfl⟩
    · cases hc
  have hall : (List.range 102).map (fun i => (k, x i)) ++ [(j, y)] =
      [(k, x 0)] ++ ((List.range 100).map (fun i => (k, x (i + 1))) ++ [(k, x 101), (j, y)]) := by
    rw [show List.range 102 = 0 :: ((List.range 100).map (· + 1) ++ [101]) by decide]
    simp
  obtain ⟨ev1, s1, a1, a2, a3, a4, a5⟩ := handover [(k, x 0)] ((List.range 100).map (fun i => (k, x (i + 1))) ++ [(k, x 101), (j, y)])
    (by intro e he; rw [List.mem_singleton] at he; subst he; exact hk) 0
    { s0 with users := s0.users ++ [(List.range 102).map (fun i => (k, x i)) ++ [(j, y)]] } 0 (sh0.start _) (by rw [hall]; simp [hs0]) (by simp [capacity])
  simp only [List.countP_cons, List.countP_nil, decide_true, if_true, Nat.zero_add] at a3
  obtain ⟨c, hc, c1, c2, c3, c4⟩ := a3.dead
  have hkl := (List.getElem?_eq_some_iff.1 hc).1
  obtain ⟨q, hq⟩ : ∃ z, c.queue = [z] := List.length_eq_one_iff.1 c4
  set s2 : State α := { s1 with conns := s1.conns.set k { c with queue := [], running := false } } with hs2
  have hst2 : step s1 (.send k) = some s2 := by simp [step, hc, c1, c2, hq, hs2]
  have sh2 : Shape n k 0 false s2 := by
    refine ⟨by simp [hs2, a3.len], ⟨{ c with queue := [], running := false }, by simp [hs2, hkl], rfl, c2, c3, rfl⟩, ?_⟩
    intro i c' hi hc'
    simp only [hs2, List.getElem?_set_ne (Ne.symm hi)] at hc'
    exact a3.others i c' hi hc'
  have hcnt : ((List.range 100).map (fun i => (k, x (i + 1)))).countP (fun e => e.1 = k) = 100 := by
    rw [List.countP_eq_length.2]
    · simp
    · intro e he
      simp only [List.mem_map] at he
      obtain ⟨i, _, rfl⟩ := he
      simp
  obtain ⟨ev3, s3, b1, b2, b3, b4, b5⟩ := handover ((List.range 100).map (fun i => (k, x (i + 1)))) [(k, x 101), (j, y)]
    (by intro e he; simp only [List.mem_map] at he; obtain ⟨i, _, rfl⟩ := he; exact hk) 0 s2 0 sh2 a4 (by rw [hcnt]; simp [capacity])
  rw [hcnt] at b3
  refine ⟨ev1 ++ .send k :: ev3, s3, ?_, ?_, ?_⟩
  · rw [run_step hst0, run_step rfl, run_then a1, run_step hst2]
    exact b1
  · intro i hi
    simp only [List.mem_append, List.mem_cons, reduceCtorEq, false_or] at hi
    exact hi.elim (a2 i) (b2 i)
  · intro more s' hm hr
    obtain ⟨c, e1, e2, e3, e4, e5⟩ := b3.dead
    exact (stuck_run more ⟨b4, c, e1, e2, e4, e5⟩ hm hr).1

/-! ### What holds while all streams are open -/

/-- The events of an execution in which no stream ends and nothing is closed. -/
def Calm : Ev α → Prop
  | .start _ => True
  | .push _ => True
  | .send _ => True
  | _ => False

/-- A step of the senders and of the goroutines. -/
def Own : Ev α → Prop
  | .push _ => True
  | .send _ => True
  | _ => False

/-- What is meant for connection `k`. -/
def for_ (k : Nat) (l : List (Nat × α)) : List α := (l.filter fun e => e.1 = k).map (·.2)

/-- Everything the execution was asked to send over connection `k`. -/
def asked (k : Nat) (evs : List (Ev α)) : List α := evs.flatMap fun e => match e with | .start todo => for_ k todo | _ => []

/-- Everything handed in is for one of `n` connections. -/
def InRange (n : Nat) (evs : List (Ev α)) : Prop := ∀ todo, .start todo ∈ evs → ∀ e ∈ todo, e.1 < n

structure CalmInv (n : Nat) (s : State α) (ask : Nat → List α) : Prop where
  len : s.conns.length = n
  up : ∀ c ∈ s.conns, c.running = true ∧ c.alive = true ∧ c.cancelled = false
  range : ∀ l ∈ s.users, ∀ e ∈ l, e.1 < n
  acct : ∀ (k : Nat) c, s.conns[k]? = some c → (c.sent ++ c.queue ++ s.users.flatMap (for_ k)).Perm (ask k)

theorem flatMap_set {β γ : Type} (f : β → List γ) (l : List β) (i : Nat) (a b : β) (c : List γ) (hi : l[i]? = some a) (hp : (f a).Perm (c ++ f b)) :
    (l.flatMap f).Perm (c ++ (l.set i b).flatMap f) := by
  induction l generalizing i with
  | nil => simp at hi
  | cons x l ih =>
    cases i with
    | zero =>
      simp at hi; subst hi
      simp only [List.flatMap_cons, List.set_cons_zero]
      rw [← List.append_assoc]
      exact hp.append_right _
    | succ i =>
      simp only [List.getElem?_cons_succ] at hi
      simp only [List.flatMap_cons, List.set_cons_succ]
      refine ((ih i hi).append_left _).trans ?_
      rw [← List.append_assoc, ← List.append_assoc]
      exact List.perm_append_comm.append_right _

theorem calm_step {n : Nat} {s s' : State α} {e : Ev α} {ask : Nat → List α} (h : CalmInv n s ask) (he : Calm e) (hs : step s e = some s')
    (hr : ∀ todo, e = .start todo → ∀ i ∈ todo, i.1 < n) : CalmInv n s' fun k => ask k ++ asked k [e] := by
  cases e with
  | start todo =>
    simp only [step, Option.some.injEq] at hs; subst hs
    refine ⟨h.len, h.up, ?_, ?_⟩
    · intro l hl
      rcases List.mem_append.1 hl with hl | hl
      · exact h.range l hl
      · rw [List.mem_singleton] at hl; subst hl; exact hr _ rfl
    · intro k c hc
      simp only [asked, List.flatMap_cons, List.flatMap_nil, List.append_nil, List.flatMap_append]
      rw [← List.append_assoc]
      exact (h.acct k c hc).append_right _
  | push u =>
    simp only [step] at hs
    split at hs
    · next k x rest hu =>
      split at hs
      · next c hc =>
        split at hs
        · injection hs with hs; subst hs
          have hkl := (List.getElem?_eq_some_iff.1 hc).1
          refine ⟨by simp [h.len], ?_, ?_, ?_⟩
          · intro c' hc'
            rcases List.mem_or_eq_of_mem_set hc' with hc' | rfl
            · exact h.up c' hc'
            · exact h.up c (List.mem_of_getElem? hc)
          · intro l hl
            rcases List.mem_or_eq_of_mem_set hl with hl | rfl
            · exact h.range l hl
            · intro e he; exact h.range _ (List.mem_of_getElem? hu) e (List.mem_cons_of_mem _ he)
          · intro j c' hc'
            simp only [asked, List.flatMap_cons, List.flatMap_nil, List.append_nil]
            by_cases hj : k = j
            · subst hj
              simp [hkl] at hc'; subst hc'
              have hp := flatMap_set (for_ k) s.users u _ rest [x] hu (by simp [for_])
              refine List.Perm.trans ?_ (h.acct k c hc)
              simp only [List.append_assoc]
              exact ((hp.symm).append_left _).append_left _
            · rw [List.getElem?_set_ne hj] at hc'
              have hp := flatMap_set (for_ j) s.users u _ rest [] hu (by simp [for_, hj])
              exact List.Perm.trans (hp.symm.append_left _) (h.acct j c' hc')
        · cases hs
      · cases hs
    · cases hs
  | send k =>
    simp only [step] at hs
    split at hs
    · next c hc =>
      have hup := h.up c (List.mem_of_getElem? hc)
      rw [if_pos hup.1] at hs
      split at hs
      · next x q hq =>
        rw [if_pos hup.2.1] at hs
        injection hs with hs; subst hs
        have hkl := (List.getElem?_eq_some_iff.1 hc).1
        refine ⟨by simp [h.len], ?_, h.range, ?_⟩
        · intro c' hc'
          rcases List.mem_or_eq_of_mem_set hc' with hc' | rfl
          · exact h.up c' hc'
          · exact hup
        · intro j c' hc'
          simp only [asked, List.flatMap_cons, List.flatMap_nil, List.append_nil]
          by_cases hj : k = j
          · subst hj
            simp [hkl] at hc'; subst hc'
            have := h.acct k c hc
            rw [hq] at this
            simpa using this
          · rw [List.getElem?_set_ne hj] at hc'
            exact h.acct j c' hc'
      · cases hs
    · cases hs
  | skip _ => exact he.elim
  | sendErr _ => exact he.elim
  | stop _ => exact he.elim
  | ends _ => exact he.elim
  | cancel _ => exact he.elim

theorem calm_run {n : Nat} (evs : List (Ev α)) {s s' : State α} {ask : Nat → List α} (h : CalmInv n s ask) (he : ∀ e ∈ evs, Calm e) (hs : run s evs = some s')
    (hr : InRange n evs) : CalmInv n s' fun k => ask k ++ asked k evs := by
  induction evs generalizing s ask with
  | nil => simp only [run, Option.some.injEq] at hs; subst hs; simpa [asked] using h
  | cons e evs ih =>
    rw [run] at hs
    cases hst : step s e with
    | none => rw [hst] at hs; cases hs
    | some s1 =>
      rw [hst] at hs
      have h1 := calm_step h (he e List.mem_cons_self) hst (fun todo ht => hr todo (ht ▸ List.mem_cons_self))
      have := ih h1 (fun e' he' => he e' (List.mem_cons_of_mem _ he')) hs (fun todo ht => hr todo (List.mem_cons_of_mem _ ht))
      simpa [asked] using this

/-- The work left: two steps for every item not yet handed over, one for every item in a channel. -/
def left (s : State α) : Nat := 2 * (s.users.map List.length).sum + (s.conns.map fun c => c.queue.length).sum

theorem sum_set {β : Type} (f : β → Nat) (l : List β) (i : Nat) (a b : β) (hi : l[i]? = some a) : ((l.set i b).map f).sum + f a = (l.map f).sum + f b := by
  induction l generalizing i with
  | nil => simp at hi
  | cons x l ih =>
    cases i with
    | zero => simp at hi; subst hi; simp; omega
    | succ i =>
      simp only [List.getElem?_cons_succ] at hi
      simp only [List.set_cons_succ, List.map_cons, List.sum_cons]
      have := ih i hi
      omega

theorem own_step {s s' : State α} {e : Ev α} (hup : ∀ c ∈ s.conns, c.running = true ∧ c.alive = true ∧ c.cancelled = false) (he : Own e)
    (hs : step s e = some s') : left s' + 1 = left s ∧ ∀ c ∈ s'.conns, c.running = true ∧ c.alive = true ∧ c.cancelled = false := by
  cases e with
  | push u =>
    simp only [step] at hs
    split at hs
    · next k x rest hu =>
      split at hs
      · next c hc =>
        split at hs
        · injection hs with hs; subst hs
          refine ⟨?_, ?_⟩
          · have h1 := sum_set List.length s.users u _ rest hu
            have h2 := sum_set (fun c : Conn α => c.queue.length) s.conns k _ { c with queue := c.queue ++ [x] } hc
            simp only [List.length_cons, List.length_append, List.length_nil] at h1 h2
            unfold left; simp only; omega
          · intro c' hc'
            rcases List.mem_or_eq_of_mem_set hc' with hc' | rfl
            · exact hup c' hc'
            · exact hup c (List.mem_of_getElem? hc)
        · cases hs
      · cases hs
    · cases hs
  | send k =>
    simp only [step] at hs
    split at hs
    · next c hc =>
      have hu := hup c (List.mem_of_getElem? hc)
      rw [if_pos hu.1] at hs
      split at hs
      · next x q hq =>
        rw [if_pos hu.2.1] at hs
        injection hs with hs; subst hs
        refine ⟨?_, ?_⟩
        · have h2 := sum_set (fun c : Conn α => c.queue.length) s.conns k _ { c with queue := q, sent := c.sent ++ [x] } hc
          simp only [hq, List.length_cons] at h2
          unfold left; simp only; omega
        · intro c' hc'
          rcases List.mem_or_eq_of_mem_set hc' with hc' | rfl
          · exact hup c' hc'
          · exact hu
      · cases hs
    · cases hs
  | start _ => exact he.elim
  | skip _ => exact he.elim
  | sendErr _ => exact he.elim
  | stop _ => exact he.elim
  | ends _ => exact he.elim
  | cancel _ => exact he.elim

theorem own_run (evs : List (Ev α)) {s s' : State α} (hup : ∀ c ∈ s.conns, c.running = true ∧ c.alive = true ∧ c.cancelled = false) (he : ∀ e ∈ evs, Own e)
    (hs : run s evs = some s') : evs.length + left s' = left s := by
  induction evs generalizing s with
  | nil => simp only [run, Option.some.injEq] at hs; subst hs; simp
  | cons e evs ih =>
    rw [run] at hs
    cases hst : step s e with
    | none => rw [hst] at hs; cases hs
    | some s1 =>
      rw [hst] at hs
      obtain ⟨h1, h2⟩ := own_step hup (he e List.mem_cons_self) hst
      have := ih h2 (fun e' he' => he e' (List.mem_cons_of_mem _ he')) hs
      simp only [List.length_cons]; omega

/-- C89, C90, what holds: as long as no stream ends and nothing is closed, in every interleaving, for any number of calls: from every reachable state the senders and
the goroutines make a bounded number of steps, they can always go on until everyone has handed over everything and all channels are empty, and then every connection
has sent exactly what it was asked to send. -/
theorem C89_all_up_partial (n : Nat) (evs : List (Ev α)) (s : State α) (hc : ∀ e ∈ evs, Calm e) (hr : InRange n evs) (hrun : run (init n) evs = some s) :
    (∀ more s', (∀ e ∈ more, Own e) → run s more = some s' → more.length ≤ left s) ∧
    (∀ more s', (∀ e ∈ more, Own e) → run s more = some s' → (∀ e, Own e → step s' e = none) →
      (∀ l ∈ s'.users, l = []) ∧ ∀ (k : Nat) c, s'.conns[k]? = some c → c.queue = [] ∧ c.sent.Perm (asked k evs)) := by
  have h0 : CalmInv n (init n : State α) fun _ => [] := by
    refine ⟨by simp [init], ?_, by simp [init], ?_⟩
    · intro c hc; rw [show (init n : State α).conns = List.replicate n Conn.new from rfl, List.mem_replicate] at hc; rw [hc.2]; exact ⟨rfl, rfl, rfl⟩
    · intro k c hc
      have := List.mem_of_getElem? hc
      rw [show (init n : State α).conns = List.replicate n Conn.new from rfl, List.mem_replicate] at this
      rw [this.2]; simp [Conn.new, init]
  have h1 := calm_run evs h0 hc hrun hr
  refine ⟨fun more s' hm hs => by have := own_run more h1.up hm hs; omega, ?_⟩
  intro more s' hm hs hrest
  have h2 := calm_run more h1 (fun e he => by have := hm e he; cases e <;> simp_all [Own, Calm]) hs
    (fun todo ht => by have := hm _ ht; simp [Own] at this)
  have hmore : ∀ k, asked k more = [] := by
    intro k
    simp only [asked, List.flatMap_eq_nil_iff]
    intro e he
    have := hm e he
    cases e <;> simp_all [Own]
  have hq : ∀ (k : Nat) c, s'.conns[k]? = some c → c.queue = [] := by
    intro k c hk
    have hu := h2.up c (List.mem_of_getElem? hk)
    have := hrest (.send k) trivial
    simp only [step, hk, if_pos hu.1] at this
    cases hqq : c.queue with
    | nil => rfl
    | cons x q => rw [hqq] at this; simp [hu.2.1] at this
  have hu : ∀ l ∈ s'.users, l = [] := by
    intro l hl
    obtain ⟨u, hlt, hul⟩ := List.mem_iff_getElem.1 hl
    have hul' : s'.users[u]? = some l := by rw [List.getElem?_eq_getElem hlt, hul]
    cases l with
    | nil => rfl
    | cons e rest =>
      obtain ⟨k, x⟩ := e
      have hk : k < s'.conns.length := by rw [h2.len]; exact h2.range _ hl _ List.mem_cons_self
      have hck : s'.conns[k]? = some s'.conns[k] := List.getElem?_eq_getElem hk
      have := hrest (.push u) trivial
      simp only [step, hul', hck] at this
      rw [if_pos (by rw [hq k _ hck]; simp [capacity])] at this
      cases this
  refine ⟨hu, fun k c hk => ⟨hq k c hk, ?_⟩⟩
  have := h2.acct k c hk
  rw [hq k c hk, List.flatMap_eq_nil_iff.2 (fun l hl => by rw [hu l hl]; rfl), hmore] at this
  simpa using this

/-- C90, what holds: a user is held up only by a connection whose channel is full; in particular up to 100 items a connection ever has to take never hold anybody up, whatever
happens to its stream and to the others. -/
theorem C90_hundred_partial (n : Nat) (evs : List (Ev α)) (s : State α) (hrun : run (init n) evs = some s) (u k : Nat) (x : α) (rest : List (Nat × α))
    (hu : s.users[u]? = some ((k, x) :: rest)) (hk : k < n) (hfew : (asked k evs).length ≤ 100) : step s (.push u) ≠ none := by
  have key : ∀ (evs : List (Ev α)) (s0 s : State α) (d : Nat), s0.conns.length = n → (∀ c, s0.conns[k]? = some c → c.queue.length + (s0.users.flatMap (for_ k)).length ≤ d) →
      run s0 evs = some s → s.conns.length = n ∧ ∀ c, s.conns[k]? = some c → c.queue.length + (s.users.flatMap (for_ k)).length ≤ d + (asked k evs).length := by
    intro evs
    induction evs with
    | nil => intro s0 s d hl h hr; simp only [run, Option.some.injEq] at hr; subst hr; exact ⟨hl, by simpa [asked] using h⟩
    | cons e evs ih =>
      intro s0 s d hl h hr
      rw [run] at hr
      cases hst : step s0 e with
      | none => rw [hst] at hr; cases hr
      | some s1 =>
        rw [hst] at hr
        have hstep : s1.conns.length = n ∧ ∀ c, s1.conns[k]? = some c → c.queue.length + (s1.users.flatMap (for_ k)).length ≤ d + (asked k [e]).length := by
          have other : ∀ (j : Nat) (c c' : Conn α), s0.conns[j]? = some c → c'.queue.length ≤ c.queue.length → ∀ us : List (List (Nat × α)), (us.flatMap (for_ k)).length ≤ (s0.users.flatMap (for_ k)).length →
              (s0.conns.set j c').length = n ∧ ∀ c2, (s0.conns.set j c')[k]? = some c2 → c2.queue.length + (us.flatMap (for_ k)).length ≤ d := by
            intro j c c' hc hle us hus
            refine ⟨by simp [hl], fun c2 h2 => ?_⟩
            by_cases hj : j = k
            · subst hj
              rw [List.getElem?_set_self (List.getElem?_eq_some_iff.1 hc).1] at h2
              injection h2 with h2; subst h2
              have := h c hc; omega
            · rw [List.getElem?_set_ne hj] at h2; have := h c2 h2; omega
          cases e with
          | start todo =>
            simp only [step, Option.some.injEq] at hst; subst hst
            refine ⟨hl, fun c hc => ?_⟩
            have := h c hc
            simp only [asked, List.flatMap_cons, List.flatMap_nil, List.append_nil, List.flatMap_append, List.length_append]
            omega
          | push v =>
            simp only [step] at hst
            split at hst
            · next j y r hv =>
              split at hst
              · next c hc =>
                split at hst
                · injection hst with hst; subst hst
                  refine ⟨by simp [hl], fun c2 h2 => ?_⟩
                  simp only [asked, List.flatMap_cons, List.flatMap_nil, List.append_nil, List.length_nil, Nat.add_zero]
                  by_cases hj : j = k
                  · subst hj
                    rw [List.getElem?_set_self (List.getElem?_eq_some_iff.1 hc).1] at h2
                    injection h2 with h2; subst h2
                    have hp := (flatMap_set (for_ j) s0.users v _ r [y] hv (by simp [for_])).length_eq
                    have := h c hc
                    simp only [List.length_append, List.length_cons, List.length_nil] at hp ⊢
                    omega
                  · rw [List.getElem?_set_ne hj] at h2
                    have hp := (flatMap_set (for_ k) s0.users v _ r [] hv (by simp [for_, hj])).length_eq
                    have := h c2 h2
                    simp only [List.nil_append] at hp
                    omega
                · cases hst
              · cases hst
            · cases hst
          | skip v =>
            simp only [step] at hst
            split at hst
            · next j y r hv =>
              split at hst
              · next c hc =>
                split at hst
                · injection hst with hst; subst hst
                  refine ⟨hl, fun c2 h2 => ?_⟩
                  have hp := (flatMap_set (for_ k) s0.users v _ r (for_ k [(j, y)]) hv (by rw [for_, for_, for_, ← List.map_append, ← List.filter_append]; exact List.Perm.refl _)).length_eq
                  rw [List.length_append] at hp
                  have := h c2 h2
                  simp only
                  omega
                · cases hst
              · cases hst
            · cases hst
          | send j =>
            simp only [step] at hst
            split at hst
            · next c hc =>
              split at hst
              · split at hst
                · next x' q hq =>
                  split at hst
                  · injection hst with hst; subst hst
                    have := other j c { c with queue := q, sent := c.sent ++ [x'] } hc (by rw [hq]; simp) s0.users (Nat.le_refl _)
                    simpa [asked] using this
                  · injection hst with hst; subst hst
                    have := other j c { c with queue := q, running := false } hc (by rw [hq]; simp) s0.users (Nat.le_refl _)
                    simpa [asked] using this
                · cases hst
              · cases hst
            · cases hst
          | sendErr j =>
            simp only [step] at hst
            split at hst
            · next c hc =>
              split at hst
              · split at hst
                · next x' q hq =>
                  injection hst with hst; subst hst
                  have := other j c { c with queue := q, alive := false } hc (by rw [hq]; simp) s0.users (Nat.le_refl _)
                  simpa [asked] using this
                · cases hst
              · cases hst
            · cases hst
          | stop j =>
            simp only [step] at hst
            split at hst
            · next c hc =>
              split at hst
              · injection hst with hst; subst hst
                have := other j c { c with running := false } hc (Nat.le_refl _) s0.users (Nat.le_refl _)
                simpa [asked] using this
              · cases hst
            · cases hst
          | ends j =>
            simp only [step] at hst
            split at hst
            · next c hc =>
              injection hst with hst; subst hst
              have := other j c { c with alive := false } hc (Nat.le_refl _) s0.users (Nat.le_refl _)
              simpa [asked] using this
            · cases hst
          | cancel j =>
            simp only [step] at hst
            split at hst
            · next c hc =>
              injection hst with hst; subst hst
              have := other j c { c with cancelled := true, alive := false } hc (Nat.le_refl _) s0.users (Nat.le_refl _)
              simpa [asked] using this
            · cases hst
        have := ih s1 s _ hstep.1 hstep.2 hr
        refine ⟨this.1, fun c hc => ?_⟩
        have h3 := this.2 c hc
        simp only [asked, List.flatMap_cons, List.flatMap_nil, List.append_nil, List.length_append] at h3 ⊢
        omega
  obtain ⟨hl, hc⟩ := key evs (init n) s 0 (by simp [init]) (by
    intro c hc
    have := List.mem_of_getElem? hc
    rw [show (init n : State α).conns = List.replicate n Conn.new from rfl, List.mem_replicate] at this
    rw [this.2]; simp [Conn.new, init]) hrun
  have hck : s.conns[k]? = some s.conns[k] := List.getElem?_eq_getElem (by omega)
  have h1 := hc _ hck
  have h2 := (flatMap_set (for_ k) s.users u _ rest [x] hu (by simp [for_])).length_eq
  rw [List.length_append, List.length_singleton] at h2
  simp only [step, hu, hck]
  rw [if_pos (by unfold capacity; omega)]
  simp

/-- Non-vacuity: two relays, two concurrent robust calls, one request already sent. -/
example : ∃ s : State Nat, run (init 2) [.start (robustSends 2 fun i => i), .start (robustSends 2 fun i => 10 + i), .push 1, .push 0, .send 0] = some s ∧
    s.users = [[(1, 1)], [(1, 11)]] ∧ left s = 5 := by
  refine ⟨_, rfl, rfl, rfl⟩

end Resmix.Rrpc.SendConn
