import Verif.Props.RelayConn
set_option autoImplicit false
/-
C139: cancelling a robust call by its id.
-/
namespace Resmix.Rrpc.RelayConn

/-- Nothing on the connections will reach call `i`: no entry, no answer to be handed over, no time-out to be sent. -/
def Forgotten (s : State) (i : Nat) : Prop := ∀ (r : Nat) (k : Conn), s.conns[r]? = some k →
  (∀ u, k.live.lookup u ≠ some i) ∧ (∀ x, k.recv ≠ some (i, x)) ∧ ∀ u, k.cleaner ≠ .notifying u i

/-- Call `i` has sent all its requests, nothing waits in its channel, and it has received `taken`. -/
def Waits (n : Nat) (s : State) (i : Nat) (taken : List RelayStreamResponse) : Prop := ∃ c, s.calls[i]? = some c ∧ c.asked = n ∧ c.queue = [] ∧ c.taken = taken

theorem forgotten_step (n : Nat) (s s' : State) (e : Ev) (i : Nat) (taken : List RelayStreamResponse) (hn : s.conns.length = n) (hf : Forgotten s i) (hw : Waits n s i taken)
    (hst : step s e = some s') : s'.conns.length = n ∧ Forgotten s' i ∧ Waits n s' i taken := by
  obtain ⟨c, hc, ha, hq, ht⟩ := hw
  unfold Forgotten Waits at *
  cases e with
  | call u => simp only [step, Option.some.injEq] at hst; subst hst; grind
  | ask j =>
    simp only [step] at hst
    have : ∀ (m : GoMap Str Nat) (u v : Str) (j : Nat), (∀ u, m.lookup u ≠ some i) → j ≠ i → (m.insert u j).lookup v ≠ some i := by
      intro m u v j h1 h2; rw [GoMap.lookup_insert]; split
      · simpa using h2
      · exact h1 v
    grind
  | answer r x =>
    simp only [step] at hst
    have : ∀ (m : GoMap Str Nat) (u v : Str), (∀ u, m.lookup u ≠ some i) → (m.erase u).lookup v ≠ some i := by
      intro m u v h1; rw [GoMap.lookup_erase]; split
      · simp
      · exact h1 v
    grind
  | hand r => simp only [step, put] at hst; grind
  | take j => simp only [step] at hst; grind
  | «return» j => simp only [step] at hst; grind
  | look r u => simp only [step] at hst; grind
  | notify r => simp only [step, put] at hst; grind
  | delete r =>
    simp only [step] at hst
    have : ∀ (m : GoMap Str Nat) (u v : Str), (∀ u, m.lookup u ≠ some i) → (m.erase u).lookup v ≠ some i := by
      intro m u v h1; rw [GoMap.lookup_erase]; split
      · simp
      · exact h1 v
    grind
  | cancel r u =>
    simp only [step] at hst
    have : ∀ (m : GoMap Str Nat) (u v : Str), (∀ u, m.lookup u ≠ some i) → (m.erase u).lookup v ≠ some i := by
      intro m u v h1; rw [GoMap.lookup_erase]; split
      · simp
      · exact h1 v
    grind

theorem forgotten_run (n : Nat) (evs : List Ev) (s s' : State) (i : Nat) (taken : List RelayStreamResponse) (hn : s.conns.length = n) (hf : Forgotten s i) (hw : Waits n s i taken)
    (hr : run s evs = some s') : Forgotten s' i ∧ Waits n s' i taken := by
  induction evs generalizing s with
  | nil => simp only [run, Option.some.injEq] at hr; subst hr; exact ⟨hf, hw⟩
  | cons e evs ih =>
    rw [run] at hr
    cases hst : step s e with
    | none => rw [hst] at hr; cases hr
    | some s1 =>
      rw [hst] at hr
      obtain ⟨a, b, c⟩ := forgotten_step n s s1 e i taken hn hf hw hst
      exact ih s1 a b c hr

theorem own_run (evs : List Ev) (s0 s : State) (h : Own s0) (hr : run s0 evs = some s) : Own s := by
  induction evs generalizing s0 with
  | nil => simp only [run, Option.some.injEq] at hr; subst hr; exact h
  | cons e evs ih =>
    rw [run] at hr
    cases hst : step s0 e with
    | none => rw [hst] at hr; cases hr
    | some s1 => rw [hst] at hr; exact ih s1 (own_step s0 s1 e h hst) hr

theorem conns_length (evs : List Ev) (s0 s : State) (hr : run s0 evs = some s) : s.conns.length = s0.conns.length := by
  induction evs generalizing s0 with
  | nil => simp only [run, Option.some.injEq] at hr; subst hr; rfl
  | cons e evs ih =>
    rw [run] at hr
    cases hst : step s0 e with
    | none => rw [hst] at hr; cases hr
    | some s1 =>
      rw [hst] at hr
      rw [ih s1 hr]
      cases e <;> simp only [step, put] at hst <;> grind

/-- What cancelling at a list of connections does: the entries of the id are gone there, nothing else has changed. -/
theorem cancel_run (order : List Nat) (u : Str) (s s' : State) (hr : run s (cancelRequest order u) = some s') :
    s'.calls = s.calls ∧ s'.conns.length = s.conns.length ∧ (∀ r ∈ order, r < s.conns.length) ∧ ∀ (r : Nat) (k : Conn), s.conns[r]? = some k →
      ∃ k', s'.conns[r]? = some k' ∧ k'.recv = k.recv ∧ k'.cleaner = k.cleaner ∧ (∀ v, v ≠ u → k'.live.lookup v = k.live.lookup v) ∧
        (r ∈ order → k'.live.lookup u = none) ∧ (k.live.lookup u = none → k'.live.lookup u = none) := by
  induction order generalizing s with
  | nil =>
    simp only [cancelRequest, List.map_nil, run, Option.some.injEq] at hr; subst hr
    exact ⟨rfl, rfl, by simp, fun r k hk => ⟨k, hk, rfl, rfl, fun _ _ => rfl, by simp, id⟩⟩
  | cons q order ih =>
    simp only [cancelRequest, List.map_cons, run, step] at hr
    cases hq : s.conns[q]? with
    | none => rw [hq] at hr; cases hr
    | some kq =>
      rw [hq] at hr
      simp only at hr
      obtain ⟨h1, h2, h3, h4⟩ := ih _ hr
      have hlt := (List.getElem?_eq_some_iff.1 hq).1
      refine ⟨h1, by simpa using h2, ?_, ?_⟩
      · intro r hr'
        rcases List.mem_cons.1 hr' with rfl | hr'
        · exact hlt
        · simpa using h3 r hr'
      · intro r k hk
        by_cases hrq : q = r
        · subst hrq
          rw [hq] at hk; injection hk with hk; subst hk
          obtain ⟨k', e1, e2, e3, e4, e5, e6⟩ := h4 q { kq with live := kq.live.erase u } (by simp [hlt])
          refine ⟨k', e1, e2, e3, fun v hv => ?_, fun _ => e6 ?_, fun _ => e6 ?_⟩
          · rw [e4 v hv, GoMap.lookup_erase_ne _ hv]
          · rw [GoMap.lookup_erase, if_pos rfl]
          · rw [GoMap.lookup_erase, if_pos rfl]
        · obtain ⟨k', e1, e2, e3, e4, e5, e6⟩ := h4 r k (by rw [List.getElem?_set_ne hrq]; exact hk)
          refine ⟨k', e1, e2, e3, e4, fun hm => e5 ?_, e6⟩
          rcases List.mem_cons.1 hm with rfl | hm
          · exact absurd rfl hrq
          · exact hm

/-- C139 fails: a robust call that waits for answers (all its requests are sent, no answer for it is being handed over and no time-out is being sent) does not notice that it was
cancelled: after `CancelRequest` with its id it receives nothing any more, neither an error nor an answer, whatever happens; so it does not return until its own context or the
coordinator's is done. -/
theorem C139_hangs_refuted (n : Nat) (evs : List Ev) (s : State) (hr : run (init n) evs = some s) (i : Nat) (c : Call) (hc : s.calls[i]? = some c) (hasked : c.asked = n)
    (hq : c.queue = []) (hidle : ∀ (r : Nat) (k : Conn), s.conns[r]? = some k → (∀ x, k.recv ≠ some (i, x)) ∧ ∀ u, k.cleaner ≠ .notifying u i)
    (order : List Nat) (horder : order.Perm (List.range n)) :
    (∃ s', run s (cancelRequest order c.uuid) = some s') ∧
    ∀ evs' s', run s (cancelRequest order c.uuid ++ evs') = some s' → ∃ c', s'.calls[i]? = some c' ∧ c'.taken = c.taken ∧ c'.queue = [] := by
  have hlen : s.conns.length = n := by rw [conns_length _ _ _ hr]; simp [init]
  have hown := own_run _ _ _ (own_init n) hr
  constructor
  · have gen : ∀ (order : List Nat) (s : State), (∀ r ∈ order, r < s.conns.length) → ∃ s', run s (cancelRequest order c.uuid) = some s' := by
      intro order
      induction order with
      | nil => intro s _; exact ⟨s, rfl⟩
      | cons q order ih =>
        intro s h
        have hlt := h q (by simp)
        obtain ⟨s', hs'⟩ := ih { s with conns := s.conns.set q { (s.conns[q]) with live := (s.conns[q]).live.erase c.uuid } } (fun r hr => by
          simpa using h r (by simp [hr]))
        refine ⟨s', ?_⟩
        simp only [cancelRequest, List.map_cons, run, step, List.getElem?_eq_getElem hlt]
        exact hs'
    exact gen order s (fun r h => by rw [hlen]; simpa using horder.mem_iff.1 h)
  · intro evs' s' hr'
    rw [run_append] at hr'
    cases h1 : run s (cancelRequest order c.uuid) with
    | none => rw [h1] at hr'; cases hr'
    | some s1 =>
      rw [h1] at hr'
      obtain ⟨a1, a2, -, a4⟩ := cancel_run _ _ _ _ h1
      have hf : Forgotten s1 i := by
        intro r k1 hk1
        have hlt : r < s.conns.length := by rw [← a2]; exact (List.getElem?_eq_some_iff.1 hk1).1
        have hk := List.getElem?_eq_getElem hlt
        obtain ⟨k', e1, e2, e3, e4, e5, -⟩ := a4 r _ hk
        rw [hk1] at e1; injection e1 with e1; subst e1
        refine ⟨fun u hu => ?_, fun x => by rw [e2]; exact (hidle r _ hk).1 x, fun u => by rw [e3]; exact (hidle r _ hk).2 u⟩
        by_cases huc : u = c.uuid
        · subst huc
          rw [e5 (horder.mem_iff.2 (by simpa [hlen] using hlt))] at hu
          cases hu
        · rw [e4 u huc] at hu
          obtain ⟨c', hc', hu'⟩ := hown.live r _ hk u i hu
          rw [hc] at hc'; injection hc' with hc'; subst hc'
          exact huc hu'.symm
      obtain ⟨-, c', h2, -, h3, h4⟩ := forgotten_run n evs' s1 s' i c.taken (by rw [a2, hlen]) hf ⟨c, by rw [a1]; exact hc, hasked, hq, rfl⟩ hr'
      exact ⟨c', h2, h4, h3⟩

/-- C139, the part that holds: `CancelRequest` never waits, and changes nothing but the entries of its id: no call gets or loses anything that was already on the way, and the
entries of all other calls stay. From then on, as long as nobody sends a request with this id over connection `r` again, answers with this id that arrive there are dropped at once. -/
theorem C139_only_its_id_partial (n : Nat) (evs : List Ev) (s : State) (hr : run (init n) evs = some s) (u : Str) (order : List Nat) (horder : order.Perm (List.range n)) :
    ∃ s', run s (cancelRequest order u) = some s' ∧ s'.calls = s.calls ∧
      (∀ (r : Nat) (k : Conn), s.conns[r]? = some k → ∃ k', s'.conns[r]? = some k' ∧ k'.recv = k.recv ∧ k'.cleaner = k.cleaner ∧ k'.live.lookup u = none ∧
        ∀ v, v ≠ u → k'.live.lookup v = k.live.lookup v) ∧
      ∀ evs' s'', run s' evs' = some s'' → (∀ j c, .ask j ∈ evs' → s''.calls[j]? = some c → c.uuid ≠ u) →
        ∀ (r : Nat) (k : Conn) (x : RelayStreamResponse), s''.conns[r]? = some k → k.recv = none → x.uuid = u → step s'' (.answer r x) = some s'' := by
  have hlen : s.conns.length = n := by rw [conns_length _ _ _ hr]; simp [init]
  have gen : ∀ (order : List Nat) (s : State), (∀ r ∈ order, r < s.conns.length) → ∃ s', run s (cancelRequest order u) = some s' := by
    intro order
    induction order with
    | nil => intro s _; exact ⟨s, rfl⟩
    | cons q order ih =>
      intro s h
      have hlt := h q (by simp)
      obtain ⟨s', hs'⟩ := ih { s with conns := s.conns.set q { (s.conns[q]) with live := (s.conns[q]).live.erase u } } (fun r hr => by
        simpa using h r (by simp [hr]))
      refine ⟨s', ?_⟩
      simp only [cancelRequest, List.map_cons, run, step, List.getElem?_eq_getElem hlt]
      exact hs'
  obtain ⟨s1, h1⟩ := gen order s (fun r h => by rw [hlen]; simpa using horder.mem_iff.1 h)
  obtain ⟨a1, a2, -, a4⟩ := cancel_run _ _ _ _ h1
  refine ⟨s1, h1, a1, ?_, ?_⟩
  · intro r k hk
    obtain ⟨k', e1, e2, e3, e4, e5, -⟩ := a4 r k hk
    exact ⟨k', e1, e2, e3, e5 (horder.mem_iff.2 (by simpa [hlen] using (List.getElem?_eq_some_iff.1 hk).1)), e4⟩
  · have hgone : ∀ (r : Nat) (k : Conn), s1.conns[r]? = some k → k.live.lookup u = none := by
      intro r k1 hk1
      have hlt : r < s.conns.length := by rw [← a2]; exact (List.getElem?_eq_some_iff.1 hk1).1
      obtain ⟨k', e1, -, -, -, e5, -⟩ := a4 r _ (List.getElem?_eq_getElem hlt)
      rw [hk1] at e1; injection e1 with e1; subst e1
      exact e5 (horder.mem_iff.2 (by simpa [hlen] using hlt))
    have uuids : ∀ (evs : List Ev) (s s' : State), run s evs = some s' → ∀ (j : Nat) (c : Call), s.calls[j]? = some c → ∃ c', s'.calls[j]? = some c' ∧ c'.uuid = c.uuid := by
      intro evs
      induction evs with
      | nil => intro s s' hr j c hc; simp only [run, Option.some.injEq] at hr; subst hr; exact ⟨c, hc, rfl⟩
      | cons e evs ih =>
        intro s s' hr j c hc
        rw [run] at hr
        cases hst : step s e with
        | none => rw [hst] at hr; cases hr
        | some s1 =>
          rw [hst] at hr
          have : ∃ c', s1.calls[j]? = some c' ∧ c'.uuid = c.uuid := by
            cases e <;> simp only [step, put] at hst <;> grind
          obtain ⟨c', hc', hu⟩ := this
          obtain ⟨c'', hc'', hu'⟩ := ih s1 s' hr j c' hc'
          exact ⟨c'', hc'', hu'.trans hu⟩
    have key : ∀ (evs : List Ev) (s s' : State), run s evs = some s' → (∀ j c, .ask j ∈ evs → s'.calls[j]? = some c → c.uuid ≠ u) →
        (∀ (r : Nat) (k : Conn), s.conns[r]? = some k → k.live.lookup u = none) → ∀ (r : Nat) (k : Conn), s'.conns[r]? = some k → k.live.lookup u = none := by
      intro evs
      induction evs with
      | nil => intro s s' hr _ h; simp only [run, Option.some.injEq] at hr; subst hr; exact h
      | cons e evs ih =>
        intro s s' hr hask h
        rw [run] at hr
        cases hst : step s e with
        | none => rw [hst] at hr; cases hr
        | some s2 =>
          rw [hst] at hr
          refine ih s2 s' hr (fun j c hj => hask j c (by simp [hj])) ?_
          have her : ∀ (m : GoMap Str Nat) (v : Str), m.lookup u = none → (m.erase v).lookup u = none := by
            intro m v hm; rw [GoMap.lookup_erase]; split
            · rfl
            · exact hm
          cases e with
          | ask j =>
            simp only [step] at hst
            split at hst
            · cases hst
            · next c hc =>
              split at hst
              · cases hst
              · next k hk =>
                injection hst with hst
                have hne : c.uuid ≠ u := by
                  obtain ⟨c1, hc1, e1⟩ : ∃ c1, s2.calls[j]? = some c1 ∧ c1.uuid = c.uuid := by
                    subst hst; exact ⟨{ c with asked := c.asked + 1 }, by simp [(List.getElem?_eq_some_iff.1 hc).1], rfl⟩
                  obtain ⟨c2, hc2, e2⟩ := uuids evs s2 s' hr j c1 hc1
                  rw [← e1, ← e2]; exact hask j c2 (by simp) hc2
                subst hst
                have hin : (k.live.insert c.uuid j).lookup u = none := by
                  rw [GoMap.lookup_insert_ne _ _ (Ne.symm hne)]; exact h _ k hk
                grind
          | call v => simp only [step, Option.some.injEq] at hst; subst hst; exact h
          | answer r x => simp only [step] at hst; grind
          | hand r => simp only [step, put] at hst; grind
          | take j => simp only [step] at hst; grind
          | «return» j => simp only [step] at hst; grind
          | look r v => simp only [step] at hst; grind
          | notify r => simp only [step, put] at hst; grind
          | delete r => simp only [step] at hst; grind
          | cancel r v => simp only [step] at hst; grind
    intro evs' s'' hr' hask r k x hk hrecv hx
    have := key evs' s1 s'' hr' hask hgone r k hk
    simp only [step, hk, hrecv, hx, this]

/-- Non-vacuity: with three relays, a call has one answer and waits for more when it is cancelled; the answers that come then are dropped. -/
example (u : Str) : ∃ s s', run (init 3) [.call u, .ask 0, .ask 0, .ask 0, .answer 1 (reply u), .hand 1, .take 0] = some s ∧
    run s (cancelRequest [2, 0, 1] u ++ [.answer 0 (reply u), .answer 2 (reply u)]) = some s' ∧ (∃ c, s.calls[0]? = some c ∧ c.asked = 3 ∧ c.queue = [] ∧ c.taken = [reply u]) ∧
    (∃ c, s'.calls[0]? = some c ∧ c.taken = [reply u]) ∧ [2, 0, 1].Perm (List.range 3) ∧
    ∀ (r : Nat) (k : Conn), s.conns[r]? = some k → (∀ x, k.recv ≠ some (0, x)) ∧ ∀ u, k.cleaner ≠ .notifying u 0 := by
  refine ⟨⟨[⟨[(u, 0)], none, .idle⟩, ⟨[], none, .idle⟩, ⟨[(u, 0)], none, .idle⟩], [⟨u, [], 3, true, [reply u]⟩]⟩,
    ⟨[⟨[], none, .idle⟩, ⟨[], none, .idle⟩, ⟨[], none, .idle⟩], [⟨u, [], 3, true, [reply u]⟩]⟩, ?_, ?_, ⟨_, rfl, rfl, rfl, rfl⟩, ⟨_, rfl, rfl⟩, by decide, ?_⟩
  · simp [run, step, init, put, reply, GoMap.lookup, GoMap.insert, GoMap.erase, List.replicate]
  · simp [run, step, cancelRequest, reply, GoMap.lookup, GoMap.erase]
  · intro r k hk
    have := List.mem_of_getElem? hk
    simp only [List.mem_cons, List.not_mem_nil, or_false] at this
    rcases this with rfl | rfl | rfl <;> simp

end Resmix.Rrpc.RelayConn
