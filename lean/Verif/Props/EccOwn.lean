import Verif.Props.EccPool
set_option autoImplicit false
/-
C127: when a call of the coder has returned, its workers are done with the memory the caller passed in: the slice to encode, or the shards to decode (into which
the workers write what is missing). Model/EccPool is the model.
-/
namespace Resmix.Ecc.EccPool
open Resmix.Ecc

/-- A worker of the coder is computing a task of call `i`: it reads the caller's data, or reads and completes the caller's shards. -/
def WorksFor (s : State) (i : Nat) : Prop := ∃ (w : Nat) (t : Task), s.workers[w]? = some (.busy t) ∧ t.call = i

/-- A call that succeeded has received all its responses. -/
theorem full_step {C : RS} {cap : Nat} {s s' : State} {e : Ev} (hs : step C cap s e = some s')
    (h : ∀ c ∈ s.calls, ∀ o, c.ret = some (.ok o) → c.received.length = numChunks) :
    ∀ c ∈ s'.calls, ∀ o, c.ret = some (.ok o) → c.received.length = numChunks := by
  cases e with
  | call j =>
    simp only [step, Option.some.injEq] at hs; subst hs
    intro c hc
    rcases List.mem_append.1 hc with hc | hc
    · exact h c hc
    · simp at hc; subst hc; simp
  | submit i =>
    simp only [step] at hs
    split at hs
    · next c hc =>
      have hm := List.mem_of_getElem? hc
      split at hs
      · split at hs
        · injection hs with hs; subst hs
          intro c' hc'
          rcases List.mem_or_eq_of_mem_set hc' with hc' | rfl
          · exact h c' hc'
          · simp
        · split at hs
          · injection hs with hs; subst hs
            intro c' hc'
            rcases List.mem_or_eq_of_mem_set hc' with hc' | rfl
            · exact h c' hc'
            · exact h c hm
          · cases hs
      · cases hs
    · cases hs
  | take w q =>
    simp only [step] at hs
    split at hs
    · injection hs with hs; subst hs; exact h
    · cases hs
  | reply w =>
    simp only [step] at hs
    split at hs
    · split at hs
      · next c hc =>
        split at hs
        · injection hs with hs; subst hs
          intro c' hc'
          rcases List.mem_or_eq_of_mem_set hc' with hc' | rfl
          · exact h c' hc'
          · exact h c (List.mem_of_getElem? hc)
        · cases hs
      · cases hs
    · cases hs
  | receive i =>
    simp only [step] at hs
    split at hs
    · next c hc =>
      split at hs
      · split at hs
        · next k rest hch =>
          injection hs with hs; subst hs
          intro c' hc'
          rcases List.mem_or_eq_of_mem_set hc' with hc' | rfl
          · exact h c' hc'
          · intro o ho
            simp only [Call.receive] at ho ⊢
            split at ho
            · cases ho
            · cases ho
            · next o' ho' =>
              revert ho'
              cases c.job with
              | encode d =>
                simp only [outcome]
                intro ho'
                cases hf : (c.received ++ [k]).foldlM (encodeArrival C (d ++ List.replicate numChunks 0)) (List.replicate numChunks []) with
                | error e' => rw [hf] at ho'; simp [Except.map] at ho'
                | ok a =>
                  rw [hf] at ho'; simp only [Except.map, Except.ok.injEq] at ho'
                  split at ho'
                  · assumption
                  · cases ho'
              | decode d n =>
                simp only [outcome]
                intro ho'
                cases hf : (c.received ++ [k]).foldlM (decodeArrival C d (n + numChunks)) (List.replicate (n + numChunks) 0) with
                | error e' => rw [hf] at ho'; simp [Except.map] at ho'
                | ok a =>
                  rw [hf] at ho'; simp only [Except.map, Except.ok.injEq] at ho'
                  split at ho'
                  · assumption
                  · cases ho'
        · cases hs
      · cases hs
    · cases hs
  | stop => simp only [step, Option.some.injEq] at hs; subst hs; exact h
  | abort i =>
    simp only [step] at hs
    split at hs
    · split at hs
      · injection hs with hs; subst hs
        intro c' hc'
        rcases List.mem_or_eq_of_mem_set hc' with hc' | rfl
        · exact h c' hc'
        · simp
      · cases hs
    · cases hs
  | exit w =>
    simp only [step] at hs
    split at hs
    · split at hs
      · injection hs with hs; subst hs; exact h
      · cases hs
    · cases hs

theorem full_run {C : RS} {cap : Nat} : ∀ (evs : List Ev) (s s' : State), run C cap s evs = some s' →
    (∀ c ∈ s.calls, ∀ o, c.ret = some (.ok o) → c.received.length = numChunks) →
    ∀ c ∈ s'.calls, ∀ o, c.ret = some (.ok o) → c.received.length = numChunks := by
  intro evs
  induction evs with
  | nil => intro s s' hs h; simp only [run, Option.some.injEq] at hs; subst hs; exact h
  | cons e es ih =>
    intro s s' hs h
    rw [run] at hs
    split at hs
    · cases hs
    · next s1 h1 => exact ih s1 s' hs (full_step h1 h)

/-- What a call returned stays returned. -/
theorem ret_step {C : RS} {cap : Nat} {s s' : State} {e : Ev} (hs : step C cap s e = some s') {i : Nat} {c : Call} {r : Go Out}
    (hc : s.calls[i]? = some c) (hr : c.ret = some r) : ∃ c', s'.calls[i]? = some c' ∧ c'.ret = some r := by
  have hset : ∀ (j : Nat) (x y : Call), s.calls[j]? = some x → (x.ret = some r → y.ret = some r) →
      ∃ c', (s.calls.set j y)[i]? = some c' ∧ c'.ret = some r := by
    intro j x y hx hxy
    rw [getElem?_set_some hx]
    by_cases hij : i = j
    · subst hij
      rw [hc] at hx; cases hx
      exact ⟨y, if_pos rfl, hxy hr⟩
    · exact ⟨c, by rw [if_neg hij, hc], hr⟩
  cases e with
  | call j =>
    simp only [step, Option.some.injEq] at hs; subst hs
    refine ⟨c, ?_, hr⟩
    show (s.calls ++ _)[i]? = _
    rw [List.getElem?_append_left (List.getElem?_eq_some_iff.1 hc).1, hc]
  | submit j =>
    simp only [step] at hs
    split at hs
    · next x hx =>
      split at hs
      · next hcond =>
        split at hs
        · injection hs with hs; subst hs
          exact hset j x _ hx (fun h => by simp [h] at hcond)
        · split at hs
          · injection hs with hs; subst hs
            exact hset j x _ hx (fun h => h)
          · cases hs
      · cases hs
    · cases hs
  | take w q =>
    simp only [step] at hs
    split at hs
    · injection hs with hs; subst hs; exact ⟨c, hc, hr⟩
    · cases hs
  | reply w =>
    simp only [step] at hs
    split at hs
    · split at hs
      · next x hx =>
        split at hs
        · injection hs with hs; subst hs
          exact hset _ x _ hx (fun h => h)
        · cases hs
      · cases hs
    · cases hs
  | receive j =>
    simp only [step] at hs
    split at hs
    · next x hx =>
      split at hs
      · next hcond =>
        split at hs
        · injection hs with hs; subst hs
          exact hset j x _ hx (fun h => by simp [h] at hcond)
        · cases hs
      · cases hs
    · cases hs
  | stop => simp only [step, Option.some.injEq] at hs; subst hs; exact ⟨c, hc, hr⟩
  | abort j =>
    simp only [step] at hs
    split at hs
    · next x hx =>
      split at hs
      · next hcond =>
        injection hs with hs; subst hs
        exact hset j x _ hx (fun h => by simp [h] at hcond)
      · cases hs
    · cases hs
  | exit w =>
    simp only [step] at hs
    split at hs
    · split at hs
      · injection hs with hs; subst hs; exact ⟨c, hc, hr⟩
      · cases hs
    · cases hs

theorem ret_run {C : RS} {cap : Nat} : ∀ (evs : List Ev) (s s' : State), run C cap s evs = some s' → ∀ (i : Nat) (c : Call) (r : Go Out),
    s.calls[i]? = some c → c.ret = some r → ∃ c', s'.calls[i]? = some c' ∧ c'.ret = some r := by
  intro evs
  induction evs with
  | nil => intro s s' hs i c r h1 h2; simp only [run, Option.some.injEq] at hs; subst hs; exact ⟨c, h1, h2⟩
  | cons e es ih =>
    intro s s' hs i c r h1 h2
    rw [run] at hs
    split at hs
    · cases hs
    · next s1 hs1 =>
      obtain ⟨c1, h3, h4⟩ := ret_step hs1 h1 h2
      exact ih s1 s' hs i c1 r h3 h4

theorem run_inv {C : RS} {n cap : Nat} : ∀ (evs : List Ev) (s s' : State), Inv C n cap s → run C cap s evs = some s' → Inv C n cap s' := by
  intro evs
  induction evs with
  | nil => intro s s' h hs; simp only [run, Option.some.injEq] at hs; subst hs; exact h
  | cons e es ih =>
    intro s s' h hs
    rw [run] at hs
    split at hs
    · cases hs
    · next s1 hs1 => exact ih s1 s' (inv_step h hs1) hs

theorem run_append {C : RS} {cap : Nat} : ∀ (a b : List Ev) (s : State), run C cap s (a ++ b) = (run C cap s a).bind fun s' => run C cap s' b := by
  intro a
  induction a with
  | nil => intro b s; rfl
  | cons e es ih =>
    intro b s
    rw [List.cons_append, run, run]
    cases step C cap s e with
    | none => rfl
    | some s1 => exact ih b s1

/-- C127: once a call has succeeded, whatever happens afterwards, no worker ever works on its memory again. -/
theorem C127_success_partial (C : RS) (n cap : Nat) (evs : List Ev) (s : State) (hs : run C cap (init n) evs = some s)
    (i : Nat) (c : Call) (o : Out) (hc : s.calls[i]? = some c) (ho : c.ret = some (.ok o)) (more : List Ev) (s' : State)
    (hs' : run C cap s more = some s') : ¬ WorksFor s' i := by
  rintro ⟨w, t, hw, rfl⟩
  obtain ⟨c', h1, h2⟩ := ret_run more s s' hs' t.call c _ hc ho
  have hall : run C cap (init n) (evs ++ more) = some s' := by rw [run_append, hs]; exact hs'
  have hfull := full_run _ _ _ hall (by simp [init]) c' (List.mem_of_getElem? h1) o h2
  have hinv := run_inv _ _ _ (inv_init C n cap) hall
  have hrec := hinv.received h1
  have hnext := (hinv.call c' (List.mem_of_getElem? h1)).next
  have hcnt := hinv.cnt t
  have hbusy : 0 < s'.workers.count (.busy t) := List.count_pos_iff.2 (List.mem_of_getElem? hw)
  simp only [inCall, expected, h1] at hcnt
  have hperm : c'.received.Perm (List.range numChunks) :=
    full_perm (List.nodup_append.1 hrec.1).1 (fun k hk => Nat.lt_of_lt_of_le (hrec.2 k (List.mem_append_left _ hk)) hnext) hfull
  have hlt : t.chunk < c'.next := by
    by_contra hx
    rw [if_neg hx] at hcnt
    omega
  have hmem : t.chunk ∈ c'.received := hperm.mem_iff.2 (List.mem_range.2 (by omega))
  have := List.count_pos_iff.2 hmem
  rw [if_pos hlt] at hcnt
  omega

/-- C127, encoding: as long as the coder has not been stopped, every call of AuthEncode that has returned succeeded, and so is done with its data for ever. -/
theorem C127_encode_partial (C : RS) (n cap : Nat) (evs : List Ev) (s : State) (hs : run C cap (init n) evs = some s) (hstop : s.stopped = false)
    (i : Nat) (c : Call) (data : Bytes) (hc : s.calls[i]? = some c) (hj : c.job = .encode data) (hr : c.ret ≠ none) :
    (∃ shards, c.ret = some (.ok (.shards shards))) ∧ ∀ more s', run C cap s more = some s' → ¬ WorksFor s' i := by
  obtain ⟨shards, h1, _⟩ := C92_round_trip C data
  cases hret : c.ret with
  | none => exact absurd hret hr
  | some r =>
    rcases h1 n cap evs s hs c (List.mem_of_getElem? hc) hj r hret with h | ⟨h, _⟩
    · subst h
      exact ⟨⟨shards, rfl⟩, fun more s' hs' => C127_success_partial C n cap evs s hs i c _ hc hret more s' hs'⟩
    · rw [hstop] at h; cases h

/-- Events: a call is made and puts its 36 tasks into the queue. -/
def begin (j : Job) : List Ev := .call j :: List.replicate 36 (.submit 0)

theorem begin_run (C : RS) (j : Job) (hj : ∀ i < 36, j.short i = false) : ∀ k ≤ 36, ∃ s, run C 72 (init 2) (.call j :: List.replicate k (.submit 0)) = some s ∧
    s.workers = [.idle, .idle] ∧ s.stopped = false ∧ s.queue j.decodes = (List.range k).map (Task.mk 0) ∧
    s.calls = [{ job := j, next := k, chan := [], received := [], ret := none }] := by
  intro k
  induction k with
  | zero => intro _; exact ⟨_, rfl, rfl, rfl, rfl, rfl⟩
  | succ k ih =>
    intro hk
    obtain ⟨s, h1, h2, h3, h4, h5⟩ := ih (by omega)
    rw [List.replicate_succ', ← List.cons_append, run_append, h1]
    have hstep : step C 72 s (.submit 0) = some ((s.setQueue j.decodes (s.queue j.decodes ++ [⟨0, k⟩])).setCall 0
        { job := j, next := k + 1, chan := [], received := [], ret := none }) := by
      have hlt : k < 36 := by omega
      have hlen : (s.queue j.decodes).length < 72 := by rw [h4]; simp; omega
      simp [step, h5, numChunks, hlt, hj k hlt, hlen]
    refine ⟨(s.setQueue j.decodes (s.queue j.decodes ++ [⟨0, k⟩])).setCall 0 { job := j, next := k + 1, chan := [], received := [], ret := none },
      ?_, ?_, ?_, ?_, ?_⟩
    · simp only [Option.bind_some, run, hstep]
    · exact h2
    · exact h3
    · simp [State.setCall, State.setQueue, h4, List.range_succ]
    · simp [State.setCall, State.setQueue, h5]

/-- C127, false as stated: AuthEncode returns when the coder is stopped although a worker is still reading, or will only start to read, the caller's data. -/
theorem C127_stopped_refuted (C : RS) (data : Bytes) : ∃ evs s, run C 72 (init 2) (begin (.encode data) ++ evs) = some s ∧
    (∃ c, s.calls[0]? = some c ∧ c.job = .encode data ∧ c.ret = some (.error stoppedErr)) ∧
    ¬ WorksFor s 0 ∧ ∃ s', step C 72 s (.take 0 false) = some s' ∧ WorksFor s' 0 := by
  obtain ⟨s, h1, h2, h3, h4, h5⟩ := begin_run C (.encode data) (fun _ _ => rfl) 36 (by omega)
  refine ⟨[.stop, .abort 0], ({ s with stopped := true } : State).setCall 0
    { job := .encode data, next := 36, chan := [], received := [], ret := some (.error stoppedErr) }, ?_,
    ⟨{ job := .encode data, next := 36, chan := [], received := [], ret := some (.error stoppedErr) }, ?_, rfl, rfl⟩, ?_, ?_⟩
  · rw [run_append, begin, h1]
    simp [run, step, h5]
  · simp [State.setCall, h5]
  · rintro ⟨w, t, hw, -⟩
    simp only [State.setCall, h2] at hw
    match w, hw with
    | 0, hw => cases hw
    | 1, hw => cases hw
    | w + 2, hw => cases hw
  · have h4' : s.queue false = ⟨0, 0⟩ :: (List.range 35).map (fun k => ⟨0, k + 1⟩) := by
      have : s.queue false = (List.range 36).map (Task.mk 0) := h4
      rw [this, List.range_succ_eq_map]; simp
    cases hst : step C 72 (({ s with stopped := true } : State).setCall 0
        { job := .encode data, next := 36, chan := [], received := [], ret := some (.error stoppedErr) }) (.take 0 false) with
    | none => simp [step, State.setCall, h2, h4'] at hst
    | some s' =>
      refine ⟨s', rfl, 0, ⟨0, 0⟩, ?_, rfl⟩
      simp [step, State.setCall, h2, h4'] at hst
      subst hst
      simp

theorem reconstruct_missing (C : RS) : reconstruct C (List.replicate (C.k + C.m) []) = .error eccErr := by
  have : ∀ n, shardSize (List.replicate n ([] : Bytes)) = 0 := by
    intro n
    induction n with
    | zero => rfl
    | succ n ih => rw [List.replicate_succ, shardSize]; simpa using ih
  unfold reconstruct
  rw [if_neg (by simp), if_pos (this _)]

/-- C127, false as stated: AuthReconstruct of shards that do not suffice fails with the first chunk, while the workers go on with the others, and complete
the caller's shards. -/
theorem C127_failed_refuted (C : RS) (size : Nat) : ∃ evs s, run C 72 (init 2) (begin (.decode (newShards C) size) ++ evs) = some s ∧ s.stopped = false ∧
    (∃ c, s.calls[0]? = some c ∧ c.ret = some (.error eccErr)) ∧ WorksFor s 0 := by
  have hout : outcome C (.decode (newShards C) size) [0] = .error eccErr := by
    have h1 : goIndex (newShards C) 0 = .ok (List.replicate (C.k + C.m) []) := rfl
    simp only [outcome, List.foldlM_cons, decodeArrival, h1]
    simp only [bind, Except.bind, authReconstruct, reconstruct_missing]
    rfl
  obtain ⟨s, h1, h2⟩ : ∃ s, run C 72 (init 2) (begin (.decode (newShards C) size) ++ [.take 0 true, .take 1 true, .reply 0]) = some s ∧
      s.stopped = false ∧ s.workers = [.idle, .busy ⟨0, 1⟩] ∧
      s.calls = [{ job := .decode (newShards C) size, next := 36, chan := [0], received := [], ret := none }] := by
    obtain ⟨s, h1, h2, h3, h4, h5⟩ := begin_run C (.decode (newShards C) size) (fun i hi => by simp [Job.short, newShards, numChunks]; omega) 36 (by omega)
    have h4' : s.queue true = ⟨0, 0⟩ :: ⟨0, 1⟩ :: (List.range 34).map (fun k => ⟨0, k + 2⟩) := by
      have : s.queue true = (List.range 36).map (Task.mk 0) := h4
      rw [this, List.range_succ_eq_map, List.range_succ_eq_map]; simp
    rw [run_append, begin, h1]
    simp [run, step, h2, h3, h4', h5, State.setQueue, State.setCall, numChunks]
  obtain ⟨h2, h3, h4⟩ := h2
  refine ⟨[.take 0 true, .take 1 true, .reply 0, .receive 0],
    s.setCall 0 (Call.receive C { job := .decode (newShards C) size, next := 36, chan := [0], received := [], ret := none } 0 []), ?_, h2,
    ⟨Call.receive C { job := .decode (newShards C) size, next := 36, chan := [0], received := [], ret := none } 0 [], ?_, ?_⟩, ⟨1, ⟨0, 1⟩, ?_, rfl⟩⟩
  · have : ([.take 0 true, .take 1 true, .reply 0, .receive 0] : List Ev) = [.take 0 true, .take 1 true, .reply 0] ++ [.receive 0] := rfl
    rw [this, ← List.append_assoc, run_append, h1]
    simp [run, step, h4, numChunks]
  · simp [State.setCall, h4]
  · simp only [Call.receive, List.nil_append]
    rw [hout]
  · simp [State.setCall, h3]

/-- The hypotheses of C127_success_partial and C127_encode_partial are met: a call of AuthEncode, of whatever data, that has returned. -/
example (C : RS) (data : Bytes) : ∃ evs s, run C 72 (init 2) (.call (.encode data) :: evs) = some s ∧ ∃ c, s.calls[0]? = some c ∧ c.job = .encode data ∧ c.ret ≠ none := by
  obtain ⟨s0, h0⟩ : ∃ s0, run C 72 (init 2) [.call (.encode data)] = some s0 := ⟨_, rfl⟩
  obtain ⟨more, s', h2, h3, h4⟩ := C92_completes C 2 72 (by decide) (by decide) _ _ h0
  have hall : run C 72 (init 2) ([.call (.encode data)] ++ more) = some s' := by rw [run_append, h0]; exact h3
  have hjob := (C92_results C 2 72 _ _ hall).1
  have hmade : ∀ l : List Ev, (∀ e ∈ l, Own e = true) → made l = [] := by
    intro l
    induction l with
    | nil => intro _; rfl
    | cons e l ih =>
      intro h
      have h1 := h e (by simp)
      have h2 := ih (fun x hx => h x (by simp [hx]))
      cases e <;> simp_all [made, Own]
  have : s'.calls.map (·.job) = [.encode data] := by
    rw [hjob]
    have := hmade more h2
    simp only [made, List.singleton_append] at this ⊢
    simp_all
  refine ⟨more, s', hall, ?_⟩
  obtain ⟨c, hc1, hc2⟩ := List.map_eq_singleton_iff.1 this
  rw [hc1]
  exact ⟨c, rfl, hc2, h4 c (by simp [hc1])⟩

end Resmix.Ecc.EccPool
