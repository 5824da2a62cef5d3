import Verif.Proofs.DirectSystemA
set_option autoImplicit false
/-
The invariant of properly used connections.
-/
namespace Resmix.Rrpc.DirectSystem
open Resmix.Merkle
variable {ζ μ : Type} {cfg : Config ζ μ} {s s' : State ζ μ} {e : Event ζ μ}

/-- `A`: the calls whose responses the client has received. -/
structure Inv (cfg : Config ζ μ) (s : State ζ μ) (A : List Nat) : Prop where
  alive : s.client.crashed = false
  ended : s.ended = false
  lost : s.lost = false
  sender : s.client.sender = .idle
  cleaner : s.client.cleaner = .idle
  len : s.data.length = s.client.calls.length
  order : s.entered = A ++ s.down.map Prod.fst ++ s.serving.toList.map Prod.fst ++ s.up.map Prod.fst ++ s.client.queue
  ran : s.runs.map Ran.call = A ++ s.down.map Prod.fst
  nodup : s.entered.Nodup
  bound : ∀ i ∈ s.entered, i < s.client.calls.length
  reg : ∀ d ∈ s.data, ∃ x, cfg.svcs.get d.method = .ok x
  upOk : ∀ x ∈ s.up, ∃ c d, s.client.calls[x.1]? = some c ∧ s.data[x.1]? = some d ∧ requestOf cfg c.uuid d = .ok x.2
  servOk : ∀ x, s.serving = some x → ∃ c d, s.client.calls[x.1]? = some c ∧ s.data[x.1]? = some d ∧ requestOf cfg c.uuid d = .ok x.2
  downOk : ∀ x ∈ s.down, ∃ c n y, s.client.calls[x.1]? = some c ∧ x.2.note = some n ∧ n.calluuid = c.uuid ∧ y ∈ s.runs ∧ y.call = x.1 ∧
    ∀ cache, reply (verifyReceiverNote cfg.S cfg.H cfg.cod cache (cfg.S.pub cfg.sk) n).1 x.2 = outcomeOf y.result
  runOk : ∀ x ∈ s.runs, RunOf cfg s x
  wait : ∀ i c, s.client.calls[i]? = some c → i ∉ A → s.client.waiting.lookup c.uuid = some i ∧ c.got = none ∧ c.closed = false
  look : ∀ u i, s.client.waiting.lookup u = some i → i ∉ A ∧ ∃ c, s.client.calls[i]? = some c ∧ c.uuid = u
  ans : ∀ i c, s.client.calls[i]? = some c → i ∈ A → ∃ y ∈ s.runs, y.call = i ∧
    ((s.client.disp = .sending i (outcomeOf y.result) ∧ c.got = none ∧ c.closed = false) ∨
     (c.got = some (.response (outcomeOf y.result)) ∧ (c.closed = true ∨ c.closed = false ∧ s.client.disp = .closing i)))
  dispS : ∀ i x, s.client.disp = .sending i x → i ∈ A ∧ ∃ c, s.client.calls[i]? = some c ∧ c.got = none
  dispC : ∀ i, s.client.disp = .closing i → i ∈ A ∧ ∃ c, s.client.calls[i]? = some c ∧ c.got ≠ none ∧ c.closed = false

theorem inv_init (cfg : Config ζ μ) : Inv cfg init [] := by
  refine ⟨rfl, rfl, rfl, rfl, rfl, rfl, rfl, rfl, List.nodup_nil, ?_, ?_, ?_, ?_, ?_, ?_, ?_, ?_, ?_, ?_, ?_⟩ <;>
    intros <;> simp_all [init, DirectClient.init]

theorem Inv.sub {A : List Nat} (h : Inv cfg s A) {i : Nat} (hi : i ∈ A) : i ∈ s.entered := by
  rw [h.order]; simp [hi]

/-- A call is made. -/
theorem Inv.call {A : List Nat} (h : Inv cfg s A) {u : Str} {now : Nat} {m : Str} {a : Bytes} (hg : Good cfg s (.call u now m a))
    (hst : step cfg s (.call u now m a) = some s') : Inv cfg s' A := by
  obtain ⟨hf, hm⟩ := hg
  have hal := h.alive
  simp only [step, DirectClient.step, hal, Bool.false_eq_true, if_false, Option.some.injEq] at hst
  subst hst
  have hlen := h.len
  have hA : ∀ i ∈ A, i < s.client.calls.length := fun i hi => h.bound i (h.sub hi)
  have getC : ∀ (i : Nat) (c : DirectClient.Call Outcome), s.client.calls[i]? = some c → (s.client.calls ++ [({ uuid := u, start := now, closed := false, awaiting := false, got := none } : DirectClient.Call Outcome)])[i]? = some c := by
    intro i c hc
    have := (List.getElem?_eq_some_iff.1 hc).1
    rw [List.getElem?_append_left this]; exact hc
  have getD : ∀ (i : Nat) (d : CallData), s.data[i]? = some d → (s.data ++ [⟨m, a⟩])[i]? = some d := by
    intro i c hc
    have := (List.getElem?_eq_some_iff.1 hc).1
    rw [List.getElem?_append_left this]; exact hc
  have getC' : ∀ (i : Nat) (c : DirectClient.Call Outcome), (s.client.calls ++ [({ uuid := u, start := now, closed := false, awaiting := false, got := none } : DirectClient.Call Outcome)])[i]? = some c →
      s.client.calls[i]? = some c ∨ i = s.client.calls.length ∧ c = { uuid := u, start := now, closed := false, awaiting := false, got := none } := by
    intro i c hc
    rcases Nat.lt_trichotomy i s.client.calls.length with hlt | heq | hgt
    · rw [List.getElem?_append_left hlt] at hc; exact .inl hc
    · subst heq
      simp at hc; exact .inr ⟨rfl, hc.symm⟩
    · rw [List.getElem?_eq_none (by simp; omega)] at hc; cases hc
  refine ⟨rfl, h.ended, h.lost, h.sender, h.cleaner, by simp [hlen], h.order, h.ran, h.nodup, ?_, ?_, ?_, ?_, ?_, ?_, ?_, ?_, ?_, ?_, ?_⟩
  · intro i hi
    have := h.bound i hi
    simp; omega
  · intro d hd
    rcases List.mem_append.1 hd with hd | hd
    · exact h.reg d hd
    · simp at hd; subst hd; exact hm
  · intro x hx
    obtain ⟨c, d, h1, h2, h3⟩ := h.upOk x hx
    exact ⟨c, d, getC _ _ h1, getD _ _ h2, h3⟩
  · intro x hx
    obtain ⟨c, d, h1, h2, h3⟩ := h.servOk x hx
    exact ⟨c, d, getC _ _ h1, getD _ _ h2, h3⟩
  · intro x hx
    obtain ⟨c, n, y, h1, h2⟩ := h.downOk x hx
    exact ⟨c, n, y, getC _ _ h1, h2⟩
  · intro x hx
    obtain ⟨c, d, h1, h2, h3⟩ := h.runOk x hx
    exact ⟨c, d, getC _ _ h1, getD _ _ h2, h3⟩
  · intro i c hc hi
    rcases getC' i c hc with hc | ⟨rfl, rfl⟩
    · obtain ⟨h1, h2, h3⟩ := h.wait i c hc hi
      have hne : c.uuid ≠ u := fun he => hf c (List.mem_of_getElem? hc) he h2
      exact ⟨by dsimp only; rw [GoMap.lookup_insert_ne _ _ hne]; exact h1, h2, h3⟩
    · exact ⟨GoMap.lookup_insert_self _ _ _, rfl, rfl⟩
  · intro u' i hl
    dsimp only at hl
    by_cases hu : u' = u
    · subst hu
      rw [GoMap.lookup_insert_self] at hl
      injection hl with hl; subst hl
      exact ⟨fun hi => by have := hA _ hi; omega, { uuid := u', start := now, closed := false, awaiting := false, got := none }, by simp, rfl⟩
    · rw [GoMap.lookup_insert_ne _ _ hu] at hl
      obtain ⟨h1, c, h2, h3⟩ := h.look u' i hl
      exact ⟨h1, c, getC _ _ h2, h3⟩
  · intro i c hc hi
    rcases getC' i c hc with hc | ⟨rfl, rfl⟩
    · exact h.ans i c hc hi
    · have := hA _ hi; omega
  · intro i x hi
    obtain ⟨h1, c, h2, h3⟩ := h.dispS i x hi
    exact ⟨h1, c, getC _ _ h2, h3⟩
  · intro i hi
    obtain ⟨h1, c, h2, h3⟩ := h.dispC i hi
    exact ⟨h1, c, getC _ _ h2, h3⟩

/-- Calls that differ only in what their callers do. -/
def Similar (l l' : List (DirectClient.Call Outcome)) : Prop := l'.length = l.length ∧ ∀ (i : Nat) (c' : DirectClient.Call Outcome), l'[i]? = some c' →
  ∃ c : DirectClient.Call Outcome, l[i]? = some c ∧ c'.uuid = c.uuid ∧ c'.start = c.start

theorem Similar.back {l l' : List (DirectClient.Call Outcome)} (h : Similar l l') {i : Nat} {c : DirectClient.Call Outcome} (hc : l[i]? = some c) :
    ∃ c', l'[i]? = some c' ∧ c'.uuid = c.uuid := by
  have hi := (List.getElem?_eq_some_iff.1 hc).1
  have : i < l'.length := by rw [h.1]; exact hi
  obtain ⟨c0, h1, h2, -⟩ := h.2 i l'[i] (List.getElem?_eq_getElem this)
  rw [hc] at h1; injection h1 with h1; subst h1
  exact ⟨_, List.getElem?_eq_getElem this, h2⟩

theorem similar_set (l : List (DirectClient.Call Outcome)) {i : Nat} {c c' : DirectClient.Call Outcome} (hc : l[i]? = some c) (h1 : c'.uuid = c.uuid) (h2 : c'.start = c.start) :
    Similar l (l.set i c') := by
  refine ⟨by simp, ?_⟩
  intro j d hd
  rw [List.getElem?_set] at hd
  split at hd
  · rename_i h; subst h
    split at hd
    · injection hd with hd; subst hd; exact ⟨c, hc, h1, h2⟩
    · cases hd
  · exact ⟨d, hd, rfl, rfl⟩

/-- Only the calls and where the client's receiving goroutine is change. -/
theorem Inv.client {A : List Nat} (h : Inv cfg s A) {calls : List (DirectClient.Call Outcome)} {disp : DirectClient.Disp Outcome} (hsim : Similar s.client.calls calls)
    (hw : ∀ i c, calls[i]? = some c → i ∉ A → c.got = none ∧ c.closed = false)
    (ha : ∀ i c, calls[i]? = some c → i ∈ A → ∃ y ∈ s.runs, y.call = i ∧
      ((disp = .sending i (outcomeOf y.result) ∧ c.got = none ∧ c.closed = false) ∨
       (c.got = some (.response (outcomeOf y.result)) ∧ (c.closed = true ∨ c.closed = false ∧ disp = .closing i))))
    (hS : ∀ i x, disp = .sending i x → i ∈ A ∧ ∃ c, calls[i]? = some c ∧ c.got = none) (hC : ∀ i, disp = .closing i → i ∈ A ∧ ∃ c, calls[i]? = some c ∧ c.got ≠ none ∧ c.closed = false) :
    Inv cfg { s with client := { s.client with calls := calls, disp := disp } } A := by
  refine ⟨h.alive, h.ended, h.lost, h.sender, h.cleaner, by rw [h.len]; exact hsim.1.symm, h.order, h.ran, h.nodup, ?_, h.reg, ?_, ?_, ?_, ?_, ?_, ?_, ha, hS, hC⟩
  · intro i hi; dsimp only; rw [hsim.1]; exact h.bound i hi
  · intro x hx
    obtain ⟨c, d, h1, h2, h3⟩ := h.upOk x hx
    obtain ⟨c', h4, h5⟩ := hsim.back h1
    exact ⟨c', d, h4, h2, by rw [h5]; exact h3⟩
  · intro x hx
    obtain ⟨c, d, h1, h2, h3⟩ := h.servOk x hx
    obtain ⟨c', h4, h5⟩ := hsim.back h1
    exact ⟨c', d, h4, h2, by rw [h5]; exact h3⟩
  · intro x hx
    obtain ⟨c, n, y, h1, h2, h3, h6⟩ := h.downOk x hx
    obtain ⟨c', h4, h5⟩ := hsim.back h1
    exact ⟨c', n, y, h4, h2, by rw [h5]; exact h3, h6⟩
  · intro x hx
    obtain ⟨c, d, h1, h2, h3, h6⟩ := h.runOk x hx
    obtain ⟨c', h4, h5⟩ := hsim.back h1
    exact ⟨c', d, h4, h2, h3, by rw [h5]; exact h6⟩
  · intro i c hc hi
    obtain ⟨c0, h1, h2, -⟩ := hsim.2 i c hc
    obtain ⟨h3, -, -⟩ := h.wait i c0 h1 hi
    exact ⟨by rw [h2]; exact h3, hw i c hc hi⟩
  · intro u i hl
    obtain ⟨h1, c, h2, h3⟩ := h.look u i hl
    obtain ⟨c', h4, h5⟩ := hsim.back h2
    exact ⟨h1, c', h4, by rw [h5]; exact h3⟩

/-- A step of the client that is possible leaves the others as they are. -/
theorem local_eq {ev : DirectClient.Ev Outcome} (h : local' cfg s ev = some s') : ∃ c, DirectClient.step cfg.ttl s.client ev = some c ∧ s' = { s with client := c } := by
  unfold local' at h
  split at h
  · cases h
  · rename_i c hc; injection h with h; exact ⟨c, hc, h.symm⟩

theorem Inv.enqueue {A : List Nat} (h : Inv cfg s A) {i : Nat} (hst : step cfg s (.enqueue i) = some s') : Inv cfg s' A := by
  have hal := h.alive
  simp only [step, DirectClient.step, hal, Bool.false_eq_true, if_false] at hst
  split at hst
  · cases hst
  rename_i hne
  split at hst
  · cases hst
  rename_i c hc
  split at hc
  on_goal 2 => cases hc
  rename_i hb
  injection hc with hc; injection hst with hst
  subst hc; subst hst
  refine ⟨rfl, h.ended, h.lost, h.sender, h.cleaner, h.len, ?_, h.ran, ?_, ?_, h.reg, h.upOk, h.servOk, h.downOk, h.runOk, h.wait, h.look, h.ans, h.dispS, h.dispC⟩
  · dsimp only; rw [h.order]; simp
  · dsimp only
    rw [List.nodup_append]
    exact ⟨h.nodup, by simp, by intro a ha b hb; simp at hb; subst hb; rintro rfl; exact hne ha⟩
  · intro j hj
    rcases List.mem_append.1 hj with hj | hj
    · exact h.bound j hj
    · simp at hj; subst hj; exact hb.1

theorem Inv.await {A : List Nat} (h : Inv cfg s A) {i : Nat} (hst : step cfg s (.await i) = some s') : Inv cfg s' A := by
  obtain ⟨c', hc', rfl⟩ := local_eq hst
  have hal := h.alive
  simp only [DirectClient.step, hal, Bool.false_eq_true, if_false] at hc'
  split at hc'
  · cases hc'
  rename_i c hc
  injection hc' with hc'
  subst hc'
  have key : ∀ (j : Nat) (d : DirectClient.Call Outcome), (s.client.calls.set i { c with awaiting := true })[j]? = some d →
      ∃ d0, s.client.calls[j]? = some d0 ∧ d.got = d0.got ∧ d.closed = d0.closed := by
    intro j d hd
    rw [List.getElem?_set] at hd
    split at hd
    · rename_i he; subst he
      split at hd
      · injection hd with hd; subst hd; exact ⟨c, hc, rfl, rfl⟩
      · cases hd
    · exact ⟨d, hd, rfl, rfl⟩
  have := h.client (disp := s.client.disp) (similar_set s.client.calls (c' := { c with awaiting := true }) hc rfl rfl) (by
      intro j d hd hj
      obtain ⟨d0, h1, h2, h3⟩ := key j d hd
      rw [h2, h3]; exact (h.wait j d0 h1 hj).2) (by
      intro j d hd hj
      obtain ⟨d0, h1, h2, h3⟩ := key j d hd
      rw [h2, h3]; exact h.ans j d0 h1 hj) (by
      intro j x hj
      obtain ⟨h1, c0, h2, h3⟩ := h.dispS j x hj
      refine ⟨h1, ?_⟩
      have hlt : j < (s.client.calls.set i { c with awaiting := true }).length := by
        rw [List.length_set]; exact (List.getElem?_eq_some_iff.1 h2).1
      refine ⟨_, List.getElem?_eq_getElem hlt, ?_⟩
      obtain ⟨d0, e1, e2, -⟩ := key j _ (List.getElem?_eq_getElem hlt)
      rw [e2]; rw [h2] at e1; injection e1 with e1; subst e1; exact h3) (by
      intro j hj
      obtain ⟨h1, c0, h2, h3⟩ := h.dispC j hj
      refine ⟨h1, ?_⟩
      have hlt : j < (s.client.calls.set i { c with awaiting := true }).length := by
        rw [List.length_set]; exact (List.getElem?_eq_some_iff.1 h2).1
      refine ⟨_, List.getElem?_eq_getElem hlt, ?_⟩
      obtain ⟨d0, e1, e2, e3⟩ := key j _ (List.getElem?_eq_getElem hlt)
      rw [e2, e3]; rw [h2] at e1; injection e1 with e1; subst e1; exact h3)
  simpa [hal] using this

theorem Inv.no_readClosed {A : List Nat} (h : Inv cfg s A) (i : Nat) : step cfg s (.readClosed i) = none := by
  have hal := h.alive
  simp only [step, local', DirectClient.step, hal, Bool.false_eq_true, if_false]
  cases hc : s.client.calls[i]? with
  | none => rfl
  | some c =>
    dsimp only
    rw [if_neg]
    rintro ⟨-, h1, h2⟩
    by_cases hi : i ∈ A
    · obtain ⟨y, -, -, ⟨-, -, h3⟩ | ⟨h3, -⟩⟩ := h.ans i c hc hi
      · rw [h3] at h2; cases h2
      · rw [h3] at h1; cases h1
    · rw [(h.wait i c hc hi).2.2] at h2; cases h2

theorem Inv.send {A : List Nat} (h : Inv cfg s A) (hst : step cfg s .send = some s') : Inv cfg s' A := by
  have hal := h.alive
  have hsn := h.sender
  simp only [step, DirectClient.step, hal, hsn, h.ended, Bool.false_eq_true, if_false] at hst
  split at hst
  · cases hst
  rename_i i rest hq
  split at hst
  on_goal 2 => cases hst
  rename_i c d hc hd
  split at hst
  · cases hst
  rename_i q hr
  rw [hq] at hst
  dsimp only at hst
  split at hst
  on_goal 2 => cases hst
  injection hst with hst
  subst hst
  refine ⟨rfl, rfl, h.lost, rfl, h.cleaner, h.len, ?_, h.ran, h.nodup, h.bound, h.reg, ?_, h.servOk, h.downOk, h.runOk, h.wait, h.look, h.ans, h.dispS, h.dispC⟩
  · dsimp only; rw [h.order, hq]; simp
  · intro x hx
    rcases List.mem_append.1 hx with hx | hx
    · exact h.upOk x hx
    · simp at hx; subst hx; exact ⟨c, d, hc, hd, hr⟩

theorem Inv.recv {A : List Nat} (h : Inv cfg s A) (hst : step cfg s .recv = some s') : Inv cfg s' A := by
  simp only [step, h.ended, Bool.false_eq_true, if_false] at hst
  split at hst
  on_goal 2 => cases hst
  rename_i x rest hs hu
  injection hst with hst
  subst hst
  refine ⟨h.alive, rfl, h.lost, h.sender, h.cleaner, h.len, ?_, h.ran, h.nodup, h.bound, h.reg, ?_, ?_, h.downOk, h.runOk, h.wait, h.look, h.ans, h.dispS, h.dispC⟩
  · dsimp only; rw [h.order, hs, hu]; simp
  · intro y hy; exact h.upOk y (by rw [hu]; exact List.mem_cons_of_mem _ hy)
  · intro y hy
    injection hy with hy; subst hy
    exact h.upOk x (by rw [hu]; exact List.mem_cons_self)

theorem Inv.serve {A : List Nat} (h : Inv cfg s A) {hd : Handler ζ μ} {cache : Cache} (hg : Good cfg s (.serve hd cache))
    (hst : step cfg s (.serve hd cache) = some s') : Inv cfg s' A := by
  simp only [step] at hst
  split at hst
  · cases hst
  rename_i i q hs
  obtain ⟨c, d, h1, h2, h3⟩ := h.servOk _ hs
  dsimp only at h1 h2 h3
  obtain ⟨q', e1, e2⟩ := exchange cfg c.uuid d
  rw [h3] at e1; injection e1 with e1; subst e1
  obtain ⟨⟨srv, m⟩, hm⟩ := h.reg d (List.mem_of_getElem? h2)
  obtain ⟨resp, n, e3, e4, e5, e6⟩ := e2 srv m hm hd cache (fun msg => hg srv m c.uuid d.args msg)
  rw [e3] at hst
  split at hst
  on_goal 2 => cases hst
  injection hst with hst
  subst hst
  refine ⟨h.alive, rfl, h.lost, h.sender, h.cleaner, h.len, ?_, ?_, h.nodup, h.bound, h.reg, h.upOk, ?_, ?_, ?_, h.wait, h.look, ?_, h.dispS, h.dispC⟩
  · dsimp only; rw [h.order, hs]; simp
  · dsimp only; rw [List.map_append, h.ran]; simp
  · intro x hx; cases hx
  · intro x hx
    rcases List.mem_append.1 hx with hx | hx
    · obtain ⟨c', n', y, f1, f2, f3, f4, f5⟩ := h.downOk x hx
      exact ⟨c', n', y, f1, f2, f3, List.mem_append_left _ f4, f5⟩
    · simp at hx; subst hx
      exact ⟨c, n, ⟨i, (srv, m, c.uuid, d.args), hd srv m c.uuid d.args⟩, h1, e4, e5, List.mem_append_right _ (by simp), rfl, e6⟩
  · intro x hx
    rcases List.mem_append.1 hx with hx | hx
    · exact h.runOk x hx
    · simp at hx; subst hx
      exact ⟨c, d, h1, h2, hm, rfl⟩
  · intro j c' hc' hj
    obtain ⟨y, f1, f2⟩ := h.ans j c' hc' hj
    exact ⟨y, List.mem_append_left _ f1, f2⟩

theorem Inv.receive {A : List Nat} (h : Inv cfg s A) {cache : Cache} (hst : step cfg s (.receive cache) = some s') : ∃ i, Inv cfg s' (A ++ [i]) := by
  have hal := h.alive
  simp only [step, DirectClient.step, hal, h.lost, Bool.false_eq_true, if_false] at hst
  split at hst
  · cases hst
  rename_i i msg rest hd
  obtain ⟨c, n, y, f1, f2, f3, f4, f5, f6⟩ := h.downOk (i, msg) (by rw [hd]; exact List.mem_cons_self)
  dsimp only at f1 f2 f3 f5 f6
  rw [f2] at hst
  cases hdp : s.client.disp with
  | sending => rw [hdp] at hst; cases hst
  | closing => rw [hdp] at hst; cases hst
  | idle =>
    rw [hdp] at hst
    dsimp only at hst
    have hiA : i ∉ A := by
      intro hi
      have := h.nodup
      rw [h.order, hd] at this
      simp only [List.map_cons, List.append_assoc, List.nodup_append] at this
      exact this.2.2 i hi i (by simp) rfl
    obtain ⟨g1, g2, g3⟩ := h.wait i c f1 hiA
    rw [f3, g1] at hst
    dsimp only at hst
    injection hst with hst
    subst hst
    refine ⟨i, rfl, h.ended, rfl, h.sender, h.cleaner, h.len, ?_, ?_, h.nodup, h.bound, h.reg, h.upOk, h.servOk, ?_, h.runOk, ?_, ?_, ?_, ?_, ?_⟩
    · dsimp only; rw [h.order, hd]; simp
    · dsimp only; rw [h.ran, hd]; simp
    · intro x hx
      exact h.downOk x (by rw [hd]; exact List.mem_cons_of_mem _ hx)
    · intro j cj hj hnA
      have hjA : j ∉ A := fun hh => hnA (by simp [hh])
      have hji : j ≠ i := fun hh => hnA (by simp [hh])
      obtain ⟨k1, k2, k3⟩ := h.wait j cj hj hjA
      refine ⟨?_, k2, k3⟩
      dsimp only
      have hne : cj.uuid ≠ c.uuid := by
        intro he
        rw [he, g1] at k1
        injection k1 with k1; exact hji k1.symm
      rw [GoMap.lookup_erase_ne _ hne]; exact k1
    · intro u j hl
      dsimp only at hl
      by_cases hu : u = c.uuid
      · subst hu; rw [GoMap.lookup_erase_self] at hl; cases hl
      · rw [GoMap.lookup_erase_ne _ hu] at hl
        obtain ⟨k1, c', k2, k3⟩ := h.look u j hl
        refine ⟨?_, c', k2, k3⟩
        intro hj
        rcases List.mem_append.1 hj with hj | hj
        · exact k1 hj
        · simp at hj; subst hj
          rw [f1] at k2; injection k2 with k2; subst k2; exact hu k3.symm
    · intro j cj hj hjA
      dsimp only at hj
      rcases List.mem_append.1 hjA with hjA | hjA
      · obtain ⟨y', m1, m2, m3⟩ := h.ans j cj hj hjA
        refine ⟨y', m1, m2, ?_⟩
        rcases m3 with ⟨m3, -⟩ | ⟨m3, m4 | ⟨-, m4⟩⟩
        · rw [hdp] at m3; cases m3
        · exact .inr ⟨m3, .inl m4⟩
        · rw [hdp] at m4; cases m4
      · simp at hjA; subst hjA
        rw [f1] at hj; injection hj with hj; subst hj
        exact ⟨y, f4, f5, .inl ⟨by dsimp only; rw [f6 cache], g2, g3⟩⟩
    · intro j x hx
      dsimp only at hx
      injection hx with hx; subst hx; exact ⟨by simp, c, f1, g2⟩
    · intro j hj
      cases hj

theorem Inv.dispatch {A : List Nat} (h : Inv cfg s A) (hst : step cfg s .dispatch = some s') : Inv cfg s' A := by
  obtain ⟨c', hc', rfl⟩ := local_eq hst
  have hal := h.alive
  simp only [DirectClient.step, hal, Bool.false_eq_true, if_false] at hc'
  split at hc'
  on_goal 2 => cases hc'
  rename_i i x hdp
  obtain ⟨hiA, c0, hc0, hgot⟩ := h.dispS i x hdp
  unfold DirectClient.deliver at hc'
  split at hc'
  · cases hc'
  rename_i c hc
  obtain ⟨y, h1, h2, ⟨h3, h4, h5⟩ | ⟨h3, h4⟩⟩ := h.ans i c hc hiA
  · rw [h5] at hc'
    simp only [Bool.false_eq_true, if_false] at hc'
    split at hc'
    on_goal 2 => cases hc'
    injection hc' with hc'
    subst hc'
    rw [hdp] at h3; injection h3 with _ h3; subst h3
    have hlt := (List.getElem?_eq_some_iff.1 hc).1
    have := h.client (disp := .closing i) (similar_set s.client.calls (c' := { c with got := some (.response (outcomeOf y.result)) }) hc rfl rfl) (by
        intro j d hd hj
        have : i ≠ j := by rintro rfl; exact hj hiA
        rw [List.getElem?_set_ne this] at hd
        exact (h.wait j d hd hj).2) (by
        intro j d hd hj
        by_cases hij : i = j
        · subst hij
          rw [List.getElem?_set_self hlt] at hd
          injection hd with hd; subst hd
          exact ⟨y, h1, h2, .inr ⟨rfl, .inr ⟨h5, rfl⟩⟩⟩
        · rw [List.getElem?_set_ne hij] at hd
          obtain ⟨y', m1, m2, m3⟩ := h.ans j d hd hj
          refine ⟨y', m1, m2, ?_⟩
          rcases m3 with ⟨m3, -⟩ | ⟨m3, m4 | ⟨-, m4⟩⟩
          · rw [hdp] at m3; injection m3 with m3 _; exact (hij m3).elim
          · exact .inr ⟨m3, .inl m4⟩
          · rw [hdp] at m4; cases m4) (by intro j z hz; cases hz) (by
        intro j hj; injection hj with hj; subst hj
        exact ⟨hiA, _, List.getElem?_set_self hlt, by simp, h5⟩)
    simpa [hal, h5] using this
  · rw [hc] at hc0; injection hc0 with hc0; subst hc0
    rw [hgot] at h3; cases h3

theorem Inv.close {A : List Nat} (h : Inv cfg s A) (hst : step cfg s .close = some s') : Inv cfg s' A := by
  obtain ⟨c', hc', rfl⟩ := local_eq hst
  have hal := h.alive
  simp only [DirectClient.step, hal, Bool.false_eq_true, if_false] at hc'
  split at hc'
  on_goal 2 => cases hc'
  rename_i i hdp
  obtain ⟨hiA, c0, hc0, hgot, hcl⟩ := h.dispC i hdp
  rw [hc0] at hc'
  dsimp only at hc'
  have hlt := (List.getElem?_eq_some_iff.1 hc0).1
  split at hc'
  · rename_i hh; rw [hcl] at hh; cases hh
  injection hc' with hc'
  subst hc'
  have := h.client (disp := .idle) (similar_set s.client.calls (c' := { c0 with closed := true }) hc0 rfl rfl) (by
      intro j d hd hj
      have : i ≠ j := by rintro rfl; exact hj hiA
      rw [List.getElem?_set_ne this] at hd
      exact (h.wait j d hd hj).2) (by
      intro j d hd hj
      by_cases hij : i = j
      · subst hij
        rw [List.getElem?_set_self hlt] at hd
        injection hd with hd; subst hd
        obtain ⟨y, h1, h2, ⟨h3, -⟩ | ⟨h3, -⟩⟩ := h.ans i c0 hc0 hj
        · rw [hdp] at h3; cases h3
        · exact ⟨y, h1, h2, .inr ⟨h3, .inl rfl⟩⟩
      · rw [List.getElem?_set_ne hij] at hd
        obtain ⟨y', m1, m2, m3⟩ := h.ans j d hd hj
        refine ⟨y', m1, m2, ?_⟩
        rcases m3 with ⟨m3, -⟩ | ⟨m3, m4 | ⟨-, m4⟩⟩
        · rw [hdp] at m3; cases m3
        · exact .inr ⟨m3, .inl m4⟩
        · rw [hdp] at m4; injection m4 with m4; exact (hij m4).elim) (by intro j z hz; cases hz) (by intro j hj; cases hj)
  simpa [hal] using this

theorem Inv.visit {A : List Nat} (h : Inv cfg s A) {u : Str} {now : Nat} (hg : Good cfg s (.visit u now)) (hst : step cfg s (.visit u now) = some s') :
    s' = s := by
  obtain ⟨c', hc', rfl⟩ := local_eq hst
  have hal := h.alive
  have hcl := h.cleaner
  unfold DirectClient.step at hc'
  simp only [hal, hcl, Bool.false_eq_true, if_false] at hc'
  split at hc'
  · injection hc' with hc'; subst hc'; rfl
  rename_i i hl
  split at hc'
  · cases hc'
  rename_i c hc
  rw [if_pos (hg i c hl hc)] at hc'
  injection hc' with hc'; subst hc'; rfl

theorem Inv.no_sendFails {A : List Nat} (h : Inv cfg s A) : step cfg s .sendFails = none := by
  simp [step, h.ended]
theorem Inv.no_reportFail {A : List Nat} (h : Inv cfg s A) : step cfg s .reportFail = none := by
  simp [step, local', DirectClient.step, h.alive, h.sender]
theorem Inv.no_recvFails {A : List Nat} (h : Inv cfg s A) : step cfg s .recvFails = none := by
  simp only [step, h.ended]; split <;> simp
theorem Inv.no_notify {A : List Nat} (h : Inv cfg s A) : step cfg s .notify = none := by
  simp [step, local', DirectClient.step, h.alive, h.cleaner]
theorem Inv.no_delete {A : List Nat} (h : Inv cfg s A) : step cfg s .delete = none := by
  simp [step, local', DirectClient.step, h.alive, h.cleaner]

/-- Proper steps keep the invariant. -/
theorem Inv.stepped {A : List Nat} (h : Inv cfg s A) (hg : Good cfg s e) (hst : step cfg s e = some s') : ∃ A', Inv cfg s' A' := by
  cases e with
  | call u now m a => exact ⟨A, h.call hg hst⟩
  | enqueue i => exact ⟨A, h.enqueue hst⟩
  | await i => exact ⟨A, h.await hst⟩
  | readClosed i => rw [h.no_readClosed] at hst; cases hst
  | send => exact ⟨A, h.send hst⟩
  | sendFails => rw [h.no_sendFails] at hst; cases hst
  | reportFail => rw [h.no_reportFail] at hst; cases hst
  | recv => exact ⟨A, h.recv hst⟩
  | serve hd cache => exact ⟨A, h.serve hg hst⟩
  | receive cache => obtain ⟨i, hi⟩ := h.receive hst; exact ⟨_, hi⟩
  | recvFails => rw [h.no_recvFails] at hst; cases hst
  | dispatch => exact ⟨A, h.dispatch hst⟩
  | close => exact ⟨A, h.close hst⟩
  | visit u now => rw [h.visit hg hst]; exact ⟨A, h⟩
  | notify => rw [h.no_notify] at hst; cases hst
  | delete => rw [h.no_delete] at hst; cases hst

theorem Inv.ran_all {A : List Nat} {es : List (Event ζ μ)} (h : Inv cfg s A) (hr : GoodRun cfg s es s') : ∃ A', Inv cfg s' A' := by
  induction hr generalizing A with
  | nil => exact ⟨A, h⟩
  | cons hst hg _ ih => obtain ⟨A', h'⟩ := h.stepped hg hst; exact ih h'

end Resmix.Rrpc.DirectSystem
