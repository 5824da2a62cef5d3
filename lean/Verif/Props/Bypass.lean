import Verif.Model.Bypass
import Verif.Proofs.GoMap
import Verif.Props.Services
set_option autoImplicit false
/-
C96: the bypass mode serves the same methods.
-/
namespace Resmix.Rrpc.Bypass
variable {ζ μ : Type}

/-- The orders in which Go may visit the maps: each service once, each method of each service once. -/
def VisitOrder (s : Services ζ μ) (order : List ((Str × ServiceDesc ζ μ) × List (Str × μ))) : Prop :=
  (order.map Prod.fst).Perm s ∧ ∀ e ∈ order, e.2.Perm e.1.2.methods

/-- The table is one of Go maps: keys are pairwise distinct. -/
def IsMap (s : Services ζ μ) : Prop := GoMap.NodupKeys s ∧ ∀ e ∈ s, GoMap.NodupKeys e.2.methods

theorem methodArray_aux (order : List (Str × μ)) (pre : List (Option (Str × μ))) (k : Nat) :
    order.foldl assign (.ok (pre.length, pre ++ List.replicate (order.length + k) none))
      = .ok (pre.length + order.length, pre ++ order.map some ++ List.replicate k none) := by
  induction order generalizing pre with
  | nil => simp
  | cons e order ih =>
    have h : (goSet (pre ++ List.replicate ((e :: order).length + k) none) pre.length (some e)) = .ok ((pre ++ [some e]) ++ List.replicate (order.length + k) none) := by
      simp only [goSet, List.length_append, List.length_replicate, List.length_cons]
      rw [if_pos (by omega), show order.length + 1 + k = (order.length + k) + 1 by omega, List.replicate_succ]
      simp
    rw [List.foldl_cons]
    simp only [assign, h]
    have := ih (pre ++ [some e])
    simp only [List.length_append, List.length_singleton] at this
    rw [this]
    simp only [Except.ok.injEq, Prod.mk.injEq, List.length_cons, List.map_cons]
    exact ⟨by omega, by simp⟩

theorem methodArray_ok (ms order : List (Str × μ)) (h : order.Perm ms) : methodArray ms.length order = .ok (order.map some) := by
  have := methodArray_aux order [] 0
  simp only [List.length_nil, List.nil_append, Nat.add_zero, List.replicate_zero, List.append_nil] at this
  rw [methodArray, ← h.length_eq, this]

/-- The methods as grpc registers them. -/
def table (ms : List (Str × μ)) : GoMap Str (Option μ) := (ms.map some).foldl addMethod []

theorem table_lookup_aux (ms : List (Str × μ)) (m : GoMap Str (Option μ)) (hn : GoMap.NodupKeys ms) (hd : ∀ e ∈ ms, GoMap.lookup m e.1 = none) (k : Str) :
    GoMap.lookup ((ms.map some).foldl addMethod m) k = ((GoMap.lookup ms k).map some).or (GoMap.lookup m k) := by
  induction ms generalizing m with
  | nil => simp [GoMap.lookup]
  | cons e ms ih =>
    obtain ⟨nm, h⟩ := e
    have hn' : nm ∉ ms.map Prod.fst ∧ (ms.map Prod.fst).Nodup := by simpa [GoMap.NodupKeys] using hn
    rw [List.map_cons, List.foldl_cons]
    simp only [addMethod]
    rw [ih _ hn'.2]
    · by_cases hk : nm = k
      · subst hk
        have hl : GoMap.lookup ms nm = none := GoMap.lookup_eq_none.2 hn'.1
        have := GoMap.lookup_insert m nm nm (some h)
        simp only [if_true] at this
        simp [GoMap.lookup, hl, this]
      · have := GoMap.lookup_insert_ne m (k := nm) (k' := k) (some h) (Ne.symm hk)
        rw [this]
        simp [GoMap.lookup, hk]
    · intro e he
      have hne : e.1 ≠ nm := fun h' => hn'.1 (h' ▸ List.mem_map_of_mem he)
      rw [GoMap.lookup_insert_ne m (some h) hne]
      exact hd e (List.mem_cons_of_mem _ he)

theorem table_lookup (ms : List (Str × μ)) (hn : GoMap.NodupKeys ms) (k : Str) : GoMap.lookup (table ms) k = (GoMap.lookup ms k).map some := by
  rw [table, table_lookup_aux ms [] hn (fun e _ => rfl)]
  simp [GoMap.lookup]

theorem newGrpcServer_aux (order : List ((Str × ServiceDesc ζ μ) × List (Str × μ))) (hp : ∀ e ∈ order, e.2.Perm e.1.2.methods)
    (hn : (order.map fun e => e.1.1).Nodup) (t : Table ζ μ) (ht : ∀ e ∈ order, GoMap.lookup t e.1.1 = none) :
    ∃ t', order.foldl addService (.ok t) = .ok t' ∧
      ∀ k, GoMap.lookup t' k = (GoMap.lookup (order.map fun e => (e.1.1, (e.1.2.server, table e.2))) k).or (GoMap.lookup t k) := by
  induction order generalizing t with
  | nil => exact ⟨t, rfl, fun k => by simp [GoMap.lookup]⟩
  | cons e order ih =>
    have hn' : e.1.1 ∉ (order.map fun e => e.1.1) ∧ (order.map fun e => e.1.1).Nodup := by simpa using hn
    have h1 := methodArray_ok e.1.2.methods e.2 (hp e List.mem_cons_self)
    obtain ⟨t', ht', hl⟩ := ih (fun e he => hp e (List.mem_cons_of_mem _ he)) hn'.2 (GoMap.insert t e.1.1 (e.1.2.server, table e.2)) (by
      intro e' he'
      have hne : e'.1.1 ≠ e.1.1 := fun h => hn'.1 (List.mem_map.2 ⟨e', he', h⟩)
      rw [GoMap.lookup_insert_ne _ _ hne]
      exact ht e' (List.mem_cons_of_mem _ he'))
    refine ⟨t', ?_, ?_⟩
    · rw [List.foldl_cons]
      simp only [addService, h1, register, ht e List.mem_cons_self]
      exact ht'
    · intro k
      rw [hl k]
      by_cases hk : e.1.1 = k
      · subst hk
        have h2 : GoMap.lookup (order.map fun e => (e.1.1, (e.1.2.server, table e.2))) e.1.1 = none := by
          refine GoMap.lookup_eq_none.2 ?_
          rw [List.map_map]
          exact hn'.1
        have h3 := GoMap.lookup_insert t e.1.1 e.1.1 (e.1.2.server, table e.2)
        simp only [if_true] at h3
        simp [GoMap.lookup, h2, h3]
      · rw [GoMap.lookup_insert_ne _ _ (Ne.symm hk)]
        simp [GoMap.lookup, hk]

/-- C96. Whatever order Go visits the maps in, the bypass server is made, without panic, and a name is dispatched to the server object and the handler the RPC layer
would have found for it; all other names are refused with the code Unimplemented. -/
theorem C96_same_dispatch (s : Services ζ μ) (hs : IsMap s) (order : List ((Str × ServiceDesc ζ μ) × List (Str × μ))) (ho : VisitOrder s order) :
    ∃ t, newGrpcServer order = .ok t ∧ ∀ name,
      (∀ server handler, dispatch t name = .ok (server, handler) ↔ s.get name = .ok (server, handler)) ∧
      ∀ e, dispatch t name = .error e → ∃ text, e = .err (.other 12) text := by
  have hn : (order.map fun e => e.1.1).Nodup := by
    have := (ho.1.map Prod.fst).nodup_iff.2 hs.1
    rwa [List.map_map] at this
  obtain ⟨t, ht, hl⟩ := newGrpcServer_aux order ho.2 hn [] (fun e _ => rfl)
  refine ⟨t, ht, fun name => ?_⟩
  -- the entry of a service
  have hserv : ∀ k, (GoMap.lookup s k = none ∧ GoMap.lookup t k = none) ∨
      ∃ d ms, GoMap.lookup s k = some d ∧ GoMap.lookup t k = some (d.server, ms) ∧ ∀ m, GoMap.lookup ms m = (GoMap.lookup d.methods m).map some := by
    intro k
    have hl' : GoMap.lookup t k = GoMap.lookup (order.map fun e => (e.1.1, (e.1.2.server, table e.2))) k := by
      rw [hl k]; simp [GoMap.lookup]
    have hs' : GoMap.lookup s k = GoMap.lookup (order.map Prod.fst) k := GoMap.lookup_perm ho.1.symm hs.1 k
    have gen : ∀ o : List ((Str × ServiceDesc ζ μ) × List (Str × μ)), (∀ e ∈ o, e.2.Perm e.1.2.methods ∧ GoMap.NodupKeys e.1.2.methods) →
        (GoMap.lookup (o.map Prod.fst) k = none ∧ GoMap.lookup (o.map fun e => (e.1.1, (e.1.2.server, table e.2))) k = none) ∨
        ∃ d ms, GoMap.lookup (o.map Prod.fst) k = some d ∧ GoMap.lookup (o.map fun e => (e.1.1, (e.1.2.server, table e.2))) k = some (d.server, ms) ∧
          ∀ m, GoMap.lookup ms m = (GoMap.lookup d.methods m).map some := by
      intro o
      induction o with
      | nil => intro _; exact Or.inl ⟨rfl, rfl⟩
      | cons e o ih =>
        intro h
        by_cases hk : e.1.1 = k
        · right
          refine ⟨e.1.2, table e.2, by simp [GoMap.lookup, hk], by simp [GoMap.lookup, hk], fun m => ?_⟩
          obtain ⟨h1, h2⟩ := h e List.mem_cons_self
          rw [table_lookup _ (GoMap.nodup_perm h1.symm h2), GoMap.lookup_perm h1.symm h2]
        · simpa [GoMap.lookup, hk] using ih (fun e he => h e (List.mem_cons_of_mem _ he))
    rw [hl', hs']
    refine gen order fun e he => ⟨ho.2 e he, hs.2 e.1 (ho.1.subset (List.mem_map_of_mem he))⟩
  rw [dispatch, Services.get]
  cases extractMethodInfo name with
  | error f => exact ⟨fun _ _ => ⟨fun h => (by cases h), fun h => (by cases h)⟩, fun e h => ⟨_, by injection h with h; exact h.symm⟩⟩
  | ok p =>
    obtain ⟨service, method⟩ := p
    rcases hserv service with ⟨h1, h2⟩ | ⟨d, ms, h1, h2, h3⟩
    · simp only [h1, h2]
      exact ⟨fun _ _ => ⟨fun h => (by cases h), fun h => (by cases h)⟩, fun e h => ⟨_, by injection h with h; exact h.symm⟩⟩
    · simp only [h1, h2, h3]
      cases GoMap.lookup d.methods method with
      | none => exact ⟨fun _ _ => ⟨fun h => (by cases h), fun h => (by cases h)⟩, fun e h => ⟨_, by injection h with h; exact h.symm⟩⟩
      | some h => exact ⟨fun _ _ => Iff.rfl, fun e h => (by cases h)⟩

/-- All states an asynchronous call in bypass mode can get into. -/
inductive Async.Reachable {ρ : Type} : Async ρ → Prop
  | init : Reachable Async.init
  | step {s s' : Async ρ} : Reachable s → Async.Step s s' → Reachable s'

theorem Async.inv {ρ : Type} {s : Async ρ} (h : Async.Reachable s) :
    match s.pc with
    | .calling => s.buf = [] ∧ s.closed = false ∧ s.got = []
    | .sending _ => s.buf = [] ∧ s.closed = false ∧ s.got = []
    | .closing => s.closed = false ∧ ∃ x, (s.buf = [x] ∧ s.got = []) ∨ (s.buf = [] ∧ s.got = [.value x])
    | .done => s.closed = true ∧ ∃ x, (s.buf = [x] ∧ s.got = []) ∨ (s.buf = [] ∧ ∃ k, s.got = .value x :: List.replicate k .closed) := by
  induction h with
  | init => exact ⟨rfl, rfl, rfl⟩
  | @step s s' _ hs ih =>
    cases hs with
    | ret x hp => rw [hp] at ih; exact ih
    | send x hp hb => rw [hp] at ih; exact ⟨ih.2.1, x, Or.inl ⟨by simp [ih.1], ih.2.2⟩⟩
    | close hp =>
      rw [hp] at ih
      obtain ⟨_, x, h | h⟩ := ih
      · exact ⟨rfl, x, Or.inl h⟩
      · exact ⟨rfl, x, Or.inr ⟨h.1, 0, h.2⟩⟩
    | recv x l hb =>
      cases hp : s.pc with
      | calling => simp [hp, hb] at ih
      | sending y => simp [hp, hb] at ih
      | closing =>
        simp only [hp, hb] at ih ⊢
        obtain ⟨hc, y, h | h⟩ := ih
        · simp only [List.cons.injEq] at h
          exact ⟨hc, x, Or.inr ⟨h.1.2, by simp [h.2]⟩⟩
        · simp at h
      | done =>
        simp only [hp, hb] at ih ⊢
        obtain ⟨hc, y, h | h⟩ := ih
        · simp only [List.cons.injEq] at h
          exact ⟨hc, x, Or.inr ⟨h.1.2, 0, by simp [h.2]⟩⟩
        · simp at h
    | recvClosed hb hc =>
      cases hp : s.pc with
      | calling => simp [hp, hc] at ih
      | sending y => simp [hp, hc] at ih
      | closing => simp [hp, hc] at ih
      | done =>
        simp only [hp, hb] at ih ⊢
        obtain ⟨_, y, h | ⟨_, k, h⟩⟩ := ih
        · simp at h
        · exact ⟨hc, y, Or.inr ⟨trivial, k + 1, by simp [h, List.replicate_succ']⟩⟩

/-- C96, asynchronous calls in bypass mode: the goroutine never blocks once the call has returned (whether or not the user receives); the user receives the
result of the call first, once, and then only that the channel is closed; and when the goroutine has ended a receive never blocks. -/
theorem C96_async {ρ : Type} (s : Async ρ) (h : Async.Reachable s) :
    (∀ x, s.pc = .sending x → ∃ s', Async.Step s s' ∧ s'.pc = .closing ∧ s'.buf = [x]) ∧
    (s.pc = .closing → ∃ s', Async.Step s s' ∧ s'.pc = .done) ∧
    (s.got = [] ∨ ∃ x k, s.got = .value x :: List.replicate k .closed) ∧
    (s.pc = .done → ∃ r, Async.Step s { s with buf := s.buf.tail, got := s.got ++ [r] }) := by
  have hi := Async.inv h
  refine ⟨?_, ?_, ?_, ?_⟩
  · intro x hp
    rw [hp] at hi
    refine ⟨_, .send s x hp (by simp [hi.1]), rfl, by simp [hi.1]⟩
  · intro hp
    exact ⟨_, .close s hp, rfl⟩
  · cases hp : s.pc <;> simp only [hp] at hi
    · exact Or.inl hi.2.2
    · exact Or.inl hi.2.2
    · obtain ⟨_, x, h | h⟩ := hi
      · exact Or.inl h.2
      · exact Or.inr ⟨x, 0, h.2⟩
    · obtain ⟨_, x, h | ⟨_, k, h⟩⟩ := hi
      · exact Or.inl h.2
      · exact Or.inr ⟨x, k, h⟩
  · intro hp
    rw [hp] at hi
    obtain ⟨hc, x, h | ⟨h, k, hk⟩⟩ := hi
    · exact ⟨.value x, by simpa [h.1] using Async.Step.recv s x [] h.1⟩
    · exact ⟨.closed, by simpa [h] using Async.Step.recvClosed s h hc⟩

/-- C96 fails for robust calls: in bypass mode they are not implemented. -/
theorem C96_robust_refuted : robustCall = .error (.err (.other 12) "grpc doesn't have this functionality") := rfl

/-- C96: which kind of server or connection is made: the bypass if asked for, else that of the RPC layer if there is a coordinator, else the error ErrNoConfigs. -/
theorem C96_kind (c : Configs) :
    (make c = .ok .grpc ↔ c.isGrpc = true) ∧ (make c = .ok .rrpc ↔ c.isGrpc = false ∧ c.hasCoordinator = true) ∧
    ((∃ e, make c = .error e) ↔ c.isGrpc = false ∧ c.hasCoordinator = false) := by
  obtain ⟨g, h⟩ := c
  cases g <;> cases h <;> simp [make, Configs.isEmpty]

/-- A table with two services, visited in another order than listed. -/
example : IsMap [([97], ({ server := 1, methods := [([98], 5), ([99], 6)] } : ServiceDesc Nat Nat)), ([100], { server := 2, methods := [] })] ∧
    VisitOrder [([97], ({ server := 1, methods := [([98], 5), ([99], 6)] } : ServiceDesc Nat Nat)), ([100], { server := 2, methods := [] })]
      [(([100], { server := 2, methods := [] }), []), (([97], { server := 1, methods := [([98], 5), ([99], 6)] }), [([99], 6), ([98], 5)])] := by
  refine ⟨⟨by simp [GoMap.NodupKeys], ?_⟩, ?_, ?_⟩
  · intro e he
    simp only [List.mem_cons, List.not_mem_nil, or_false] at he
    rcases he with rfl | rfl <;> simp [GoMap.NodupKeys]
  · exact List.Perm.swap _ _ _
  · intro e he
    simp only [List.mem_cons, List.not_mem_nil, or_false] at he
    rcases he with rfl | rfl
    · exact List.Perm.refl _
    · exact List.Perm.swap _ _ _

/-- A call whose result was received, and then a second receive. -/
example : Async.Reachable ({ pc := .done, buf := [], closed := true, got := [.value 7, .closed] } : Async Nat) := by
  refine .step (.step (.step (.step (.step .init (.ret _ 7 rfl)) (.send _ 7 rfl (by decide))) (.recv _ 7 [] rfl)) (.close _ rfl)) (.recvClosed _ rfl rfl)

end Resmix.Rrpc.Bypass
