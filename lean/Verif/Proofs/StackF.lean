import Verif.Proofs.StackE
set_option autoImplicit false
/-
Whole executions.
-/
namespace Resmix.Stack
open Resmix.Mixer (Messages MixOutput)
open Resmix.Sender
variable {ζ μ : Type} {c : Config ζ μ} {s s' : State ζ μ} {e : Event ζ μ}

theorem clientCalls_append (l l' : List (Event ζ μ)) : clientCalls (l ++ l') = clientCalls l ++ clientCalls l' := by
  induction l with
  | nil => rfl
  | cons x l ih => cases x <;> simp [clientCalls, ih]

theorem clientCalls_quiet {l : List (Event ζ μ)} (h : ∀ e ∈ l, Quiet e = true) : clientCalls l = [] := by
  induction l with
  | nil => rfl
  | cons x l ih =>
    have h1 := h x (by simp)
    have h2 := ih fun e he => h e (by simp [he])
    cases x <;> simp_all [clientCalls, Quiet]

/-! ### What clients do can be read off their calls alone -/

theorem mem_clients {evs : List System.Event} {h : Str} {a : Server.Action} : .client h a ∈ evs.filter isClient ↔ .client h a ∈ evs := by
  simp [isClient]

theorem opening_clients (evs : List System.Event) (h : Str) (r : Nat) :
    (evs.filter isClient).filter (System.isOpening h r) = evs.filter (System.isOpening h r) := by
  rw [List.filter_filter]
  congr 1
  funext e
  cases e <;> simp [isClient, System.isOpening]

theorem onions_clients (evs : List System.Event) (r : Nat) (n : Str) : System.clientOnions (evs.filter isClient) r n = System.clientOnions evs r n := by
  unfold System.clientOnions
  induction evs with
  | nil => rfl
  | cons x l ih =>
    cases x with
    | client h a => rw [List.filter_cons_of_pos rfl, List.flatMap_cons, List.flatMap_cons, ih]
    | _ => rw [List.filter_cons_of_neg (by simp [isClient]), List.flatMap_cons, ih]; rfl

theorem clients_iff {t : Topology} {subs : List System.Submission} {r : Nat} {evs : List System.Event} :
    System.Clients t subs r (evs.filter isClient) ↔ System.Clients t subs r evs := by
  constructor
  · intro h
    exact ⟨fun x => by rw [← opening_clients]; exact h.once x, fun x ls o hm => h.loads x ls o (mem_clients.2 hm), fun x ms hm => h.first x ms (mem_clients.2 hm),
      fun ch f hf => by rw [← onions_clients]; exact h.onions ch f hf⟩
  · intro h
    exact ⟨fun x => by rw [opening_clients]; exact h.once x, fun x ls o hm => h.loads x ls o (mem_clients.1 hm), fun x ms hm => h.first x ms (mem_clients.1 hm),
      fun ch f hf => by rw [onions_clients]; exact h.onions ch f hf⟩

theorem orderly_iff {t : Topology} {r : Nat} {evs : List System.Event} : System.Orderly t r (evs.filter isClient) ↔ System.Orderly t r evs := by
  constructor
  · intro h; exact ⟨fun x hm => h.noEnd x (mem_clients.2 hm), fun x ms hm => h.form x ms (mem_clients.2 hm)⟩
  · intro h; exact ⟨fun x hm => h.noEnd x (mem_clients.1 hm), fun x ms hm => h.form x ms (mem_clients.1 hm)⟩

theorem allOrderly_iff {cfg : System.Config} {L : Nat} {evs : List System.Event} : System.AllOrderly cfg L (evs.filter isClient) ↔ System.AllOrderly cfg L evs := by
  unfold System.AllOrderly
  simp only [clients_iff, orderly_iff]

theorem allOrderly_init {cfg : System.Config} {L : Nat} {evs : List System.Event} {es : List System.Event} (h : System.AllOrderly cfg L (evs ++ es)) :
    System.AllOrderly cfg L evs := by
  induction es using List.reverseRecOn with
  | nil => simpa using h
  | append_singleton es x ih =>
    refine ih fun r hr => ?_
    obtain ⟨subs, h1, h2, h3⟩ := h r hr
    rw [← List.append_assoc] at h2 h3
    exact ⟨subs, h1, h2.prefix_, h3.prefix_⟩

/-! ### Executions -/

/-- An execution, and one of Model/System that corresponds. -/
structure Track (c : Config ζ μ) (conn : Str → Bool) (evs : List (Event ζ μ)) (s : State ζ μ) (evs' : List System.Event) (a : System.State)
    (T : List (Loc × Request)) : Prop where
  run : System.Run c.sys (System.init conn) evs' a
  clients : evs'.filter isClient = clientCalls evs
  sim : Sim c s a T
  wf : Wf c s
  count : evs.countP isCallE = evs.countP isStartE + open_ T
  left : ∃ F G n, Left s F G n ∧ n + evs.countP Busy ≤ 11 * evs.countP isCallE

theorem track_init (c : Config ζ μ) (conn : Str → Bool) : Track c conn [] (init conn) [] (System.init conn) [] where
  run := .nil
  clients := rfl
  sim := ⟨rfl, rfl, List.nodup_nil, fun l => by cases l <;> simp [Live, init, Rrpc.DirectSystem.init], fun x hx => by cases hx⟩
  wf := wf_init c conn
  count := rfl
  left := ⟨∅, ∅, 0, left_init c conn, by simp⟩

section
variable {hosts : List Str} {L : Nat} {conn : Str → Bool} {evs : List (Event ζ μ)} {evs' : List System.Event} {a : System.State} {T : List (Loc × Request)}

theorem Track.orderly (t : Track c conn evs s evs' a T) (hall : System.AllOrderly c.sys L (clientCalls evs)) : System.AllOrderly c.sys L evs' := by
  rw [← t.clients] at hall; exact allOrderly_iff.1 hall

theorem Track.alive (hL : 0 < L) (hc : Topology.createCascade hosts L = .ok c.sys.topo) (hconn : System.Connected c.sys hosts) (t : Track c conn evs s evs' a T)
    (hall : System.AllOrderly c.sys L (clientCalls evs)) (h : Str) : (s.servers h).crashed = false := by
  rw [← t.sim.servers]; exact System.no_crash hL hc hconn t.run (t.orderly hall) h

theorem Track.noPanic (hL : 0 < L) (hc : Topology.createCascade hosts L = .ok c.sys.topo) (hconn : System.Connected c.sys hosts) (t : Track c conn evs s evs' a T)
    (hall : System.AllOrderly c.sys L (clientCalls evs)) : NoPanic c s := by
  intro h i r m out rest srv resp rqs hm ho hs hb
  rw [← t.sim.servers] at hm hs
  have hst := System.Step.panic hm ho hs hb
  have := System.no_crash hL hc hconn (t.run.snoc hst) ((t.orderly hall).own (evs' := [.forward h i]) (by simp [System.Own])) h
  simp [System.State.setServer] at this

theorem Track.step (hS : Serves c) (hL : 0 < L) (hc : Topology.createCascade hosts L = .ok c.sys.topo) (hconn : System.Connected c.sys hosts)
    (t : Track c conn evs s evs' a T) (hall : System.AllOrderly c.sys L (clientCalls evs)) (hp : Proper c s e) (hst : Step c s e s') :
    ∃ es a' T', Track c conn (evs ++ [e]) s' (evs' ++ es) a' T' ∧ System.Run c.sys a es a' ∧ es.length = (if Abs e then 1 else 0) ∧
      (Quiet e = true → ∀ x ∈ es, System.Own x) ∧
      ∀ r, Keeps c r s e → System.LosslessRun c.sys r (System.init conn) evs' a → System.LosslessRun c.sys r (System.init conn) (evs' ++ es) a' := by
  have hnp := t.noPanic hL hc hconn hall
  obtain ⟨es, a', T', h⟩ := sim_step hS t.wf hnp hp hst t.sim
  have hw := wf_step hS t.wf hnp hp hst
  have hcnt : (evs ++ [e]).countP isCallE = (evs ++ [e]).countP isStartE + open_ T' := by
    have h1 := h.count
    have h2 := t.count
    simp only [List.countP_append, List.countP_singleton]
    omega
  have hleft : ∃ F G n, Left s' F G n ∧ n + (evs ++ [e]).countP Busy ≤ 11 * (evs ++ [e]).countP isCallE := by
    obtain ⟨F, G, n, h1, h2⟩ := t.left
    obtain ⟨F', G', n', h3, h4⟩ := left_step hS t.wf hnp hp hst h1
    refine ⟨F', G', n', h3, ?_⟩
    simp only [List.countP_append, List.countP_singleton]
    cases h5 : isCallE e <;> simp only [h5, if_true, Bool.false_eq_true, if_false] at h4 ⊢ <;> omega
  rcases h.run with ⟨rfl, rfl, h1⟩ | ⟨h1, ev, rfl, h2, h3, h4⟩
  · refine ⟨[], a', T', ⟨by simpa using t.run, ?_, h.sim, hw, hcnt, hleft⟩, .nil, by simp [h1], by simp, fun r _ h => by simpa using h⟩
    rw [clientCalls_append, ← h.clients, ← t.clients]; simp
  · refine ⟨[ev], a', T', ⟨t.run.snoc h2, ?_, h.sim, hw, hcnt, hleft⟩, System.Run.snoc (evs := []) .nil h2, by simp [h1], ?_, fun r hk hl => hl.snoc (h3 r hk) h2⟩
    · rw [clientCalls_append, ← h.clients, ← t.clients, List.filter_append]
    · intro hq x hx
      rw [List.mem_singleton] at hx
      subst hx
      refine ⟨?_, h4⟩
      rintro h' a rfl
      have hcl := h.clients
      rw [clientCalls_quiet (by simpa using hq)] at hcl
      simp [isClient] at hcl

theorem track_run (hS : Serves c) (hL : 0 < L) (hc : Topology.createCascade hosts L = .ok c.sys.topo) (hconn : System.Connected c.sys hosts)
    (hrun : ProperRun c (init conn) evs s) (hall : System.AllOrderly c.sys L (clientCalls evs)) : ∃ evs' a T, Track c conn evs s evs' a T := by
  induction hrun with
  | nil => exact ⟨[], _, [], track_init c conn⟩
  | snoc hr hp hst ih =>
    next evs s s' e =>
    rw [clientCalls_append] at hall
    have hall0 := allOrderly_init hall
    obtain ⟨evs', a, T, t⟩ := ih hall0
    obtain ⟨es, a', T', t', -⟩ := t.step hS hL hc hconn hall0 hp hst
    exact ⟨_, _, _, t'⟩

theorem track_lossless (hS : Serves c) (hL : 0 < L) (hc : Topology.createCascade hosts L = .ok c.sys.topo) (hconn : System.Connected c.sys hosts) {r : Nat}
    (hrun : LosslessRun c r (init conn) evs s) (hall : System.AllOrderly c.sys L (clientCalls evs)) :
    ∃ evs' a T, Track c conn evs s evs' a T ∧ System.LosslessRun c.sys r (System.init conn) evs' a := by
  induction hrun with
  | nil => exact ⟨[], _, [], track_init c conn, .nil⟩
  | snoc hr hp hk hst ih =>
    next evs s s' e =>
    rw [clientCalls_append] at hall
    have hall0 := allOrderly_init hall
    obtain ⟨evs', a, T, t, hl⟩ := ih hall0
    obtain ⟨es, a', T', t', -, -, -, h5⟩ := t.step hS hL hc hconn hall0 hp hst
    exact ⟨_, _, _, t', h5 r hk hl⟩

/-- A continuation without client calls. -/
theorem Track.go (hS : Serves c) (hL : 0 < L) (hc : Topology.createCascade hosts L = .ok c.sys.topo) (hconn : System.Connected c.sys hosts)
    (t : Track c conn evs s evs' a T) (hall : System.AllOrderly c.sys L (clientCalls evs)) {es : List (Event ζ μ)} (hr : ProperRun c s es s')
    (hq : ∀ e ∈ es, Quiet e = true) :
    ∃ es' a' T', Track c conn (evs ++ es) s' (evs' ++ es') a' T' ∧ System.Run c.sys a es' a' ∧ es'.length = es.countP Abs ∧ ∀ x ∈ es', System.Own x := by
  induction hr with
  | nil => exact ⟨[], a, T, by simpa using t, .nil, rfl, by simp⟩
  | snoc hr hp hst ih =>
    next es s1 s2 e =>
    obtain ⟨es', a', T', t', h1, h2, h3⟩ := ih fun x hx => hq x (by simp [hx])
    have hall' : System.AllOrderly c.sys L (clientCalls (evs ++ es)) := by
      rw [clientCalls_append, clientCalls_quiet (l := es) (fun x hx => hq x (by simp [hx])), List.append_nil]; exact hall
    obtain ⟨es2, a2, T2, t2, h4, h5, h6, -⟩ := t'.step hS hL hc hconn hall' hp hst
    refine ⟨es' ++ es2, a2, T2, by simpa [List.append_assoc] using t2, h1.append h4, ?_, ?_⟩
    · rw [List.length_append, h2, h5, List.countP_append, List.countP_singleton]
    · intro x hx
      rcases List.mem_append.1 hx with hx | hx
      · exact h3 x hx
      · exact h6 (hq e (by simp)) x hx

/-- Everything in flight can be delivered. -/
theorem drain {cfg : System.Config} (hno : ∀ evs1 a1, System.Run cfg a evs1 a1 → (∀ x ∈ evs1, System.Own x) → ∀ h, (a1.servers h).crashed = false) :
    ∃ es a', System.Run cfg a es a' ∧ (∀ x ∈ es, System.Own x) ∧ es.length = a.net.length := by
  have : ∀ n, n ≤ a.net.length → ∃ es a', System.Run cfg a es a' ∧ (∀ x ∈ es, System.Own x) ∧ es.length = n ∧ a'.net.length + n = a.net.length := by
    intro n
    induction n with
    | zero => intro _; exact ⟨[], a, .nil, by simp, rfl, rfl⟩
    | succ n ih =>
      intro hn
      obtain ⟨es, a', h1, h2, h3, h4⟩ := ih (by omega)
      have hlt : 0 < a'.net.length := by omega
      have hk : a'.net[0]? = some a'.net[0] := List.getElem?_eq_getElem hlt
      obtain ⟨srv, resp, hs⟩ : ∃ srv resp, Server.step (cfg.server a'.net[0].host) (a'.servers a'.net[0].host) (.addMessages a'.net[0].round a'.net[0].messages) = some (srv, resp) := by
        unfold Server.step
        rw [if_neg (by simp [hno es a' h1 h2])]
        simp only
        split
        · exact ⟨_, _, rfl⟩
        · exact ⟨_, _, rfl⟩
      refine ⟨es ++ [.deliver 0], _, h1.snoc (.deliver hk hs), ?_, by simp [h3], ?_⟩
      · intro x hx
        rcases List.mem_append.1 hx with hx | hx
        · exact h2 x hx
        · rw [List.mem_singleton] at hx; subst hx; simp [System.Own]
      · simp only [List.length_eraseIdx, hlt, if_true]; omega
  obtain ⟨es, a', h1, h2, h3, -⟩ := this a.net.length le_rfl
  exact ⟨es, a', h1, h2, h3⟩

/-- The calls a continuation makes. -/
theorem calls_bounded (hS : Serves c) (hL : 0 < L) (hc : Topology.createCascade hosts L = .ok c.sys.topo) (hconn : System.Connected c.sys hosts)
    (t : Track c conn evs s evs' a T) (hall : System.AllOrderly c.sys L (clientCalls evs)) :
    ∃ N, ∀ es s', ProperRun c s es s' → (∀ e ∈ es, Quiet e = true) → es.countP Abs ≤ N ∧ (evs ++ es).countP isCallE ≤ N := by
  obtain ⟨N, hN⟩ := System.bounded hL hc hconn t.run (t.orderly hall)
  refine ⟨N + evs.countP isStartE, fun es s' hr hq => ?_⟩
  obtain ⟨es', a', T', t', h1, h2, h3⟩ := t.go hS hL hc hconn hall hr hq
  obtain ⟨es2, a2, h4, h5, h6⟩ := drain (cfg := c.sys) (a := a') fun evs1 a1 h7 h8 h => by
    refine System.no_crash hL hc hconn (t'.run.append h7) ?_ h
    exact ((t.orderly hall).own h3).own h8
  have := (hN (es' ++ es2) a2 (h1.append h4) fun x hx => (List.mem_append.1 hx).elim (h3 x) (h5 x)).1
  rw [List.length_append, h2, h6, t'.sim.net, List.length_map] at this
  have h7 := t'.count
  have h8 : open_ T' ≤ T'.length := List.countP_le_length
  have h9 : es.countP isStartE ≤ es.countP Abs := List.countP_mono_left fun x _ => by cases x <;> simp [isStartE, Abs]
  rw [h7, List.countP_append]
  omega

/-- The steps a continuation makes. -/
theorem steps_bounded (hS : Serves c) (hL : 0 < L) (hc : Topology.createCascade hosts L = .ok c.sys.topo) (hconn : System.Connected c.sys hosts)
    (t : Track c conn evs s evs' a T) (hall : System.AllOrderly c.sys L (clientCalls evs)) :
    ∃ N, ∀ es s', ProperRun c s es s' → (∀ e ∈ es, Quiet e = true) → es.countP Own ≤ N := by
  obtain ⟨N, hN⟩ := calls_bounded hS hL hc hconn t hall
  refine ⟨N + 11 * N, fun es s' hr hq => ?_⟩
  obtain ⟨h1, h2⟩ := hN es s' hr hq
  obtain ⟨es', a', T', t', -⟩ := t.go hS hL hc hconn hall hr hq
  obtain ⟨F, G, n, -, h3⟩ := t'.left
  have h4 : es.countP Busy ≤ (evs ++ es).countP Busy := by rw [List.countP_append]; omega
  have h5 : es.countP Own ≤ es.countP Abs + es.countP Busy := by
    clear * - hq
    induction es with
    | nil => simp
    | cons x es ih =>
      have h1 := hq x (by simp)
      have h2 := ih fun e he => hq e (by simp [he])
      rw [List.countP_cons, List.countP_cons, List.countP_cons]
      have : Own x = true → Abs x = true ∨ Busy x = true := by
        intro ho
        cases x with
        | conn h h' ev => right; cases ev <;> simp_all [Busy, Own]
        | _ => simp_all [Abs, Busy, Own]
      by_cases ho : Own x = true
      · rcases this ho with h | h <;> simp only [h, ho, if_true] <;> split <;> omega
      · rw [if_neg ho]; omega
  omega

end

end Resmix.Stack
