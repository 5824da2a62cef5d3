import Verif.Model.Dial
import Verif.Proofs.GoMap
set_option autoImplicit false
/-
C97: connecting a mix server.
-/
namespace Resmix.Dial
open Resmix.Rrpc.Bypass (Configs Made make)

/-- The server has an open connection to `host`. -/
def ConnectedTo (s : State) (host : Str) : Prop := ∃ i, GoMap.lookup s.connections host = some i ∧ s.made[i]? = some { host := host, isOpen := true }

/-- No connection object is open. -/
def AllClosed (s : State) : Prop := ∀ c ∈ s.made, c.isOpen = false

/-- All objects are in the table, each under its host. -/
structure Tidy (s : State) : Prop where
  nodup : GoMap.NodupKeys s.connections
  look : ∀ h i, GoMap.lookup s.connections h = some i → ∃ c, s.made[i]? = some c ∧ c.host = h
  all : ∀ (i : Nat) c, s.made[i]? = some c → GoMap.lookup s.connections c.host = some i

theorem tidy_init : Tidy init := ⟨GoMap.nodup_nil, fun h i hl => (by cases hl), fun i c hc => (by simp [init] at hc)⟩

/-- A connection made. -/
def connect (s : State) (host : Str) : State :=
  { made := s.made ++ [{ host := host, isOpen := true }], connections := s.connections.insert host s.made.length }

theorem connect_other {s : State} {h h' : Str} (hc : ConnectedTo s h) (hne : h ≠ h') : ConnectedTo (connect s h') h := by
  obtain ⟨i, h1, h2⟩ := hc
  refine ⟨i, ?_, ?_⟩
  · simp only [connect]; rw [GoMap.lookup_insert_ne _ _ hne]; exact h1
  · simp only [connect]; rw [List.getElem?_append_left (List.getElem?_eq_some_iff.1 h2).1]; exact h2

theorem connect_self (s : State) (h : Str) : ConnectedTo (connect s h) h :=
  ⟨s.made.length, by simp [connect, GoMap.lookup_insert], by simp [connect]⟩

theorem connect_keeps {s : State} {h h' : Str} (hc : ConnectedTo s h) : ConnectedTo (connect s h') h := by
  by_cases hne : h = h'
  · subst hne; exact connect_self s h
  · exact connect_other hc hne

theorem connect_tidy {s : State} {h : Str} (ht : Tidy s) (hn : GoMap.lookup s.connections h = none) : Tidy (connect s h) := by
  obtain ⟨h1, h2, h3⟩ := ht
  refine ⟨GoMap.nodup_insert h1 _ _, ?_, ?_⟩
  · intro k i hk
    simp only [connect] at hk ⊢
    rw [GoMap.lookup_insert] at hk
    split at hk
    · next hkh => injection hk with hk; subst hk; exact ⟨{ host := h, isOpen := true }, by simp, hkh.symm⟩
    · obtain ⟨c, hc, hch⟩ := h2 k i hk
      exact ⟨c, by rw [List.getElem?_append_left (List.getElem?_eq_some_iff.1 hc).1]; exact hc, hch⟩
  · intro i c hc
    simp only [connect] at hc ⊢
    rw [GoMap.lookup_insert]
    rcases Nat.lt_or_ge i s.made.length with hi | hi
    · rw [List.getElem?_append_left hi] at hc
      have := h3 i c hc
      have hne : c.host ≠ h := by intro he; rw [he, hn] at this; cases this
      rw [if_neg hne]; exact this
    · have hi' : i = s.made.length := by
        have := (List.getElem?_eq_some_iff.1 hc).1
        simp at this; omega
      subst hi'
      simp at hc
      subst hc
      simp

/-- Dialling when all connections can be made. -/
theorem dial_ok (cnf : Configs) (net : Net) (peers : List Str) (hok : ∀ h ∈ peers, newConnection cnf net h = .ok ()) (s : State) (r : State × Go Unit) (hd : Dial cnf net s peers r) :
    r = (peers.foldl connect s, .ok ()) := by
  induction peers generalizing s with
  | nil => cases hd; rfl
  | cons h peers ih =>
    have h1 := hok h List.mem_cons_self
    cases hd with
    | connected => rename_i hc hr; exact ih (fun h' hh => hok h' (List.mem_cons_of_mem _ hh)) _ hr
    | panic => rename_i hc; rw [h1] at hc; cases hc
    | failed => rename_i hc; rw [h1] at hc; cases hc
    | failedTwice => rename_i hc; rw [h1] at hc; cases hc

theorem dial_ok_exists (cnf : Configs) (net : Net) (peers : List Str) (hok : ∀ h ∈ peers, newConnection cnf net h = .ok ()) (s : State) :
    Dial cnf net s peers (peers.foldl connect s, .ok ()) := by
  induction peers generalizing s with
  | nil => exact .done s
  | cons h peers ih =>
    exact .connected s h peers _ (hok h List.mem_cons_self) (ih (fun h' hh => hok h' (List.mem_cons_of_mem _ hh)) _)

theorem fold_keeps (peers : List Str) (s : State) (h : Str) (hc : ConnectedTo s h) : ConnectedTo (peers.foldl connect s) h := by
  induction peers generalizing s with
  | nil => exact hc
  | cons h' peers ih => exact ih _ (connect_keeps hc)

theorem fold_connects (peers : List Str) (s : State) (h : Str) (hm : h ∈ peers) : ConnectedTo (peers.foldl connect s) h := by
  induction peers generalizing s with
  | nil => cases hm
  | cons h' peers ih =>
    rcases List.mem_cons.1 hm with rfl | hm
    · exact fold_keeps peers _ h (connect_self s h)
    · exact ih _ hm

/-- A connection to the host can be made. In bypass mode gRPC does not wait for the host: its name has to be valid. Else its key has to be known, and it has to be up. -/
def Usable (cnf : Configs) (net : Net) (host : Str) : Prop :=
  net.valid host = true ∧ (cnf.isGrpc = false → cnf.hasCoordinator = true ∧ net.known host = true ∧ net.up host = true)

theorem usable_iff (cnf : Configs) (net : Net) (host : Str) : Usable cnf net host ↔ newConnection cnf net host = .ok () := by
  unfold Usable newConnection make Configs.isEmpty
  cases cnf.isGrpc <;> cases cnf.hasCoordinator <;> cases net.valid host <;> cases net.known host <;> cases net.up host <;> simp

/-- C97. If a connection to every peer can be made, Dial returns nil, whatever the server did before, and the server has an open connection to every
peer, under the peer's name. In a created system these are all servers. -/
theorem C97_connects (cnf : Configs) (net : Net) (addresses : List Str) (hok : ∀ h ∈ addresses, Usable cnf net h) (s : State) :
    (∃ r, Dial cnf net s (peersOf addresses) r) ∧
    ∀ r, Dial cnf net s (peersOf addresses) r → r.2 = .ok () ∧ ∀ h ∈ addresses, ConnectedTo r.1 h := by
  replace hok := fun h hh => (usable_iff cnf net h).1 (hok h hh)
  refine ⟨⟨_, dial_ok_exists cnf net addresses hok s⟩, fun r hr => ?_⟩
  rw [dial_ok cnf net addresses hok s r hr]
  exact ⟨rfl, fun h hh => fold_connects addresses s h hh⟩

theorem fold_tidy (peers : List Str) (s : State) (ht : Tidy s) (hnd : peers.Nodup) (hnew : ∀ h ∈ peers, GoMap.lookup s.connections h = none) : Tidy (peers.foldl connect s) := by
  induction peers generalizing s with
  | nil => exact ht
  | cons h peers ih =>
    obtain ⟨h1, h2⟩ := List.nodup_cons.1 hnd
    refine ih _ (connect_tidy ht (hnew h List.mem_cons_self)) h2 ?_
    intro h' hh'
    have hne : h' ≠ h := by rintro rfl; exact h1 hh'
    simp only [connect]
    rw [GoMap.lookup_insert_ne _ _ hne]
    exact hnew h' (List.mem_cons_of_mem _ hh')

/-- Close when all connections in the table are open and different. -/
theorem closeAll_ok (cnf : Configs) (order : List (Str × Nat)) (s : State) (hnd : (order.map Prod.snd).Nodup)
    (hop : ∀ e ∈ order, ∃ c, s.made[e.2]? = some c ∧ (cnf.isGrpc = true → c.isOpen = true)) :
    ∃ s', closeAll cnf s order = (s', .ok ()) ∧ s'.connections = s.connections ∧ s'.made.length = s.made.length ∧
      (∀ e ∈ order, ∃ c, s'.made[e.2]? = some c ∧ c.isOpen = false) ∧ ∀ i : Nat, i ∉ order.map Prod.snd → s'.made[i]? = s.made[i]? := by
  induction order generalizing s with
  | nil => exact ⟨s, rfl, rfl, rfl, by simp, fun i _ => rfl⟩
  | cons e es ih =>
    obtain ⟨c, hc, ho⟩ := hop e List.mem_cons_self
    have hi := (List.getElem?_eq_some_iff.1 hc).1
    have hnd' : e.2 ∉ es.map Prod.snd ∧ (es.map Prod.snd).Nodup := by simpa using hnd
    have h1 : closeConn cnf s e.2 = ({ s with made := s.made.set e.2 { c with isOpen := false } }, .ok ()) := by
      simp only [closeConn, hc]
      cases hg : cnf.isGrpc
      · simp
      · simp [ho hg]
    obtain ⟨s', h2, h3, h4, h5, h6⟩ := ih { s with made := s.made.set e.2 { c with isOpen := false } } hnd'.2 (by
      intro e' he'
      have hne : e.2 ≠ e'.2 := fun h => hnd'.1 (List.mem_map.2 ⟨e', he', h.symm⟩)
      simp only [List.getElem?_set_ne hne]
      exact hop e' (List.mem_cons_of_mem _ he'))
    refine ⟨s', by rw [closeAll, h1]; exact h2, h3, by simpa using h4, ?_, ?_⟩
    · intro e' he'
      rcases List.mem_cons.1 he' with rfl | he'
      · rw [h6 e'.2 hnd'.1]
        exact ⟨{ c with isOpen := false }, by simp [hi], rfl⟩
      · exact h5 e' he'
    · intro i hni
      simp only [List.map_cons, List.mem_cons, not_or] at hni
      rw [h6 i hni.2]
      simp only [List.getElem?_set_ne (Ne.symm hni.1)]

theorem tidy_inj {s : State} (ht : Tidy s) : (s.connections.map Prod.snd).Nodup := by
  have : ∀ e ∈ s.connections, ∀ e' ∈ s.connections, e.2 = e'.2 → e.1 = e'.1 := by
    intro e he e' he' h
    obtain ⟨c, hc, hch⟩ := ht.look e.1 e.2 (GoMap.mem_lookup ht.nodup he)
    obtain ⟨c', hc', hch'⟩ := ht.look e'.1 e'.2 (GoMap.mem_lookup ht.nodup he')
    rw [h, hc'] at hc
    injection hc with hc
    rw [← hch, ← hch', hc]
  have hn : (s.connections.map Prod.fst).Nodup := ht.nodup
  have hp : List.Pairwise (fun a b : Str × Nat => a.1 ≠ b.1) s.connections := List.pairwise_map.1 hn
  refine List.pairwise_map.2 (hp.imp_of_mem ?_)
  intro a b ha hb hab h
  exact hab (this a ha b hb h)

theorem close_tidy (cnf : Configs) (s : State) (ht : Tidy s) (hop : ∀ c ∈ s.made, c.isOpen = true) (r : State × Go Unit) (hr : Close cnf s r) :
    r.2 = .ok () ∧ AllClosed r.1 ∧ r.1.connections = s.connections := by
  obtain ⟨order, hp, rfl⟩ := hr
  have hnd : (order.map Prod.snd).Nodup := (hp.map Prod.snd).nodup_iff.2 (tidy_inj ht)
  obtain ⟨s', h1, h2, h3, h4, -⟩ := closeAll_ok cnf order s hnd (by
    intro e he
    obtain ⟨c, hc, -⟩ := ht.look e.1 e.2 (GoMap.mem_lookup ht.nodup (hp.subset he))
    exact ⟨c, hc, fun _ => hop c (List.mem_of_getElem? hc)⟩)
  rw [h1]
  refine ⟨rfl, ?_, h2⟩
  intro c hc
  obtain ⟨i, hi⟩ := List.mem_iff_getElem?.1 hc
  have hlt : i < s.made.length := by rw [← h3]; exact (List.getElem?_eq_some_iff.1 hi).1
  have hm := ht.all i s.made[i] (by simp [hlt])
  obtain ⟨c', hc', ho⟩ := h4 _ (hp.symm.subset (GoMap.lookup_mem hm))
  simp only [hi, Option.some.injEq] at hc'
  rw [hc']; exact ho

theorem fold_open (peers : List Str) (s : State) (h : ∀ c ∈ s.made, c.isOpen = true) : ∀ c ∈ (peers.foldl connect s).made, c.isOpen = true := by
  induction peers generalizing s with
  | nil => exact h
  | cons p peers ih =>
    refine ih _ ?_
    intro c hc
    simp only [connect, List.mem_append, List.mem_singleton] at hc
    rcases hc with hc | rfl
    · exact h c hc
    · rfl

/-- C97, the part that holds for Close: after the first Dial of a server, which has distinct peers and could connect to all of them, Close returns nil and
no connection is left open. -/
theorem C97_close_partial (cnf : Configs) (net : Net) (peers : List Str) (hnd : peers.Nodup) (hok : ∀ h ∈ peers, Usable cnf net h)
    (d c : State × Go Unit) (hd : Dial cnf net init peers d) (hc : Close cnf d.1 c) : c.2 = .ok () ∧ AllClosed c.1 := by
  replace hok := fun h hh => (usable_iff cnf net h).1 (hok h hh)
  rw [dial_ok cnf net peers hok init d hd] at hc
  have := close_tidy cnf _ (fold_tidy peers init tidy_init hnd (fun h _ => rfl)) (fold_open peers init (by simp [init])) c hc
  exact ⟨this.1, this.2.1⟩

/-- The first peer that cannot be connected. -/
theorem dial_fail (cnf : Configs) (net : Net) (pre : List Str) (bad : Str) (post : List Str) (hok : ∀ h ∈ pre, newConnection cnf net h = .ok ()) (s : State) (r : State × Go Unit)
    (hd : Dial cnf net s (pre ++ bad :: post) r) : Dial cnf net (pre.foldl connect s) (bad :: post) r := by
  induction pre generalizing s with
  | nil => exact hd
  | cons h pre ih =>
    have h1 := hok h List.mem_cons_self
    rw [List.cons_append] at hd
    cases hd with
    | connected => rename_i hc hr; exact ih (fun h' hh => hok h' (List.mem_cons_of_mem _ hh)) _ hr
    | panic => rename_i hc; rw [h1] at hc; cases hc
    | failed => rename_i hc; rw [h1] at hc; cases hc
    | failedTwice => rename_i hc; rw [h1] at hc; cases hc

/-- C97, the part that holds for failures: in the first Dial of a server with distinct peers, if the connection to some peer fails with an error (and not a panic),
Dial returns that error and no connection is left open. But the closed connections stay in the server's table. -/
theorem C97_fails_partial (cnf : Configs) (net : Net) (pre post : List Str) (bad : Str) (hnd : (pre ++ bad :: post).Nodup)
    (hg : cnf.isGrpc = true) (hok : ∀ h ∈ pre, Usable cnf net h) (hinv : net.valid bad = false) (r : State × Go Unit)
    (hd : Dial cnf net init (pre ++ bad :: post) r) :
    r.2 = .error (.err .unknown "dial") ∧ AllClosed r.1 ∧ ∀ h, h ∈ pre ↔ ∃ i, GoMap.lookup r.1.connections h = some i := by
  have hbad : newConnection cnf net bad = .error (.err .unknown "dial") := by simp [newConnection, make, Configs.isEmpty, hg, hinv]
  replace hok := fun h hh => (usable_iff cnf net h).1 (hok h hh)
  have hnd' := (List.nodup_append.1 hnd).1
  have ht := fold_tidy pre init tidy_init hnd' (fun h _ => rfl)
  have ho := fold_open pre init (by simp [init])
  have hdom : ∀ (l : List Str) (s : State) (h : Str), (∃ i, GoMap.lookup (l.foldl connect s).connections h = some i) ↔ h ∈ l ∨ ∃ i, GoMap.lookup s.connections h = some i := by
    intro l
    induction l with
    | nil => intro s h; simp
    | cons p l ih =>
      intro s h
      rw [List.foldl_cons, ih]
      simp only [connect, GoMap.lookup_insert, List.mem_cons]
      by_cases hp : h = p
      · simp [hp]
      · simp [hp]
  have hd' := dial_fail cnf net pre bad post hok init r hd
  have hconn : ∀ h, h ∈ pre ↔ ∃ i, GoMap.lookup (pre.foldl connect init).connections h = some i := by
    intro h; rw [hdom]; simp [init, GoMap.lookup]
  cases hd' with
  | connected => rename_i hc hr; rw [hbad] at hc; cases hc
  | panic => rename_i hc; rw [hbad] at hc; cases hc
  | failed => 
    rename_i hcl hc
    have h2 := close_tidy cnf _ ht ho _ hcl
    rw [hbad] at hc
    injection hc with hc; injection hc with h3 h4
    refine ⟨by simp only [h3, h4], h2.2.1, fun h => ?_⟩
    have h5 := h2.2.2
    simp only at h5 ⊢
    rw [h5]; exact hconn h
  | failedTwice =>
    rename_i hcl hc
    have h2 := close_tidy cnf _ ht ho _ hcl
    cases h2.1

/-- C97 fails without the bypass: if a peer is not up yet when a server dials, or is not known to the coordinator, Dial panics, and ends the process. -/
theorem C97_peer_down_refuted (cnf : Configs) (net : Net) (pre post : List Str) (bad : Str) (hg : cnf.isGrpc = false) (hc : cnf.hasCoordinator = true)
    (hok : ∀ h ∈ pre, Usable cnf net h) (hbad : net.up bad = false ∨ net.known bad = false) (s : State) (r : State × Go Unit)
    (hd : Dial cnf net s (pre ++ bad :: post) r) : r.2 = .error .panic := by
  replace hok := fun h hh => (usable_iff cnf net h).1 (hok h hh)
  have hb : newConnection cnf net bad = .error .panic := by
    have : make cnf = .ok .rrpc := by simp [make, Configs.isEmpty, hg, hc]
    rcases hbad with h | h <;> simp [newConnection, this, h]
  have hd' := dial_fail cnf net pre bad post hok s r hd
  cases hd' with
  | connected => rename_i hc hr; rw [hb] at hc; cases hc
  | panic => rfl
  | failed => rename_i hc; rw [hb] at hc; cases hc
  | failedTwice => rename_i hc; rw [hb] at hc; cases hc

/-- Bypass mode. -/
def bypass : Configs := { isGrpc := true, hasCoordinator := false }

/-- A network in which exactly the names in `l` can be dialled. -/
def reach (l : List Str) : Net := { valid := fun h => decide (h ∈ l), known := fun _ => true, up := fun _ => true }

/-- C97 fails when a failed Dial is repeated: peers `a`, `b`, `c`; the first Dial fails at `c`, the second at `b`. It may leave its new connection to `a` open,
because closing stops at the old connection to `b`, which is closed already. -/
theorem C97_retry_refuted (a b c : Str) (hab : a ≠ b) (hac : a ≠ c) (hbc : b ≠ c) :
    ∃ s1 s2 e1 e2, Dial bypass (reach [a, b]) init [a, b, c] (s1, .error e1) ∧ Dial bypass (reach [a]) s1 [a, b, c] (s2, .error e2) ∧ ConnectedTo s2 a := by
  have hv : ∀ l h, newConnection bypass (reach l) h = if h ∈ l then .ok () else .error (.err .unknown "dial") := by
    intro l h
    simp [newConnection, make, Configs.isEmpty, bypass, reach]
  let s1 : State := { made := [⟨a, false⟩, ⟨b, false⟩], connections := [(b, 1), (a, 0)] }
  let s2 : State := { made := [⟨a, false⟩, ⟨b, false⟩, ⟨a, true⟩], connections := [(a, 2), (b, 1)] }
  refine ⟨s1, s2, .err .unknown "dial", .err .canceled "grpc: the client connection is closing", ?_, ?_, 2, ?_, rfl⟩
  · refine .connected _ _ _ _ (by simp [hv]) (.connected _ _ _ _ (by simp [hv]) (.failed _ _ _ _ _ _ (by simp [hv, hac.symm, hbc.symm]) ?_))
    refine ⟨[(b, 1), (a, 0)], ?_, ?_⟩
    · simp [init, GoMap.insert, GoMap.erase, hab]
    · simp [closeAll, closeConn, init, bypass, s1, GoMap.insert, GoMap.erase, hab]
  · refine .connected _ _ _ _ (by simp [hv]) (.failedTwice _ _ _ _ .unknown .canceled "dial" _ (by simp [hv, hab.symm]) ?_)
    refine ⟨[(b, 1), (a, 2)], ?_, ?_⟩
    · simp only [s1, GoMap.insert, GoMap.erase, hab.symm, if_false, if_true, List.length_cons, List.length_nil]
      exact List.Perm.swap _ _ _
    · simp [closeAll, closeConn, bypass, s1, s2, GoMap.insert, GoMap.erase, hab.symm]
  · simp [s2, GoMap.lookup]

/-- C97 fails when a server dials twice: Close closes the connections of the second Dial only. -/
theorem C97_twice_refuted (a : Str) : ∃ s1 s2 s3, Dial bypass (reach [a]) init [a] (s1, .ok ()) ∧ Dial bypass (reach [a]) s1 [a] (s2, .ok ()) ∧ Close bypass s2 (s3, .ok ()) ∧
    ¬ AllClosed s3 := by
  have hv : newConnection bypass (reach [a]) a = .ok () := by simp [newConnection, make, Configs.isEmpty, bypass, reach]
  refine ⟨{ made := [⟨a, true⟩], connections := [(a, 0)] }, { made := [⟨a, true⟩, ⟨a, true⟩], connections := [(a, 1)] },
    { made := [⟨a, true⟩, ⟨a, false⟩], connections := [(a, 1)] }, ?_, ?_, ?_, ?_⟩
  · exact .connected _ _ _ _ hv (.done _)
  · have := Dial.connected (cnf := bypass) (net := reach [a]) { made := [⟨a, true⟩], connections := [(a, 0)] } a [] _ hv (.done _)
    simpa [GoMap.insert, GoMap.erase] using this
  · exact ⟨[(a, 1)], List.Perm.refl _, by simp [closeAll, closeConn, bypass]⟩
  · intro h
    have := h ⟨a, true⟩ (by simp)
    cases this

/-- Three peers that can all be dialled, in bypass mode. -/
example (a b c : Str) : ∀ h ∈ [a, b, c], Usable bypass (reach [a, b, c]) h := by
  intro h hh
  rw [usable_iff]
  simp only [newConnection, make, Configs.isEmpty, bypass, reach]
  simp only [List.mem_cons, List.not_mem_nil, or_false] at hh
  rcases hh with rfl | rfl | rfl <;> simp

end Resmix.Dial
