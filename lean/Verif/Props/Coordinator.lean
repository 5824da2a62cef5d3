import Verif.Model.Coordinator
import Verif.Props.Network
import Verif.Proofs.GoMap
set_option autoImplicit false
/-
C80 and the sequential part of C78: Dial, AsyncSend, Close.
-/
namespace Resmix.Rrpc.Coordinator

/-- All goes well with this server, and its connections can be closed. -/
def Fine (x : Str × RelayDial × ServerDial) : Prop := ∃ a, x = (a, .ok ⟨none⟩, .ok ⟨none⟩)

/-- The relay connection or the dial to this server fails; closing what was opened works. -/
def Fails (x : Str × RelayDial × ServerDial) : Prop := ∃ a e, (∃ d, x = (a, .fails e, d)) ∨ x = (a, .ok ⟨none⟩, .dialFails e)

/-- Only connections that can be closed. -/
def Clean (s : State) : Prop := s.closed = false ∧ (∀ e ∈ s.relayConns, e.2 = ⟨none⟩) ∧ ∀ e ∈ s.serverConns, e.2 = some ⟨none⟩

theorem closeAll_clean (l : List (Option Conn)) (h : ∀ c ∈ l, c = some ⟨none⟩) : closeAll l none = .ok none := by
  induction l with
  | nil => rfl
  | cons c l ih =>
    rw [h c (by simp)]
    exact ih fun c hc => h c (by simp [hc])

theorem Close_clean (s : State) (h : Clean s) (res : Go (Option Str)) (s' : State) (hc : Close s res s') : res = .ok none ∧ s'.closed = true := by
  obtain ⟨h1, h2, h3⟩ := h
  unfold Close at hc
  rw [h1] at hc
  simp only [Bool.false_eq_true, if_false] at hc
  obtain ⟨rs, ss, p1, p2, rfl, rfl⟩ := hc
  refine ⟨closeAll_clean _ ?_, rfl⟩
  intro c hc
  rcases List.mem_append.1 hc with hc | hc
  · obtain ⟨e, he, rfl⟩ := List.mem_map.1 (p1.mem_iff.1 hc)
    rw [h2 e he]
  · obtain ⟨e, he, rfl⟩ := List.mem_map.1 (p2.mem_iff.1 hc)
    rw [h3 e he]

theorem Close_exists (s : State) : ∃ res s', Close s res s' := by
  unfold Close
  cases s.closed with
  | true => exact ⟨_, _, rfl, rfl⟩
  | false => exact ⟨_, _, _, _, .refl _, .refl _, rfl, rfl⟩

theorem Dial_exists (l : List (Str × RelayDial × ServerDial)) (s : State) : ∃ res s', Dial l s res s' := by
  induction l generalizing s with
  | nil => exact ⟨_, _, rfl, rfl⟩
  | cons x l ih =>
    obtain ⟨a, r, d⟩ := x
    cases r with
    | fails e => exact Close_exists _
    | ok c =>
      simp only [Dial]
      split
      · exact Close_exists _
      · exact ih _

theorem mem_insert {ν : Type} (m : GoMap Str ν) (k : Str) (v : ν) (e : Str × ν) (h : e ∈ m.insert k v) : e = (k, v) ∨ e ∈ m := by
  rcases List.mem_cons.1 h with h | h
  · exact .inl h
  · exact .inr ((GoMap.erase_sublist m k).subset h)

theorem Clean_insert (s : State) (h : Clean s) (a : Str) : Clean { s with relayConns := s.relayConns.insert a ⟨none⟩ } := by
  obtain ⟨h1, h2, h3⟩ := h
  refine ⟨h1, ?_, h3⟩
  intro e he
  rcases mem_insert _ _ _ _ he with rfl | he
  · rfl
  · exact h2 e he

theorem Clean_insert2 (s : State) (h : Clean s) (a : Str) :
    Clean { s with relayConns := s.relayConns.insert a ⟨none⟩, serverConns := s.serverConns.insert a (some ⟨none⟩) } := by
  obtain ⟨h1, h2, h3⟩ := h
  refine ⟨h1, ?_, ?_⟩
  · intro e he
    rcases mem_insert _ _ _ _ he with rfl | he
    · rfl
    · exact h2 e he
  · intro e he
    rcases mem_insert _ _ _ _ he with rfl | he
    · rfl
    · exact h3 e he

theorem Clean_init : Clean init := ⟨rfl, by simp [init], by simp [init]⟩

theorem Dial_fails (pre post : List (Str × RelayDial × ServerDial)) (x : Str × RelayDial × ServerDial) (hpre : ∀ y ∈ pre, Fine y) (hx : Fails x) (s : State) (hs : Clean s)
    (res : Go (Option Str)) (s' : State) (h : Dial (pre ++ x :: post) s res s') : res = .ok none ∧ s'.closed = true := by
  induction pre generalizing s with
  | nil =>
    obtain ⟨a, e, ⟨d, rfl⟩ | rfl⟩ := hx
    · exact Close_clean s hs res s' h
    · exact Close_clean _ (Clean_insert s hs a) res s' h
  | cons y pre ih =>
    obtain ⟨a, rfl⟩ := hpre y (by simp)
    exact ih (fun y hy => hpre y (by simp [hy])) _ (Clean_insert2 s hs a) h

/-- C80 fails, a failure is not reported: if the relay connection to some server or the dial to it fails (and closing the connections opened before works), `Dial`
returns nil, although the coordinator is closed. -/
theorem C80_unreported_refuted (pre post : List (Str × RelayDial × ServerDial)) (x : Str × RelayDial × ServerDial) (hpre : ∀ y ∈ pre, Fine y) (hx : Fails x) :
    (∃ res s', Dial (pre ++ x :: post) init res s') ∧
    ∀ res s', Dial (pre ++ x :: post) init res s' → res = .ok none ∧ s'.closed = true :=
  ⟨Dial_exists _ _, fun res s' h => Dial_fails pre post x hpre hx init Clean_init res s' h⟩

/-- C78 fails after such a failed `Dial` that returned nil: the user's own `Close` of the coordinator panics. -/
theorem C78_after_failed_dial_refuted (pre post : List (Str × RelayDial × ServerDial)) (x : Str × RelayDial × ServerDial) (hpre : ∀ y ∈ pre, Fine y) (hx : Fails x)
    (res : Go (Option Str)) (s' : State) (h : Dial (pre ++ x :: post) init res s') (res' : Go (Option Str)) (s'' : State) (h' : Close s' res' s'') : res' = .error .panic := by
  have := (Dial_fails pre post x hpre hx init Clean_init res s' h).2
  unfold Close at h'
  rw [this] at h'
  exact h'.1

theorem Dial_append (pre post : List (Str × RelayDial × ServerDial)) (hpre : ∀ y ∈ pre, Fine y) (s : State) (res : Go (Option Str)) (s' : State) :
    Dial (pre ++ post) s res s' ↔ Dial post { s with relayConns := pre.foldl (fun m y => m.insert y.1 ⟨none⟩) s.relayConns
                                                     serverConns := pre.foldl (fun m y => m.insert y.1 (some ⟨none⟩)) s.serverConns } res s' := by
  induction pre generalizing s with
  | nil => rfl
  | cons y pre ih =>
    obtain ⟨a, rfl⟩ := hpre y (by simp)
    exact ih (fun y hy => hpre y (by simp [hy])) _

theorem lookup_foldl (l : List (Str × RelayDial × ServerDial)) (m : GoMap Str (Option Conn)) (a : Str) (c : Option Conn) :
    (l.foldl (fun m y => m.insert y.1 c) m).lookup a = if a ∈ l.map Prod.fst then some c else m.lookup a := by
  induction l generalizing m with
  | nil => simp
  | cons y l ih =>
    rw [List.foldl_cons, ih, GoMap.lookup_insert]
    by_cases h1 : a ∈ l.map Prod.fst
    · simp [h1]
    · by_cases h2 : y.1 = a
      · subst h2; simp
      · have h2' : ¬ a = y.1 := fun h => h2 h.symm
        simp only [h1, if_false, h2, h2', List.map_cons, List.mem_cons, false_or]

theorem closeAll_nil (l : List (Option Conn)) (h : none ∈ l) (e : Option Str) : closeAll l e = .error .panic := by
  induction l generalizing e with
  | nil => cases h
  | cons c l ih =>
    cases c with
    | none => rfl
    | some c => exact ih (by simpa using h) _

/-- C80 fails, a server that cannot be sent to: if the stream to a server cannot be opened, `Dial` goes on and returns nil; afterwards a message to this server is a
nil pointer dereference. C78 fails too: `Close` is one. -/
theorem C80_nil_connection_refuted (net : Network) (pre post : List (Str × RelayDial × ServerDial)) (a : Str) (ha : a ≠ []) (key : Bytes) (hkey : net.getHostname key = a)
    (hpre : ∀ y ∈ pre, Fine y) (hpost : ∀ y ∈ post, Fine y) (hnew : a ∉ post.map Prod.fst) :
    ∃ s', Dial (pre ++ (a, .ok ⟨none⟩, .streamFails none) :: post) init (.ok none) s' ∧ s'.closed = false ∧ asyncSend net s' key = .error .panic ∧
      ∀ res s'', Close s' res s'' → res = .error .panic := by
  obtain ⟨rc, hrc⟩ : ∃ rc : GoMap Str Conn, rc = pre.foldl (fun m y => m.insert y.1 ⟨none⟩) init.relayConns := ⟨_, rfl⟩
  obtain ⟨sc, hsc⟩ : ∃ sc : GoMap Str (Option Conn), sc = pre.foldl (fun m y => m.insert y.1 (some ⟨none⟩)) init.serverConns := ⟨_, rfl⟩
  refine ⟨{ relayConns := post.foldl (fun m y => m.insert y.1 ⟨none⟩) (rc.insert a ⟨none⟩)
            serverConns := post.foldl (fun m y => m.insert y.1 (some ⟨none⟩)) (sc.insert a none), closed := false }, ?_, rfl, ?_, ?_⟩
  · rw [Dial_append pre _ hpre]
    rw [← hrc, ← hsc]
    have h := (Dial_append post [] hpost { relayConns := rc.insert a ⟨none⟩, serverConns := sc.insert a none, closed := false } (.ok none) _).2 ⟨rfl, rfl⟩
    rw [List.append_nil] at h
    exact h
  · unfold asyncSend
    simp only [hkey, ha, if_false, lookup_foldl, hnew, GoMap.lookup_insert, if_true]
  · intro res s'' h
    unfold Close at h
    simp only [Bool.false_eq_true, if_false] at h
    obtain ⟨rs, ss, p1, p2, rfl, rfl⟩ := h
    refine closeAll_nil _ (List.mem_append_right _ (p2.mem_iff.2 (List.mem_map.2 ⟨(a, none), ?_, rfl⟩))) _
    exact GoMap.lookup_mem (by rw [lookup_foldl, if_neg hnew, GoMap.lookup_insert, if_pos rfl])

/-- C80, the part that holds: if every connection can be set up, `Dial` returns nil, a message to any registered server is put on the connection to its address, and
a message to an unknown key is refused. -/
theorem C80_all_up_partial (tau : Int) (confs : List ServerData)
    (haddr : ∀ s ∈ confs, ∀ s' ∈ confs, ∀ a k k', Registers s a k → Registers s' a k' → s = s')
    (hkeys : ∀ s ∈ confs, ∀ s' ∈ confs, ∀ a a' k, Registers s a k → Registers s' a' k → s = s') (hnd : confs.Nodup)
    (res : Go (Option Str)) (s' : State) (h : Dial ((Network.new tau confs).serverAddresses.map fun a => (a, .ok ⟨none⟩, .ok ⟨none⟩)) init res s') :
    res = .ok none ∧ s'.closed = false ∧ (∀ s ∈ confs, ∀ a k, Registers s a k → asyncSend (Network.new tau confs) s' k = .ok a) ∧
    (∀ k, (¬∃ s ∈ confs, ∃ a, Registers s a k) → asyncSend (Network.new tau confs) s' k = .error (.err .notFound "public key not found")) ∧
    ∀ r s'', Close s' r s'' → r = .ok none := by
  obtain ⟨l, hl⟩ : ∃ l : List (Str × RelayDial × ServerDial), l = (Network.new tau confs).serverAddresses.map fun a => (a, .ok ⟨none⟩, .ok ⟨none⟩) := ⟨_, rfl⟩
  have hfine : ∀ y ∈ l, Fine y := by
    subst hl
    intro y hy
    obtain ⟨a, -, rfl⟩ := List.mem_map.1 hy
    exact ⟨a, rfl⟩
  rw [← hl] at h
  have h2 := h
  rw [← List.append_nil l] at h
  rw [Dial_append l [] hfine] at h
  obtain ⟨rfl, rfl⟩ := h
  refine ⟨rfl, rfl, ?_, ?_, ?_⟩
  · intro s hs a k hr
    have hk := ((C52_lookups tau confs haddr hkeys hnd a k).2.1.2 ⟨s, hs, hr⟩).2
    unfold asyncSend
    have hmem : a ∈ l.map Prod.fst := by
      subst hl
      simp only [List.map_map, List.mem_map, Function.comp_apply, exists_eq_right]
      exact ((C52_server_list tau confs).2 a).2 ⟨s, hs, k, hr⟩
    simp only [hk, hr.2.1, if_false, lookup_foldl, hmem, if_true]
  · intro k hk
    have := ((C52_lookups tau confs haddr hkeys hnd [] k).2.2.2 hk).2
    unfold asyncSend
    rw [if_pos this]
  · intro r s'' hc
    refine (Close_clean _ ?_ r s'' hc).1
    have key : ∀ (l : List (Str × RelayDial × ServerDial)) (s : State), Clean s →
        Clean { s with relayConns := l.foldl (fun m y => m.insert y.1 ⟨none⟩) s.relayConns
                       serverConns := l.foldl (fun m y => m.insert y.1 (some ⟨none⟩)) s.serverConns } := by
      intro l
      induction l with
      | nil => intro s h; exact h
      | cons y l ih => intro s h; exact ih _ (Clean_insert2 s h y.1)
    exact key l init Clean_init

/-- A dial that fails at the second of three servers. -/
example (a b c : Str) (e : Str) : (∀ y ∈ [(a, RelayDial.ok ⟨none⟩, ServerDial.ok ⟨none⟩)], Fine y) ∧ Fails (b, .ok ⟨none⟩, .dialFails e) ∧
    Dial ([(a, .ok ⟨none⟩, .ok ⟨none⟩)] ++ (b, .ok ⟨none⟩, .dialFails e) :: [(c, .ok ⟨none⟩, .ok ⟨none⟩)]) init (.ok none)
      { relayConns := GoMap.insert [(a, ⟨none⟩)] b ⟨none⟩, serverConns := [(a, some ⟨none⟩)], closed := true } := by
  refine ⟨by simp [Fine], ⟨b, e, .inr rfl⟩, _, _, .refl _, .refl _, ?_, rfl⟩
  by_cases h : a = b <;> simp [GoMap.insert, GoMap.erase, closeAll, h, init]

theorem closeAll_last (l : List Conn) (err : Option Str) : closeAll (l.map some) err = .ok ((l.getLast?.map (·.closeErr)).getD err) := by
  induction l generalizing err with
  | nil => rfl
  | cons c l ih =>
    simp only [List.map_cons, closeAll, ih]
    cases l with
    | nil => rfl
    | cons d l =>
      rw [List.getLast?_cons_cons]
      obtain ⟨x, hx⟩ : ∃ x, (d :: l).getLast? = some x := ⟨_, List.getLast?_eq_some_getLast (by simp)⟩
      rw [hx]; rfl

/-- C93 fails: the relay connection to a server cannot be closed properly, its server connection can: Close returns nil. -/
theorem C93_overwritten_refuted (a e : Str) : ∃ s, Dial [(a, .ok ⟨some e⟩, .ok ⟨none⟩)] init (.ok none) s ∧
    (∃ res s', Close s res s') ∧ ∀ res s', Close s res s' → res = .ok none := by
  refine ⟨{ relayConns := [(a, ⟨some e⟩)], serverConns := [(a, some ⟨none⟩)], closed := false }, ⟨rfl, rfl⟩, Close_exists _, ?_⟩
  intro res s' h
  simp only [Close, Bool.false_eq_true, if_false] at h
  obtain ⟨rs, ss, p1, p2, rfl, rfl⟩ := h
  have h1 := List.perm_singleton.1 p1
  have h2 := List.perm_singleton.1 p2
  subst h1 h2
  rfl

/-- C93, the part that holds (all connections are set up): an error Close returns is one of a connection; it returns nil if all connections are closed
properly, and an error if the closing of every server connection fails. -/
theorem C93_own_error_partial (s : State) (hopen : s.closed = false) (hset : ∀ e ∈ s.serverConns, e.2 ≠ none) (res : Go (Option Str)) (s' : State)
    (h : Close s res s') : ∃ r, res = .ok r ∧
      (∀ err, r = some err → (∃ e ∈ s.relayConns, e.2.closeErr = some err) ∨ ∃ e ∈ s.serverConns, ∃ c, e.2 = some c ∧ c.closeErr = some err) ∧
      (s.serverConns ≠ [] → (∀ e ∈ s.serverConns, ∀ c, e.2 = some c → c.closeErr ≠ none) → r ≠ none) := by
  simp only [Close, hopen, Bool.false_eq_true, if_false] at h
  obtain ⟨rs, ss, p1, p2, rfl, rfl⟩ := h
  have hl : ∀ l : List (Option Conn), none ∉ l → ∃ l' : List Conn, l = l'.map some := by
    intro l
    induction l with
    | nil => intro _; exact ⟨[], rfl⟩
    | cons x l ih =>
      intro hx
      obtain ⟨l', rfl⟩ := ih fun h => hx (List.mem_cons_of_mem _ h)
      cases x with
      | none => exact absurd List.mem_cons_self hx
      | some c => exact ⟨c :: l', rfl⟩
  obtain ⟨rs', hrs⟩ := hl rs fun h => by
    obtain ⟨e, _, he⟩ := List.mem_map.1 (p1.mem_iff.1 h); cases he
  obtain ⟨ss', hss⟩ := hl ss fun h => by
    obtain ⟨e, he, he'⟩ := List.mem_map.1 (p2.mem_iff.1 h); exact hset e he he'
  subst hrs hss
  rw [← List.map_append]
  refine ⟨_, closeAll_last _ _, ?_, ?_⟩
  · intro err herr
    cases hlast : (rs' ++ ss').getLast? with
    | none => rw [hlast] at herr; cases herr
    | some c =>
      rw [hlast] at herr
      have hc := List.mem_of_getLast? hlast
      rcases List.mem_append.1 hc with hc | hc
      · obtain ⟨e, he, he'⟩ := List.mem_map.1 (p1.mem_iff.1 (List.mem_map_of_mem hc))
        injection he' with he'
        exact Or.inl ⟨e, he, by rw [he']; exact herr⟩
      · obtain ⟨e, he, he'⟩ := List.mem_map.1 (p2.mem_iff.1 (List.mem_map_of_mem hc))
        exact Or.inr ⟨e, he, c, he', herr⟩
  · intro hne hall
    have hne' : ss' ≠ [] := by
      intro hx
      subst hx
      have := p2.length_eq
      simp at this
      exact hne (List.length_eq_zero_iff.1 this.symm)
    rw [List.getLast?_append]
    rw [List.getLast?_eq_some_getLast hne']
    have hmem := List.getLast_mem hne'
    obtain ⟨e, he, he'⟩ := List.mem_map.1 (p2.mem_iff.1 (List.mem_map_of_mem (f := some) hmem))
    have := hall e he _ he'
    simpa using this

/-- Non-vacuity of C93_own_error: two servers whose connections cannot be closed properly; the error of the last one is returned. -/
example (a b e f : Str) (hab : a ≠ b) : ∃ s : State, s.closed = false ∧ (∀ x ∈ s.serverConns, x.2 ≠ none) ∧ s.serverConns.length = 2 ∧
    (∀ x ∈ s.serverConns, ∀ c, x.2 = some c → c.closeErr ≠ none) ∧ Close s (.ok (some f)) { s with closed := true } := by
  refine ⟨⟨[(a, ⟨none⟩), (b, ⟨none⟩)], [(a, some ⟨some e⟩), (b, some ⟨some f⟩)], false⟩, rfl, by simp, rfl, by simp, ?_⟩
  exact ⟨_, _, .refl _, .refl _, by simp [closeAll], rfl⟩

end Resmix.Rrpc.Coordinator
