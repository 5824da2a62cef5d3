import Verif.Model.Peer
import Verif.Props.Network
import Verif.Props.Stop
set_option autoImplicit false
/-
C104: the streams of a server and the peers they belong to (rrpc/peer.go, rrpc/rrpc_server_stream.go:42-63).
Imports Props.Stop only so that automatically generated lemmas about Streams.step are not made twice.
-/
namespace Resmix.Rrpc.Peer
open Resmix.Rrpc
variable {α : Type}

theorem getPeer_add (addr : Str) : getPeerFromContext (addIPToContext none addr) = .ok addr := by
  simp [getPeerFromContext, addIPToContext, GoMap.lookup, GoMap.insert, GoMap.erase]

theorem lookup_iff_mem (confs : List ServerData) (n : Network) (h : ∀ a, (n.hostToPK.lookup a).isSome = true ↔ a ∈ n.serverAddresses) :
    ∀ a, ((confs.foldl Network.addServer n).hostToPK.lookup a).isSome = true ↔ a ∈ (confs.foldl Network.addServer n).serverAddresses := by
  induction confs generalizing n with
  | nil => exact h
  | cons s confs ih =>
    refine ih _ fun a => ?_
    unfold Network.addServer
    split
    · exact h a
    · split
      · exact h a
      · simp only [GoMap.lookup_insert, List.mem_append, List.mem_singleton]
        rw [← h a]
        split <;> simp_all

/-- GetPublicKey succeeds exactly for the addresses in the server list. -/
theorem known_iff (tau : Int) (confs : List ServerData) (a : Str) :
    (∃ k, (Network.new tau confs).getPublicKey a = .ok k) ↔ a ∈ (Network.new tau confs).serverAddresses := by
  have h := lookup_iff_mem confs { serverAddresses := [], pkToHost := [], hostToPK := [], tau := tau } (by simp [GoMap.lookup]) a
  simp only [Network.new, Network.getPublicKey, (Network.sortStrings_perm _).mem_iff]
  rw [← h]
  cases (List.foldl Network.addServer { serverAddresses := [], pkToHost := [], hostToPK := [], tau := tau } confs).hostToPK.lookup a <;> simp

/-- What decides how a stream is served: the first value of the header. -/
theorem callStreamIndex_ok (tau : Int) (confs : List ServerData) (a : Str) (md : Metadata) (hp : getPeerFromContext md = .ok a) :
    (a ∈ (Network.new tau confs).serverAddresses → callStreamIndex (Network.new tau confs) md = .ok ((Network.new tau confs).getRelayIndex a)) ∧
    (a ∉ (Network.new tau confs).serverAddresses → ∃ m, callStreamIndex (Network.new tau confs) md = .error (.err .unauthenticated m)) := by
  have h := known_iff tau confs a
  simp only [callStreamIndex, hp]
  constructor
  · intro ha
    obtain ⟨k, hk⟩ := h.2 ha
    rw [hk]
  · intro ha
    cases hk : (Network.new tau confs).getPublicKey a with
    | ok k => exact absurd (h.1 ⟨k, hk⟩) ha
    | error e => exact ⟨_, rfl⟩

/-- Every stream has an owner. -/
theorem owners_length (net : Network) (evs : List (Ev α)) (s s' : State α) (h : s.owners.length = s.back.senders.length) (hr : run net s evs = some s') :
    s'.owners.length = s'.back.senders.length := by
  induction evs generalizing s with
  | nil => cases hr; exact h
  | cons e evs ih =>
    rw [run] at hr
    cases hst : step net s e with
    | none => rw [hst] at hr; cases hr
    | some s1 =>
      rw [hst] at hr
      refine ih s1 ?_ hr
      cases e with
      | openStream who md =>
        simp only [step] at hst
        split at hst
        · obtain ⟨b, hb, rfl⟩ := Option.map_eq_some_iff.1 hst
          unfold Streams.step at hb
          grind
        · cases hst; exact h
        · cases hst; exact h
      | other e =>
        cases e with
        | connect r => cases hst
        | _ =>
          simp only [step] at hst
          obtain ⟨b, hb, rfl⟩ := Option.map_eq_some_iff.1 hst
          unfold Streams.step at hb
          grind

/-- C104 fails: the caller's name in the metadata is not checked. In any reachable state of a running server whose channel for the registered server `h` is open and empty,
any process `who` can open a stream as `h` and receive the next response for `h`, which `h` then never gets (the channel is empty again). -/
theorem C104_impostor_refuted (tau : Int) (confs : List ServerData) (h who : Str) (hreg : ∃ s ∈ confs, ∃ k, Registers s h k) (evs : List (Ev α)) (s : State α) (x : α)
    (hr : run (Network.new tau confs) (init (Network.new tau confs)) evs = some s) (hc : s.back.crashed = false)
    (hch : s.back.chans[(Network.new tau confs).getRelayIndex h]? = some { queue := [], closed := false }) :
    ∃ s', run (Network.new tau confs) s [.openStream who (addIPToContext none h), .other (.start [((Network.new tau confs).getRelayIndex h, x)]),
        .other (.send s.back.procs.length), .other (.deliver s.back.senders.length)] = some s' ∧
      s'.received = s.received ++ [(who, (Network.new tau confs).getRelayIndex h, x)] ∧
      s'.back.chans[(Network.new tau confs).getRelayIndex h]? = some { queue := [], closed := false } := by
  have hmem := ((C52_server_list tau confs).2 h).2 hreg
  have hidx := (callStreamIndex_ok tau confs h _ (getPeer_add h)).1 hmem
  have hlen := owners_length _ evs _ s (by simp [init, Streams.init]) hr
  obtain ⟨hr1, hr2⟩ := List.getElem?_eq_some_iff.1 hch
  simp [run, step, hidx, Streams.step, hc, hr1, hr2, Streams.capacity, ← hlen]

/-- C104, what a name is: a call that adds its address to a context without one is served under that address; if the context (say, a forwarded one) already has one, the server
serves the call under the older one. -/
theorem C104_first_name_partial (md : Metadata) (addr : Str) :
    (getPeerFromContext md = .error (.err .invalidArgument "Missing caller identity") → getPeerFromContext (addIPToContext md addr) = .ok addr) ∧
    (∀ a, getPeerFromContext md = .ok a → getPeerFromContext (addIPToContext md addr) = .ok a) := by
  unfold getPeerFromContext addIPToContext
  cases md with
  | none => simp [GoMap.lookup, GoMap.insert]
  | some m =>
    simp only [Option.getD_some, GoMap.lookup_insert]
    cases h : GoMap.lookup m callerKey with
    | none => simp
    | some ids => cases ids <;> simp

/-- Every process gives its own name. -/
def Honest (evs : List (Ev α)) : Prop := ∀ who md, Ev.openStream who md ∈ evs → md = addIPToContext none who

/-- C104, what holds: if every process gives its own name, then every response that was received was for the server that received it; and streams of processes that are not
servers of the network, or that give no name, are refused: they change nothing. Missing: C104_impostor_refuted. -/
theorem C104_honest_partial (tau : Int) (confs : List ServerData) (evs : List (Ev α)) (s : State α) (hh : Honest evs)
    (hr : run (Network.new tau confs) (init (Network.new tau confs)) evs = some s) :
    (∀ w r x, (w, r, x) ∈ s.received → (Network.new tau confs).serverAddresses[r]? = some w) ∧
    (∀ who md, (∀ a, getPeerFromContext md = .ok a → ¬∃ c ∈ confs, ∃ k, Registers c a k) → getPeerFromContext md ≠ .error .panic →
      step (Network.new tau confs) s (.openStream who md) = some s) := by
  constructor
  · have key : ∀ (evs : List (Ev α)) (s s' : State α), Honest evs → s.owners.length = s.back.senders.length →
        (∀ (k : Nat) (g : Streams.Sender), s.back.senders[k]? = some g → ∀ (w : Str), s.owners[k]? = some w → (Network.new tau confs).serverAddresses[g.relay]? = some w) →
        (∀ w r x, (w, r, x) ∈ s.received → (Network.new tau confs).serverAddresses[r]? = some w) → run (Network.new tau confs) s evs = some s' →
        (∀ w r x, (w, r, x) ∈ s'.received → (Network.new tau confs).serverAddresses[r]? = some w) := by
      intro evs
      induction evs with
      | nil => intro s s' _ _ _ h hr; cases hr; exact h
      | cons e evs ih =>
        intro s s' hh hl ho hrec hr
        have hr0 := hr
        rw [run] at hr
        cases hst : step (Network.new tau confs) s e with
        | none => rw [hst] at hr; cases hr
        | some s1 =>
          rw [hst] at hr
          have hl1 : s1.owners.length = s1.back.senders.length := owners_length _ [e] s s1 hl (by rw [run, hst]; rfl)
          refine ih s1 s' (fun who md h => hh who md (List.mem_cons_of_mem _ h)) hl1 ?_ ?_ hr
          · cases e with
            | openStream who md =>
              have hmd := hh who md (List.mem_cons_self ..)
              subst hmd
              simp only [step] at hst
              obtain ⟨hin, hout⟩ := callStreamIndex_ok tau confs who _ (getPeer_add who)
              by_cases hw : who ∈ (Network.new tau confs).serverAddresses
              · rw [hin hw] at hst
                obtain ⟨b, hb, rfl⟩ := Option.map_eq_some_iff.1 hst
                have hidx := (C52_relay_index tau confs who (((C52_server_list tau confs).2 who).1 hw)).1
                unfold Streams.step at hb
                grind
              · obtain ⟨m, hm⟩ := hout hw
                rw [hm] at hst
                cases hst; exact ho
            | other e =>
              cases e with
              | connect r => cases hst
              | _ =>
                simp only [step] at hst
                obtain ⟨b, hb, rfl⟩ := Option.map_eq_some_iff.1 hst
                unfold Streams.step at hb
                grind
          · cases e with
            | openStream who md =>
              simp only [step] at hst
              split at hst
              · obtain ⟨b, hb, rfl⟩ := Option.map_eq_some_iff.1 hst
                exact hrec
              · cases hst; exact hrec
              · cases hst; exact hrec
            | other e =>
              cases e with
              | connect r => cases hst
              | deliver k =>
                simp only [step] at hst
                obtain ⟨b, hb, rfl⟩ := Option.map_eq_some_iff.1 hst
                intro w r x hm
                simp only [List.mem_append, List.mem_map] at hm
                rcases hm with hm | ⟨m, hm, heq⟩
                · exact hrec w r x hm
                · simp only [Prod.mk.injEq] at heq
                  obtain ⟨h1, h2, h3⟩ := heq
                  unfold Streams.step at hb
                  simp only at hb
                  cases hg : s.back.senders[k]? with
                  | none => simp [hg] at hb
                  | some g =>
                    have hk : k < s.owners.length := by rw [hl]; exact (List.getElem?_eq_some_iff.1 hg).1
                    have := ho k g hg s.owners[k] (List.getElem?_eq_getElem hk)
                    simp only [List.getD_eq_getElem?_getD, List.getElem?_eq_getElem hk, Option.getD_some] at h1
                    rw [hg] at hb
                    simp only at hb
                    have hdrop : b.sent = s.back.sent ∨ ∃ y, b.sent = s.back.sent ++ [(g.relay, y)] := by
                      (repeat' split at hb) <;> first
                        | cases hb; done
                        | (cases hb; exact .inl rfl)
                        | (cases hb; exact .inr ⟨_, rfl⟩)
                    rcases hdrop with hd | ⟨y, hd⟩
                    · rw [hd] at hm; simp at hm
                    · rw [hd] at hm
                      simp at hm
                      subst hm
                      rw [← h1, ← h2]; exact this
              | _ =>
                simp only [step] at hst
                obtain ⟨b, hb, rfl⟩ := Option.map_eq_some_iff.1 hst
                simpa using hrec
    exact key evs _ s hh (by simp [init, Streams.init]) (by simp [init, Streams.init]) (by simp [init]) hr
  · intro who md hnot hpanic
    simp only [step]
    cases hp : getPeerFromContext md with
    | ok a =>
      have ha : a ∉ (Network.new tau confs).serverAddresses := fun h => hnot a hp (((C52_server_list tau confs).2 a).1 h)
      obtain ⟨m, hm⟩ := (callStreamIndex_ok tau confs a md hp).2 ha
      rw [hm]
    | error e =>
      cases e with
      | err c m => simp only [callStreamIndex, hp]
      | panic => exact absurd hp hpanic
      | hang => simp only [callStreamIndex, hp]

theorem exAddresses : (Network.new 1 [⟨[1], some [8]⟩, ⟨[2], some [7]⟩]).serverAddresses = [[1], [2]] := by
  show Network.sortStrings [[1], [2]] = _
  exact List.mergeSort_of_pairwise (by decide)

/-- Two servers; both open their streams, an answer for each is sent and received by its server. -/
example (x y : α) : Honest ([.openStream [1] (addIPToContext none [1]), .openStream [2] (addIPToContext none [2]), .other (.start [(0, x), (1, y)]), .other (.send 0),
      .other (.send 0), .other (.deliver 1), .other (.deliver 0)] : List (Ev α)) ∧
    ∃ s, run (Network.new 1 [⟨[1], some [8]⟩, ⟨[2], some [7]⟩]) (init (Network.new 1 [⟨[1], some [8]⟩, ⟨[2], some [7]⟩]))
      [.openStream [1] (addIPToContext none [1]), .openStream [2] (addIPToContext none [2]), .other (.start [(0, x), (1, y)]), .other (.send 0),
      .other (.send 0), .other (.deliver 1), .other (.deliver 0)] = some s ∧ s.received = [([2], 1, y), ([1], 0, x)] := by
  refine ⟨?_, ?_⟩
  · intro who md h
    simp at h
    rcases h with ⟨rfl, rfl⟩ | ⟨rfl, rfl⟩ <;> rfl
  · have hn : (Network.new 1 [⟨[1], some [8]⟩, ⟨[2], some [7]⟩]).serverAddresses = [[1], [2]] := exAddresses
    have h1 := (callStreamIndex_ok 1 [⟨[1], some [8]⟩, ⟨[2], some [7]⟩] [1] _ (getPeer_add [1])).1 (by rw [hn]; simp)
    have h2 := (callStreamIndex_ok 1 [⟨[1], some [8]⟩, ⟨[2], some [7]⟩] [2] _ (getPeer_add [2])).1 (by rw [hn]; simp)
    have e1 : (Network.new 1 [⟨[1], some [8]⟩, ⟨[2], some [7]⟩]).getRelayIndex [1] = 0 := by unfold Network.getRelayIndex; rw [hn]; decide
    have e2 : (Network.new 1 [⟨[1], some [8]⟩, ⟨[2], some [7]⟩]).getRelayIndex [2] = 1 := by unfold Network.getRelayIndex; rw [hn]; decide
    rw [e1] at h1; rw [e2] at h2
    refine ⟨_, by simp only [run, step, h1, h2, init, hn]; rfl, rfl⟩

/-- A reachable state as in C104_impostor_refuted: server [1] is connected, nothing was sent. -/
example : ∃ (s : State Nat), run (Network.new 1 [⟨[1], some [8]⟩, ⟨[2], some [7]⟩]) (init (Network.new 1 [⟨[1], some [8]⟩, ⟨[2], some [7]⟩]))
      [.openStream [1] (addIPToContext none [1])] = some s ∧ s.back.crashed = false ∧
    s.back.chans[(Network.new 1 [⟨[1], some [8]⟩, ⟨[2], some [7]⟩]).getRelayIndex [1]]? = some { queue := [], closed := false } := by
  have hn : (Network.new 1 [⟨[1], some [8]⟩, ⟨[2], some [7]⟩]).serverAddresses = [[1], [2]] := exAddresses
  have h1 := (callStreamIndex_ok 1 [⟨[1], some [8]⟩, ⟨[2], some [7]⟩] [1] _ (getPeer_add [1])).1 (by rw [hn]; simp)
  have e1 : (Network.new 1 [⟨[1], some [8]⟩, ⟨[2], some [7]⟩]).getRelayIndex [1] = 0 := by unfold Network.getRelayIndex; rw [hn]; decide
  rw [e1] at h1 ⊢
  refine ⟨_, by simp only [run, step, h1, init, hn]; rfl, rfl, rfl⟩

end Resmix.Rrpc.Peer
