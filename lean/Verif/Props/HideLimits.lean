import Verif.Props.HideSystem
set_option autoImplicit false
/-
C117 – C119: the limits of the anonymity of C116.
-/
namespace Resmix.System
open Resmix.Mixer (Messages)
open Resmix.Onion (Peels)

/-! ### C117: copies of an onion -/

/-- What holds: a message comes out as often as onions containing it went in, copies included. -/
theorem C117_copies_count {c : Config} {hosts : List Str} {L : Nat} (hL : 0 < L) (ht : Topology.createCascade hosts L = .ok c.topo)
    {r : Nat} (hr : r < 2 ^ 32) {subs : List Submission} (hop : Opens c r L subs) {conn : Str → Bool} {evs : List Event} {s : State}
    (hrun : Run c (init conn) evs s) (hcl : Clients c.topo subs r evs) {ch : Nat} {last : LogicalMix} {out : List Bytes}
    (hlast : c.topo.mixAt (L - 1) ch = some last) (hret : Returns s last.hostname r last.name out) (m : Bytes) :
    out.count m = (subs.filter fun x => x.chain = ch ∧ x.msg = m).length := by
  have h := (C64_end_to_end hL ht hr hop hrun hcl).1 ch last out hlast hret
  rw [h.count_eq, List.count_eq_countP, List.countP_map, List.countP_eq_length_filter, List.filter_filter]
  congr 1
  refine List.filter_congr fun x _ => ?_
  by_cases h1 : x.msg = m <;> by_cases h2 : x.chain = ch <;> simp [h1, h2]

/-- The attack: somebody sends a copy of the onion of `x` (which he can see on the wire, or holds as the first mix) over the same chain. If the other
messages of the chain differ from each other, the message that comes out twice is that of `x`. -/
theorem C117_copy_reveals_refuted {c : Config} {hosts : List Str} {L : Nat} (hL : 0 < L) (ht : Topology.createCascade hosts L = .ok c.topo)
    {r : Nat} (hr : r < 2 ^ 32) {x : Submission} {others : List Submission} (hx : x ∈ others) (hop : Opens c r L others)
    (hnd : ((onChain others x.chain).map (·.msg)).Nodup) {conn : Str → Bool} {evs : List Event} {s : State}
    (hrun : Run c (init conn) evs s) (hcl : Clients c.topo (x :: others) r evs) {last : LogicalMix} {out : List Bytes}
    (hlast : c.topo.mixAt (L - 1) x.chain = some last) (hret : Returns s last.hostname r last.name out) (m : Bytes) :
    out.count m = 2 ↔ m = x.msg := by
  have hop' : Opens c r L (x :: others) := by
    intro z hz
    rcases List.mem_cons.1 hz with rfl | hz
    · exact hop _ hx
    · exact hop z hz
  have h := (C64_end_to_end hL ht hr hop' hrun hcl).1 x.chain last out hlast hret
  have hxm : x.msg ∈ (onChain others x.chain).map (·.msg) := List.mem_map.2 ⟨x, by simp [onChain, hx], rfl⟩
  have e : (((x :: others).filter fun z => z.chain = x.chain).map (·.msg)) = x.msg :: (onChain others x.chain).map (·.msg) := by
    simp [onChain]
  rw [e] at h
  rw [h.count_eq, List.count_cons]
  have h1 := (List.nodup_iff_count_le_one.1 hnd) m
  by_cases hm : m = x.msg
  · subst hm
    have h2 : 0 < List.count x.msg ((onChain others x.chain).map (·.msg)) := List.count_pos_iff.2 hxm
    simp only [beq_self_eq_true, if_true, iff_true]
    omega
  · have : (x.msg == m) = false := by simpa using fun h => hm h.symm
    simp only [this, Bool.false_eq_true, if_false, hm, iff_false]
    omega

namespace Ex
/-- the goroutines of host `h` handle the waiting batch of 3 onions -/
def mixing3 (h : Str) : List Event := .work h (.enter 0) :: (List.replicate 6 (.work h (.work 0 .addStep)) ++
  [.work h (.work 0 .take), .work h (.work 0 .take), .work h (.work 0 (.finish 0)), .work h (.work 0 .take), .work h (.work 0 (.finish 0)),
   .work h (.work 0 (.finish 0)), .work h (.work 0 (.shuffle 0 ws))])
/-- The submissions of C64's example with the third one replaced by a copy of the second. -/
def subsD : List Submission := [y1, x1, y1]
def loadsD : GoMap Str Nat := [(mixNameOf 0 0, 3), (mixNameOf 0 1, 0)]
def evsD : List Event :=
  [.client a (.newRound 7 loadsD topo.mixes), .client b (.newRound 7 loadsD topo.mixes),
   .client a (.addMessages 7 [fromClient [onion 0 [42], onion 0 [41], onion 0 [42]] (mixNameOf 0 0)])] ++ mixing3 a ++
  [.work a (.work 0 (.send 0)), .forward a 0, .deliver 0] ++ mixing3 b

def finalD : State := (runC conf (init fun _ => true) evsD).getD (init fun _ => true)

set_option maxRecDepth 10000 in
theorem runD_ok : (runC conf (init fun _ => true) evsD).isSome = true := by rfl

theorem runD : Run conf (init fun _ => true) evsD finalD := by
  have h := runD_ok
  rw [Option.isSome_iff_exists] at h
  obtain ⟨s, hs⟩ := h
  have := runC_sound (evs := []) Run.nil hs
  unfold finalD
  rw [hs]
  simpa using this

theorem behavedD : Clients conf.topo subsD 7 evsD where
  once h := by
    by_cases ha : h = a
    · subst ha; decide
    · by_cases hb : h = b
      · subst hb; decide
      · have : evsD.filter (isOpening h 7) = [] := by
          rw [List.filter_eq_nil_iff]
          intro e he
          cases e with
          | client h' act =>
            cases act with
            | newRound r l o =>
              intro hopen
              simp only [isOpening, Bool.and_eq_true, decide_eq_true_eq] at hopen
              obtain ⟨rfl, _⟩ := hopen
              simp only [evsD, mixing3, List.mem_append, List.mem_cons, List.mem_replicate] at he
              simp at he
              rcases he with ⟨h, _⟩ | ⟨h, _⟩
              · exact ha h
              · exact hb h
            | _ => simp [isOpening]
          | _ => simp [isOpening]
        rw [this]; simp
  loads h ls order he := by
    have : ls = loadsD := by
      simp only [evsD, mixing3, List.mem_append, List.mem_cons, List.mem_replicate] at he
      simp at he
      rcases he with ⟨_, h, _⟩ | ⟨_, h, _⟩ <;> exact h
    subst this
    refine ⟨by decide, ?_⟩
    intro c first hf
    have hc := (Topology.closed_of_create topo_ok).mixAt_some hf
    rcases (show c = 0 ∨ c = 1 by have := hc.2.1; simp at this; omega) with rfl | rfl <;>
    · cases hf; rfl
  first h ms he := by
    simp only [evsD, mixing3, List.mem_append, List.mem_cons, List.mem_replicate] at he
    simp at he
    obtain ⟨_, rfl⟩ := he
    intro m hm
    simp only [List.mem_cons, List.not_mem_nil, or_false] at hm
    subst hm
    exact ⟨0, _, rfl, rfl, fun h => by simp [fromClient] at h⟩
  onions c first hf := by
    have hc := (Topology.closed_of_create topo_ok).mixAt_some hf
    rcases (show c = 0 ∨ c = 1 by have := hc.2.1; simp at this; omega) with rfl | rfl
    · cases hf; exact (List.Perm.refl _).subperm
    · cases hf; exact (List.Perm.refl _).subperm

theorem opensD : Opens conf 7 2 [x1, y1] := by
  intro x hx
  simp only [List.mem_cons, List.not_mem_nil, or_false] at hx
  rcases hx with rfl | rfl <;> exact peels (by simp [x1, y1]) _

theorem returnedD : ∃ last out, conf.topo.mixAt (2 - 1) y1.chain = some last ∧ Returns finalD last.hostname 7 last.name out ∧ out.count y1.msg = 2 := by
  refine ⟨_, _, rfl, ⟨rfl, 0, _, rfl, rfl⟩, ?_⟩
  decide
end Ex

/-- Non-vacuity: the attack is carried out. -/
example : ∃ last out, Ex.conf.topo.mixAt (2 - 1) Ex.y1.chain = some last ∧ Returns Ex.finalD last.hostname 7 last.name out ∧ ∀ m, out.count m = 2 ↔ m = Ex.y1.msg := by
  obtain ⟨last, out, h1, h2, _⟩ := Ex.returnedD
  exact ⟨last, out, h1, h2, C117_copy_reveals_refuted (by omega) Ex.topo_ok (by omega) (by simp) Ex.opensD (by decide) Ex.runD Ex.behavedD h1 h2⟩

/-! ### C118: other chains -/

/-- Messages over different chains are not hidden in each other: in two executions (under any keys and schedules) in which the messages of `x` and `y` are
exchanged, the answers of the last mix of `x`'s chain differ. (So C116's `x.chain = y.chain` cannot be dropped.) -/
theorem C118_chains_do_not_mix_refuted {c c' : Config} {hosts : List Str} {L : Nat} (hL : 0 < L) (ht : Topology.createCascade hosts L = .ok c.topo)
    (ht' : c'.topo = c.topo) {r : Nat} (hr : r < 2 ^ 32) {subs : List Submission} (hnd : subs.Nodup) {x y : Submission} (hx : x ∈ subs) (hxy : x.chain ≠ y.chain)
    (hmsg : x.msg ≠ y.msg) (hop : Opens c r L subs) (hop' : Opens c' r L (exchanged x y subs))
    {conn conn' : Str → Bool} {evs evs' : List Event} {s s' : State} (hrun : Run c (init conn) evs s) (hcl : Clients c.topo subs r evs)
    (hrun' : Run c' (init conn') evs' s') (hcl' : Clients c.topo (exchanged x y subs) r evs')
    {last : LogicalMix} {out out' : List Bytes} (hlast : c.topo.mixAt (L - 1) x.chain = some last)
    (hret : Returns s last.hostname r last.name out) (hret' : Returns s' last.hostname r last.name out') : ¬ out.Perm out' := by
  have h1 := (C64_end_to_end hL ht hr hop hrun hcl).1 x.chain last out hlast hret
  have h2 := (C64_end_to_end (c := c') hL (by rw [ht']; exact ht) hr hop' hrun' (by rw [ht']; exact hcl')).1 x.chain last out' (by rw [ht']; exact hlast) hret'
  intro hp
  have h3 := (h1.symm.trans hp).trans h2
  have h4 := h3.count_eq x.msg
  unfold exchanged at h4
  rw [List.filter_map, List.map_map] at h4
  obtain ⟨p, q, rfl⟩ := List.append_of_mem hx
  have hnot : ∀ z, z ∈ p ∨ z ∈ q → z ≠ x := by
    have := List.nodup_append.1 hnd
    rintro z (hz | hz) rfl
    · exact this.2.2 z hz z (by simp) rfl
    · exact (List.nodup_cons.1 this.2.1).1 hz
  have hsame : ∀ l : List Submission, (∀ z ∈ l, z ≠ x) →
      ((l.filter ((fun z => decide (z.chain = x.chain)) ∘ fun z => if z = x then { x with msg := y.msg } else if z = y then { y with msg := x.msg } else z)).map
        ((·.msg) ∘ fun z => if z = x then { x with msg := y.msg } else if z = y then { y with msg := x.msg } else z)) = (l.filter fun z => z.chain = x.chain).map (·.msg) := by
    intro l hl
    induction l with
    | nil => rfl
    | cons z l ih =>
      have hz := hl z (by simp)
      have ih := ih fun w hw => hl w (by simp [hw])
      by_cases hzy : z = y
      · subst hzy
        simp only [List.filter_cons, Function.comp, if_neg hz, if_true]
        rw [if_neg (by simpa using fun h => hxy h.symm), if_neg (by simpa using fun h => hxy h.symm)]
        exact ih
      · simp only [List.filter_cons, Function.comp, if_neg hz, if_neg hzy]
        split
        · simp only [List.map_cons, Function.comp, if_neg hz, if_neg hzy]
          exact congrArg _ ih
        · exact ih
  simp only [List.filter_append, List.map_append, List.count_append] at h4
  rw [hsame p (fun z hz => hnot z (.inl hz))] at h4
  rw [List.filter_cons, List.filter_cons] at h4
  simp only [Function.comp, decide_true, if_true, List.map_cons] at h4
  have h5 := hsame q (fun z hz => hnot z (.inr hz))
  simp only [Function.comp_def] at h5 h4
  rw [h5, List.count_cons, List.count_cons] at h4
  have : (y.msg == x.msg) = false := by simpa using fun h => hmsg h.symm
  simp [this] at h4

/-- In particular a message that is alone on its chain comes out for everybody to see whose it is. -/
theorem C118_alone_on_a_chain_refuted {c : Config} {hosts : List Str} {L : Nat} (hL : 0 < L) (ht : Topology.createCascade hosts L = .ok c.topo)
    {r : Nat} (hr : r < 2 ^ 32) {subs : List Submission} (hop : Opens c r L subs) {conn : Str → Bool} {evs : List Event} {s : State}
    (hrun : Run c (init conn) evs s) (hcl : Clients c.topo subs r evs) {x : Submission} (hx : onChain subs x.chain = [x]) {last : LogicalMix} {out : List Bytes}
    (hlast : c.topo.mixAt (L - 1) x.chain = some last) (hret : Returns s last.hostname r last.name out) : out = [x.msg] := by
  have h1 := (C64_end_to_end hL ht hr hop hrun hcl).1 x.chain last out hlast hret
  have : (subs.filter fun z => z.chain = x.chain) = [x] := hx
  rw [this] at h1
  exact List.perm_singleton.1 h1

namespace Ex
def z1 : Submission := ⟨1, [43], onion 1 [43]⟩
/-- The same round with the messages 42 and 43 exchanged. -/
def subsX : List Submission := [⟨0, [41], onion 0 [41]⟩, ⟨0, [43], onion 0 [42]⟩, ⟨1, [42], onion 1 [43]⟩]
end Ex

/-- Non-vacuity: in C64's example the message 43 is alone on chain 1, and 42 and 43 are over different chains. -/
example : onChain Ex.subs Ex.z1.chain = [Ex.z1] ∧ Ex.subs.Nodup ∧ Ex.y1 ∈ Ex.subs ∧ Ex.y1.chain ≠ Ex.z1.chain ∧ Ex.y1.msg ≠ Ex.z1.msg ∧
    exchanged Ex.y1 Ex.z1 Ex.subs = Ex.subsX ∧
    ∃ last, Ex.conf.topo.mixAt (2 - 1) 1 = some last ∧ Returns Ex.final last.hostname 7 last.name [[43]] :=
  ⟨by decide, by decide, by decide, by decide, by decide, by decide, _, rfl, rfl, 0, _, rfl, rfl⟩

/-! ### C119: who may send to a mix -/

namespace Ex
/-- An attacker sends two onions of his own to the second mix of chain 0, in the name of the first. -/
def forged : Messages := ⟨[[99] ++ be32 1 ++ be32 0, [98] ++ be32 1 ++ be32 0], a, mixNameOf 0 0, mixNameOf 1 1⟩
def evsF : List Event :=
  [.client a (.newRound 7 loads topo.mixes), .client b (.newRound 7 loads topo.mixes),
   .client a (.addMessages 7 [fromClient [onion 0 [42], onion 0 [41]] (mixNameOf 0 0)]),
   .client b (.addMessages 7 [fromClient [onion 1 [43]] (mixNameOf 0 1)]),
   .client b (.addMessages 7 [forged])] ++ [.work b (.enter 1)] ++ List.replicate 5 (.work b (.work 0 .addStep)) ++
  List.replicate 2 (.work b (.work 0 .take)) ++ List.replicate 2 (.work b (.work 0 (.finish 0))) ++ [.work b (.work 0 (.shuffle 0 ws))]

def finalF : State := (runC conf (init fun _ => true) evsF).getD (init fun _ => true)

set_option maxRecDepth 10000 in
theorem runF_ok : (runC conf (init fun _ => true) evsF).isSome = true := by rfl

theorem runF : Run conf (init fun _ => true) evsF finalF := by
  have h := runF_ok
  rw [Option.isSome_iff_exists] at h
  obtain ⟨s, hs⟩ := h
  have := runC_sound (evs := []) Run.nil hs
  unfold finalF
  rw [hs]
  simpa using this
end Ex

/-- A server does not check who calls AddMessages. If a client may address any mix, with any sender fields (and even if to the first-layer mixes only the onions
of the round are sent, and the round is opened everywhere once, with the right numbers), the last mix of a chain can return messages none of which was submitted. -/
theorem C119_only_the_predecessor_refuted : ∃ (c : Config) (hosts : List Str) (L : Nat) (subs : List Submission) (evs : List Event) (s : State)
    (ch : Nat) (last : LogicalMix) (out : List Bytes),
    Topology.createCascade hosts L = .ok c.topo ∧ Opens c 7 L subs ∧ Run c (init fun _ => true) evs s ∧
    (∀ h, (evs.filter (isOpening h 7)).length ≤ 1) ∧
    (∀ h ls order, .client h (.newRound 7 ls order) ∈ evs → ∀ ch first, c.topo.mixAt 0 ch = some first → ls.lookup first.name = some (onChain subs ch).length) ∧
    (∀ ch first, c.topo.mixAt 0 ch = some first → (clientOnions evs 7 first.name).Perm ((onChain subs ch).map (·.onion))) ∧
    c.topo.mixAt (L - 1) ch = some last ∧ Returns s last.hostname 7 last.name out ∧ out ≠ [] ∧ ∀ m ∈ out, ∀ x ∈ subs, x.msg ≠ m := by
  refine ⟨Ex.conf, [Ex.a, Ex.b], 2, Ex.subs, Ex.evsF, Ex.finalF, 0, _, _, Ex.topo_ok, ?_, Ex.runF, ?_, ?_, ?_, rfl, ⟨rfl, 0, _, rfl, rfl⟩, ?_, ?_⟩
  · intro x hx
    simp only [Ex.subs, List.mem_cons, List.not_mem_nil, or_false] at hx
    rcases hx with rfl | rfl | rfl <;> exact Ex.peels (by simp) _
  · intro h
    by_cases ha : h = Ex.a
    · subst ha; decide
    · by_cases hb : h = Ex.b
      · subst hb; decide
      · have : Ex.evsF.filter (isOpening h 7) = [] := by
          rw [List.filter_eq_nil_iff]
          intro e he
          cases e with
          | client h' act =>
            cases act with
            | newRound r l o =>
              intro hopen
              simp only [isOpening, Bool.and_eq_true, decide_eq_true_eq] at hopen
              obtain ⟨rfl, _⟩ := hopen
              simp only [Ex.evsF, List.mem_append, List.mem_cons, List.mem_replicate] at he
              simp at he
              rcases he with ⟨h, _⟩ | ⟨h, _⟩
              · exact ha h
              · exact hb h
            | _ => simp [isOpening]
          | _ => simp [isOpening]
        rw [this]; simp
  · intro h ls order he ch first hf
    have : ls = Ex.loads := by
      simp only [Ex.evsF, List.mem_append, List.mem_cons, List.mem_replicate] at he
      simp at he
      rcases he with ⟨_, h, _⟩ | ⟨_, h, _⟩ <;> exact h
    subst this
    have hc := (Topology.closed_of_create Ex.topo_ok).mixAt_some hf
    rcases (show ch = 0 ∨ ch = 1 by have := hc.2.1; simp at this; omega) with rfl | rfl <;>
    · cases hf; rfl
  · intro ch first hf
    have hc := (Topology.closed_of_create Ex.topo_ok).mixAt_some hf
    rcases (show ch = 0 ∨ ch = 1 by have := hc.2.1; simp at this; omega) with rfl | rfl
    · cases hf; exact List.Perm.swap _ _ []
    · cases hf; exact List.Perm.refl _
  · decide
  · decide

end Resmix.System
