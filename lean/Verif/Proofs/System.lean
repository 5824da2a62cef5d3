import Verif.Spec.System
import Verif.Proofs.SystemServer
import Verif.Proofs.SystemSend
import Verif.Props.Server
set_option autoImplicit false
/-
The accounting invariant of the whole system for one round (C64).
-/
namespace Resmix.System
open Resmix.Mixer (Messages MixOutput callOf onionsFor onionsOf resultOf workloadOf)
open Resmix.Onion (Addresses Peels)
open Resmix.Topology (Closed)

/-- How often onion `o` occurs in the batches for mix `n`. -/
def cnt (n : Str) (o : Bytes) (ms : List Messages) : Nat := (onionsFor n ms).count o

theorem cnt_append (n : Str) (o : Bytes) (a b : List Messages) : cnt n o (a ++ b) = cnt n o a + cnt n o b := by
  simp [cnt, onionsFor]

theorem cnt_nil (n : Str) (o : Bytes) : cnt n o [] = 0 := rfl

theorem cnt_perm (n : Str) (o : Bytes) {a b : List Messages} (h : a.Perm b) : cnt n o a = cnt n o b := by
  unfold cnt onionsFor
  exact ((h.filter _).flatMap_right _).count_eq o

theorem cnt_zero (n : Str) (o : Bytes) {ms : List Messages} (h : ∀ m ∈ ms, m.logicalReceiver ≠ n) : cnt n o ms = 0 := by
  unfold cnt onionsFor
  rw [List.filter_eq_nil_iff.2 (by simpa using h)]
  rfl

theorem cnt_all (n : Str) (o : Bytes) {ms : List Messages} (h : ∀ m ∈ ms, m.logicalReceiver = n) : cnt n o ms = (ms.flatMap (·.messages)).count o := by
  unfold cnt onionsFor
  rw [List.filter_eq_self.2 (by simpa using h)]

/-- The batches handed to the round object. -/
def calls (A : List Mixer.Action) : List Messages := A.flatMap callOf

/-- The onions of mix `n` in the output channel / ever put there. -/
def chanOf (m : Option Mixer.State) (n : Str) : List Bytes := match m with | some m => onionsOf m.output n | none => []
def sentOf (m : Option Mixer.State) (n : Str) : List Bytes := match m with | some m => onionsOf m.sent n | none => []

section
variable (c : Config) (r : Nat) (subs : List Submission)

/-- The onions of chain `ch` as they stand before layer `l`. -/
def X (ch : Nat) : Nat → List Bytes
  | 0 => (onChain subs ch).map (·.onion)
  | l + 1 => match c.topo.mixAt l ch with
    | some m => (X ch l).map (resultOf (c.env m.hostname r))
    | none => X ch l

/-- Onions sent towards the mix at position `ch` of layer `l`, and those of them still in the channel of the sending mix. -/
def upSent (evs : List Event) (mx : Str → Option Mixer.State) (ch : Nat) : Nat → List Bytes
  | 0 => match c.topo.mixAt 0 ch with
    | some f => clientOnions evs r f.name
    | none => []
  | l + 1 => match c.topo.mixAt l ch with
    | some u => sentOf (mx u.hostname) u.name
    | none => []

def upChan (mx : Str → Option Mixer.State) (ch : Nat) : Nat → List Bytes
  | 0 => []
  | l + 1 => match c.topo.mixAt l ch with
    | some u => chanOf (mx u.hostname) u.name
    | none => []

/-- The history of one round object. -/
def MixerOk (h : Str) (m : Mixer.State) (A : List Mixer.Action) : Prop :=
  ∃ w order m0, order.Perm c.topo.mixes ∧ Mixer.newMixers c.topo (Server.ownMixes c.topo h order) w = .ok m0 ∧
    Mixer.exec (c.env h r) m0 A = some m ∧
    (∀ l i mix, c.topo.mixAt l i = some mix → workloadOf w mix.name = (onChain subs i).length) ∧
    ∀ mix ∈ Server.ownMixes c.topo h order, ∃ pk, Mixer.ExpectsOnly c.topo w mix pk

structure VInv (evs : List Event) (mx : Str → Option Mixer.State) (wt : Str → List Messages) (nt : List Messages)
    (A : Str → List Mixer.Action) : Prop where
  none_ : ∀ h, mx h = none → A h = []
  mixer : ∀ h m, mx h = some m → MixerOk c r subs h m (A h)
  ne : ∀ l ch mix, c.topo.mixAt l ch = some mix → onChain subs ch ≠ [] →
    (∀ h, ∀ M ∈ calls (A h), M.logicalReceiver = mix.name → M.messages ≠ []) ∧
    (∀ h, ∀ M ∈ wt h, M.logicalReceiver = mix.name → M.messages ≠ []) ∧
    (∀ M ∈ nt, M.logicalReceiver = mix.name → M.messages ≠ [])
  acct : ∀ l ch mix, c.topo.mixAt l ch = some mix → ∀ o,
    cnt mix.name o (calls (A mix.hostname)) + cnt mix.name o (wt mix.hostname) + cnt mix.name o nt + (upChan c mx ch l).count o ≤
      (upSent c r evs mx ch l).count o
  bnd : ∀ l ch o, (upSent c r evs mx ch l).count o ≤ (X c r subs ch l).count o
end

section
variable {c : Config} {r : Nat} {subs : List Submission} {hosts : List Str} {L : Nat}

theorem mixAt_inj (hcl : Closed hosts L c.topo) {l ch l' ch' : Nat} {m m' : LogicalMix} (h : c.topo.mixAt l ch = some m)
    (h' : c.topo.mixAt l' ch' = some m') (hn : m.name = m'.name) : l = l' ∧ ch = ch' ∧ m = m' := by
  obtain ⟨hl, hi, rfl⟩ := hcl.mixAt_some h
  obtain ⟨hl', hi', rfl⟩ := hcl.mixAt_some h'
  have := Topology.newMix_name_inj hosts (i := ⟨ch, hi⟩) (i' := ⟨ch', hi'⟩) hn
  obtain ⟨h1, h2⟩ := this
  subst h1
  simp only [Fin.mk.injEq] at h2
  subst h2
  exact ⟨rfl, rfl, rfl⟩

theorem mixAt_layer (hcl : Closed hosts L c.topo) {l ch : Nat} {m : LogicalMix} (h : c.topo.mixAt l ch = some m) :
    m.layer = l ∧ l < L ∧ m ∈ c.topo.layers.flatten := by
  obtain ⟨hl, hi, rfl⟩ := hcl.mixAt_some h
  exact ⟨rfl, hl, hcl.mem_flatten.2 ⟨l, ⟨ch, hi⟩, hl, rfl⟩⟩

theorem mixAt_of_mem (hcl : Closed hosts L c.topo) {m : LogicalMix} (h : m ∈ c.topo.layers.flatten) : ∃ l ch, c.topo.mixAt l ch = some m := by
  obtain ⟨l, i, hl, rfl⟩ := hcl.mem_flatten.1 h
  exact ⟨l, i, hcl.mixAt_eq l i hl i.isLt⟩

theorem X_length (ch l : Nat) : (X c r subs ch l).length = (onChain subs ch).length := by
  induction l with
  | zero => simp [X]
  | succ l ih =>
    rw [X]
    split
    · simpa using ih
    · exact ih

theorem noEmpty_of {A : List Mixer.Action} {n : Str} (h : ∀ M ∈ calls A, M.logicalReceiver = n → M.messages ≠ []) : Mixer.NoEmptyBatch A n := by
  intro a ha ms hms M hM hn
  refine h M ?_ hn
  subst hms
  exact List.mem_flatMap.2 ⟨_, ha, hM⟩

theorem delivered_cnt (A : List Mixer.Action) (n : Str) (o : Bytes) : (Mixer.delivered A n).count o = cnt n o (calls A) := by
  rw [Mixer.delivered_eq]; rfl

theorem subperm_of_count {a b : List Bytes} (h : ∀ o, a.count o ≤ b.count o) : a.Subperm b := List.subperm_ext_iff.2 fun o _ => h o

/-- What a (live) mix of the system has forwarded. -/
theorem mixer_sent (hcl : Closed hosts L c.topo) {l ch : Nat} {u : LogicalMix} (hu : c.topo.mixAt l ch = some u) {m : Mixer.State}
    {A : List Mixer.Action} (hm : MixerOk c r subs u.hostname m A) (hc : m.crashed = false)
    (hD : ∀ o, cnt u.name o (calls A) ≤ (X c r subs ch l).count o)
    (hne : onChain subs ch ≠ [] → ∀ M ∈ calls A, M.logicalReceiver = u.name → M.messages ≠ []) :
    (l + 1 = L → onionsOf m.sent u.name = []) ∧ ∀ o, (onionsOf m.sent u.name).count o ≤ (X c r subs ch (l + 1)).count o := by
  obtain ⟨w, order, m0, ho, h0, hx, hw, hexp⟩ := hm
  obtain ⟨hlay, hlt, hmem⟩ := mixAt_layer hcl hu
  have hown := (Server.mem_ownMixes hcl ho (m := u) (host := u.hostname)).2 ⟨hmem, rfl⟩
  obtain ⟨pk, hpk⟩ := hexp u hown
  have hsub : (Mixer.delivered A u.name).Subperm (X c r subs ch l) := subperm_of_count fun o => by rw [delivered_cnt]; exact hD o
  obtain ⟨h1, h2⟩ := Mixer.sent_bound h0 (Server.ownMixes_nodup hcl ho) hx hc hown hpk (X := X c r subs ch l)
    (by rw [hw _ _ _ hu, X_length]) hsub (fun hx => noEmpty_of (hne (by
      intro he; apply hx
      have := X_length (c := c) (r := r) (subs := subs) ch l
      rw [he] at this
      exact List.length_eq_zero_iff.1 this)))
  have hL : c.topo.layers.length = L := by rw [hcl.layers]; simp
  refine ⟨fun hl => h1 (by rw [hlay, hL, hl]), fun o => ?_⟩
  have : X c r subs ch (l + 1) = (X c r subs ch l).map (resultOf (c.env u.hostname r)) := by rw [X, hu]
  rw [this]
  exact h2.count_le o

/-- The bound on what was sent follows from the accounting. -/
theorem bnd_of (hcl : Closed hosts L c.topo) {evs evs' : List Event} {mx mx' : Str → Option Mixer.State} {wt' : Str → List Messages} {nt' : List Messages}
    {A' : Str → List Mixer.Action}
    (hmix : ∀ h m, mx' h = some m → MixerOk c r subs h m (A' h))
    (hne : ∀ l ch mix, c.topo.mixAt l ch = some mix → onChain subs ch ≠ [] → ∀ h, ∀ M ∈ calls (A' h), M.logicalReceiver = mix.name → M.messages ≠ [])
    (hacct : ∀ l ch mix, c.topo.mixAt l ch = some mix → ∀ o,
      cnt mix.name o (calls (A' mix.hostname)) + cnt mix.name o (wt' mix.hostname) + cnt mix.name o nt' + (upChan c mx' ch l).count o ≤
        (upSent c r evs' mx' ch l).count o)
    (hcrash : ∀ h m, mx' h = some m → m.crashed = true → ∃ m0, mx h = some m0 ∧ m.sent = m0.sent)
    (hold : ∀ l ch o, (upSent c r evs mx ch l).count o ≤ (X c r subs ch l).count o)
    (hcl0 : ∀ ch first, c.topo.mixAt 0 ch = some first → (clientOnions evs' r first.name).Subperm ((onChain subs ch).map (·.onion))) :
    ∀ l ch o, (upSent c r evs' mx' ch l).count o ≤ (X c r subs ch l).count o := by
  intro l
  induction l with
  | zero =>
    intro ch o
    simp only [upSent, X]
    split
    · next f hf => exact (hcl0 ch f hf).count_le o
    · simp
  | succ l ih =>
    intro ch o
    cases hu : c.topo.mixAt l ch with
    | none => simp [upSent, hu]
    | some u =>
      simp only [upSent, hu]
      cases hm : mx' u.hostname with
      | none => simp [sentOf]
      | some m =>
        cases hc : m.crashed with
        | true =>
          obtain ⟨m0, h0, h1⟩ := hcrash _ _ hm hc
          have := hold (l + 1) ch o
          simp only [upSent, hu, h0] at this
          simpa only [sentOf, h1] using this
        | false =>
          refine (mixer_sent hcl hu (hmix _ _ hm) hc ?_ fun h => hne l ch u hu h _).2 o
          intro o'
          have h1 := hacct l ch u hu o'
          have h2 := ih ch o'
          omega

end
end Resmix.System
