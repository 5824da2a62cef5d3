import Verif.Proofs.SystemB
set_option autoImplicit false
/-
What holds in addition when the clients of a round keep to the form of the protocol, and when nothing is lost (C87, C88).
-/
namespace Resmix.System
open Resmix.Mixer (Messages MixOutput callOf onionsFor onionsOf resultOf workloadOf)
open Resmix.Onion (Addresses Peels groupOnionsByHostname)
open Resmix.Topology (Closed)
open Resmix.Sender

variable {c : Config} {r : Nat} {subs : List Submission} {hosts : List Str} {L : Nat}

/-- The sender a mix waits for. -/
def expect (t : Topology) (ch : Nat) : Nat → Str × Str
  | 0 => (genesisName, genesisName)
  | l + 1 => match t.mixAt l ch with
    | some u => (u.hostname, u.name)
    | none => (genesisName, genesisName)

/-- A batch on host `h` is for a mix of that host and carries the sender the mix waits for. -/
def Tag (t : Topology) (h : Str) (M : Messages) : Prop :=
  ∃ l ch mix, t.mixAt l ch = some mix ∧ M.logicalReceiver = mix.name ∧ mix.hostname = h ∧ (M.physicalSender, M.logicalSender) = expect t ch l

structure EInv (c : Config) (r : Nat) (wt : Str → List Messages) (net : List Request) (A : Str → List Mixer.Action) : Prop where
  tagA : ∀ h, ∀ M ∈ calls (A h), Tag c.topo h M
  tagW : ∀ h, ∀ M ∈ wt h, Tag c.topo h M
  tagN : ∀ rq ∈ net, rq.round = r → ∀ M ∈ rq.messages, Tag c.topo rq.host M
  close : ∀ h, Mixer.Action.close ∉ A h

/-- Nothing was lost. -/
def AcctEq (c : Config) (r : Nat) (evs : List Event) (mx : Str → Option Mixer.State) (wt : Str → List Messages) (nt : List Messages)
    (A : Str → List Mixer.Action) : Prop :=
  ∀ l ch mix, c.topo.mixAt l ch = some mix → ∀ o,
    cnt mix.name o (calls (A mix.hostname)) + cnt mix.name o (wt mix.hostname) + cnt mix.name o nt + (upChan c mx ch l).count o =
      (upSent c r evs mx ch l).count o

theorem tag_host (hcl : Closed hosts L c.topo) {h : Str} {M : Messages} (ht : Tag c.topo h M) {l ch : Nat} {mix : LogicalMix}
    (hm : c.topo.mixAt l ch = some mix) (hn : M.logicalReceiver = mix.name) : mix.hostname = h := by
  obtain ⟨l', ch', mix', hm', hr, hh, _⟩ := ht
  rw [hr] at hn
  obtain ⟨_, _, rfl⟩ := mixAt_inj hcl hm' hm hn
  exact hh

theorem cnt_tag (hcl : Closed hosts L c.topo) {h : Str} {ms : List Messages} (ht : ∀ M ∈ ms, Tag c.topo h M) {l ch : Nat} {mix : LogicalMix}
    (hm : c.topo.mixAt l ch = some mix) (hne : mix.hostname ≠ h) (o : Bytes) : cnt mix.name o ms = 0 :=
  cnt_zero _ _ fun M hM hn => hne (tag_host hcl (ht M hM) hm hn)

/-- The transfer of batches from the network to a waiting list. -/
theorem AcctEq.move (hcl : Closed hosts L c.topo) {evs : List Event} {mx : Str → Option Mixer.State} {wt wt' : Str → List Messages}
    {nt nt' : List Messages} {A : Str → List Mixer.Action} (v : AcctEq c r evs mx wt nt A) (e : Event) (he : ∀ n, sentBy r n e = [])
    (ms : List Messages) (hnt : nt.Perm (ms ++ nt')) (h : Str) (hwt : wt' h = wt h ++ ms) (hwo : ∀ h', h' ≠ h → wt' h' = wt h')
    (ht : ∀ M ∈ ms, Tag c.topo h M) : AcctEq c r (evs ++ [e]) mx wt' nt' A := by
  intro l ch mix hm o
  have hup : upSent c r (evs ++ [e]) mx ch l = upSent c r evs mx ch l := by
    cases l with
    | zero => simp only [upSent, clientOnions_snoc, he, List.append_nil]
    | succ l => rfl
  rw [hup, ← v l ch mix hm o]
  have h1 := cnt_perm mix.name o hnt
  rw [cnt_append] at h1
  by_cases hh : mix.hostname = h
  · rw [hh, hwt, cnt_append]; omega
  · rw [hwo _ hh]
    have := cnt_tag hcl ht hm hh o
    omega

/-- A client's call. -/
theorem AcctEq.client (hcl : Closed hosts L c.topo) {evs : List Event} {mx : Str → Option Mixer.State} {wt wt' : Str → List Messages}
    {nt : List Messages} {A : Str → List Mixer.Action} (v : AcctEq c r evs mx wt nt A) (h : Str) (ms : List Messages)
    (hwt : wt' h = wt h ++ ms) (hwo : ∀ h', h' ≠ h → wt' h' = wt h')
    (ho : Orderly c.topo r (evs ++ [.client h (.addMessages r ms)])) :
    AcctEq c r (evs ++ [.client h (.addMessages r ms)]) mx wt' nt A := by
  have hform := ho.form h ms (by simp)
  intro l ch mix hm o
  have hin : cnt mix.name o (wt' mix.hostname) = cnt mix.name o (wt mix.hostname) + cnt mix.name o ms := by
    by_cases hh : mix.hostname = h
    · rw [hh, hwt, cnt_append]
    · rw [hwo _ hh]
      have : cnt mix.name o ms = 0 := cnt_zero _ _ fun M hM hn => by
        obtain ⟨ch', f, hf, hr, hfh, _⟩ := hform M hM
        rw [hr] at hn
        obtain ⟨_, _, rfl⟩ := mixAt_inj hcl hf hm hn
        exact hh hfh
      omega
  have hup : (upSent c r (evs ++ [.client h (.addMessages r ms)]) mx ch l).count o = cnt mix.name o ms + (upSent c r evs mx ch l).count o := by
    cases l with
    | zero =>
      simp only [upSent, hm, clientOnions_snoc, sentBy, if_true, List.count_append]
      show _ + cnt mix.name o ms = cnt mix.name o ms + _
      omega
    | succ l =>
      have : cnt mix.name o ms = 0 := by
        refine cnt_zero _ _ fun M hM hn => ?_
        obtain ⟨ch', f, hf, hr, _⟩ := hform M hM
        rw [hr] at hn
        have := (mixAt_inj hcl hf hm hn).1
        omega
      rw [this]
      simp [upSent]
  have := v l ch mix hm o
  omega

/-- A step of a round object. -/
theorem AcctEq.mixed (hcl : Closed hosts L c.topo) {evs : List Event} {mx mx' : Str → Option Mixer.State} {wt wt' : Str → List Messages}
    {nt nt' : List Messages} {A : Str → List Mixer.Action} (v : AcctEq c r evs mx wt nt A) (e : Event) (he : ∀ n, sentBy r n e = [])
    (h : Str) {m m' : Mixer.State} {b : Mixer.Action} (hm : mx h = some m) (hst : Mixer.step (c.env h r) m b = some m')
    (hm' : mx' h = some m') (hmo : ∀ h', h' ≠ h → mx' h' = mx h') (hwt : (wt h).Perm (callOf b ++ wt' h)) (hwo : ∀ h', h' ≠ h → wt' h' = wt h')
    (hnt : (b ≠ .recv ∧ nt' = nt) ∨ ∃ out q new l ch u m1, m.output = out :: q ∧ b = .recv ∧ nt' = nt ++ new ∧ out.logicalSender = u.name ∧
      c.topo.mixAt l ch = some u ∧ c.topo.mixAt (l + 1) ch = some m1 ∧ (∀ M ∈ new, M.logicalReceiver = m1.name) ∧
      (new.flatMap (·.messages)).Perm out.onions ∧ u.hostname = h) :
    AcctEq c r (evs ++ [e]) mx' wt' nt' (fun h' => if h' = h then A h ++ [b] else A h') := by
  obtain ⟨hout1, hout2⟩ := Mixer.step_output hst
  have hcalls : calls (A h ++ [b]) = calls (A h) ++ callOf b := by simp [calls]
  intro l ch mix hmx o
  have hdw : cnt mix.name o (calls (if mix.hostname = h then A h ++ [b] else A mix.hostname)) + cnt mix.name o (wt' mix.hostname) =
      cnt mix.name o (calls (A mix.hostname)) + cnt mix.name o (wt mix.hostname) := by
    by_cases hh : mix.hostname = h
    · simp only [hh, if_true]
      rw [hcalls, cnt_append, cnt_perm _ _ hwt, cnt_append]; omega
    · simp only [hh, if_false]
      rw [hwo _ hh]
  have hcu : cnt mix.name o nt' + (upChan c mx' ch l).count o + (upSent c r evs mx ch l).count o =
      cnt mix.name o nt + (upChan c mx ch l).count o + (upSent c r (evs ++ [e]) mx' ch l).count o := by
    rcases hnt with ⟨hb, rfl⟩ | ⟨out, q, new, l', ch', u, m1, hq, rfl, rfl, hos, hu, hm1, hnew, hsub, huh⟩
    · obtain ⟨extra, e1, e2, _⟩ := hout1 hb
      cases l with
      | zero => simp only [upSent, upChan, clientOnions_snoc, he, List.append_nil]
      | succ l =>
        simp only [upSent, upChan]
        split
        · next u hu =>
          by_cases hh : u.hostname = h
          · rw [hh, hm, hm']
            simp only [chanOf, sentOf, e1, e2, Mixer.onionsOf_append, List.count_append]; omega
          · rw [hmo _ hh]
        · omega
    · obtain ⟨b', q', hq', rfl⟩ := hout2 rfl
      rw [hq] at hq'; cases hq'
      rw [cnt_append]
      by_cases hmm : mix = m1
      · subst hmm
        obtain ⟨rfl, rfl, _⟩ := mixAt_inj hcl hmx hm1 rfl
        rw [cnt_all _ _ fun M hM => hnew M hM]
        simp only [upSent, upChan, hu, huh, hm, hm', chanOf, sentOf, hq]
        have hs := hsub.count_eq o
        have : onionsOf (out :: q) u.name = out.onions ++ onionsOf q u.name := by simp [onionsOf, hos]
        rw [this, List.count_append]
        omega
      · have hz : cnt mix.name o new = 0 := by
          refine cnt_zero _ _ fun M hM hn => ?_
          rw [hnew M hM] at hn
          exact hmm (mixAt_inj hcl hmx hm1 hn.symm).2.2
        rw [hz]
        cases l with
        | zero => simp only [upSent, upChan, clientOnions_snoc, he, List.append_nil]; omega
        | succ l =>
          simp only [upSent, upChan]
          split
          · next u' hu' =>
            by_cases hh : u'.hostname = h
            · rw [hh, hm, hm']
              have hne : u'.name ≠ out.logicalSender := by
                intro hn
                rw [hos] at hn
                obtain ⟨rfl, rfl, rfl⟩ := mixAt_inj hcl hu' hu hn
                rw [hmx] at hm1
                cases hm1; exact hmm rfl
              have : onionsOf (out :: q) u'.name = onionsOf q u'.name := by
                simp [onionsOf, Ne.symm hne]
              simp only [chanOf, sentOf, hq, this]; try omega
            · rw [hmo _ hh]; omega
          · omega
  have := v l ch mix hmx o
  simp only at hdw ⊢
  omega

theorem AcctEq.opened {evs : List Event} {mx mx' : Str → Option Mixer.State} {wt : Str → List Messages}
    {nt : List Messages} {A : Str → List Mixer.Action} (v : AcctEq c r evs mx wt nt A) (e : Event) (he : ∀ n, sentBy r n e = [])
    (h : Str) {m : Mixer.State} (hn : mx h = none) (hm : mx' h = some m) (hmo : ∀ h', h' ≠ h → mx' h' = mx h')
    (ho : m.output = []) (hse : m.sent = []) : AcctEq c r (evs ++ [e]) mx' wt nt A := by
  intro l ch mix hmx o
  have : upChan c mx' ch l = upChan c mx ch l ∧ upSent c r (evs ++ [e]) mx' ch l = upSent c r evs mx ch l := by
    cases l with
    | zero => simp only [upSent, upChan, clientOnions_snoc, he, List.append_nil]; simp
    | succ l =>
      simp only [upSent, upChan]
      split
      · next u hu =>
        by_cases hh : u.hostname = h
        · rw [hh, hn, hm]; simp [chanOf, sentOf, ho, hse, onionsOf]
        · rw [hmo _ hh]; exact ⟨rfl, rfl⟩
      · exact ⟨rfl, rfl⟩
  rw [this.1, this.2]
  exact v l ch mix hmx o

theorem EInv.mixed {wt wt' : Str → List Messages} {net net' : List Request} {A : Str → List Mixer.Action} (v : EInv c r wt net A) (h : Str)
    {b : Mixer.Action} (hwt : (wt h).Perm (callOf b ++ wt' h)) (hwo : ∀ h', h' ≠ h → wt' h' = wt h') (hb : b ≠ .close)
    (hnet : ∀ rq ∈ net', rq.round = r → ∀ M ∈ rq.messages, Tag c.topo rq.host M) :
    EInv c r wt' net' (fun h' => if h' = h then A h ++ [b] else A h') := by
  have hcalls : calls (A h ++ [b]) = calls (A h) ++ callOf b := by simp [calls]
  refine ⟨?_, ?_, hnet, ?_⟩
  · intro h' M hM
    split at hM
    · next hh =>
      subst hh
      rw [hcalls, List.mem_append] at hM
      rcases hM with hM | hM
      · exact v.tagA _ M hM
      · exact v.tagW _ M (hwt.mem_iff.2 (List.mem_append_left _ hM))
    · exact v.tagA _ M hM
  · intro h' M hM
    by_cases hh : h' = h
    · subst hh; exact v.tagW _ M (hwt.mem_iff.2 (List.mem_append_right _ hM))
    · rw [hwo _ hh] at hM; exact v.tagW _ M hM
  · intro h' hc
    split at hc
    · rcases List.mem_append.1 hc with hc | hc
      · exact v.close _ hc
      · exact hb (List.mem_singleton.1 hc).symm
    · exact v.close _ hc

theorem EInv.move {wt wt' : Str → List Messages} {net net' : List Request} {A : Str → List Mixer.Action} (v : EInv c r wt net A) (h : Str)
    (ms : List Messages) (hwt : wt' h = wt h ∨ wt' h = wt h ++ ms) (hwo : ∀ h', h' ≠ h → wt' h' = wt h') (ht : ∀ M ∈ ms, Tag c.topo h M)
    (hnet : ∀ rq ∈ net', rq ∈ net) : EInv c r wt' net' A := by
  refine ⟨v.tagA, ?_, fun rq hrq => v.tagN rq (hnet rq hrq), v.close⟩
  intro h' M hM
  by_cases hh : h' = h
  · subst hh
    rcases hwt with hw | hw <;> rw [hw] at hM
    · exact v.tagW _ M hM
    · rcases List.mem_append.1 hM with hM | hM
      · exact v.tagW _ M hM
      · exact ht M hM
  · rw [hwo _ hh] at hM; exact v.tagW _ M hM

theorem Orderly.tag {t : Topology} {evs : List Event} (ho : Orderly t r evs) {h : Str} {ms : List Messages} (he : .client h (.addMessages r ms) ∈ evs) :
    ∀ M ∈ ms, Tag t h M := by
  intro M hM
  obtain ⟨ch, f, hf, hr, hh, h1, h2⟩ := ho.form h ms he M hM
  exact ⟨0, ch, f, hf, hr, hh, by rw [h1, h2]; rfl⟩

theorem Orderly.prefix_ {t : Topology} {evs : List Event} {e : Event} (h : Orderly t r (evs ++ [e])) : Orderly t r evs :=
  ⟨fun h' hm => h.noEnd h' (List.mem_append_left _ hm), fun h' ms hm => h.form h' ms (List.mem_append_left _ hm)⟩

/-- A complete batch puts all its onions into the network. -/
theorem full_of_batch {s : MessageSender} {out : MixOutput} {rqs : List Request} (h : SendBatch s out (.ok rqs)) {first : List LogicalMix}
    (hf : s.topo.layers[0]? = some first) (hne : first ≠ []) {m1 : LogicalMix} (hw : ∀ o ∈ out.onions, Addresses s.topo o m1)
    (hc : m1.hostname ∈ s.connections) : ((rqs.flatMap (·.messages)).flatMap (·.messages)).Perm out.onions := by
  obtain ⟨rqs', h1, h2, _⟩ := C23_each_onion_once s out first hf hne (fun o ho => ⟨m1, hw o ho, hc⟩) _ h
  cases h1
  rw [List.flatMap_assoc]
  exact h2

/-- With a connection to the next mix's host the sender does not panic. -/
theorem no_panic {s : MessageSender} {out : MixOutput} {rqs : List Request} (h : SendPanics s out rqs) {first : List LogicalMix}
    (hf : s.topo.layers[0]? = some first) (hne : first ≠ []) {m1 : LogicalMix} (hw : ∀ o ∈ out.onions, Addresses s.topo o m1)
    (hc : m1.hostname ∈ s.connections) : False := by
  have key : ∀ e, ¬ SendBatch s out (.error e) := by
    intro e he
    obtain ⟨_, h1, _⟩ := C23_each_onion_once s out first hf hne (fun o ho => ⟨m1, hw o ho, hc⟩) _ he
    cases h1
  unfold SendPanics at h
  split at h
  · next e hg => exact key e (by unfold SendBatch; rw [hg])
  · next g hg =>
    obtain ⟨order, p, q, e, ho, _, _, hs⟩ := h
    exact key e (by unfold SendBatch; rw [hg]; exact ⟨order, ho, hs⟩)

end Resmix.System
