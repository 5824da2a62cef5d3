import Verif.Proofs.System
set_option autoImplicit false
/-
The accounting invariant is kept by every step (C64).
-/
namespace Resmix.System
open Resmix.Mixer (Messages MixOutput callOf onionsFor onionsOf resultOf workloadOf)
open Resmix.Onion (Addresses Peels)
open Resmix.Topology (Closed)
open Resmix.Sender (Request)

variable {c : Config} {r : Nat} {subs : List Submission} {hosts : List Str} {L : Nat}

theorem X_peels (ho : Opens c r L subs) (ch l : Nat) (hl : l ≤ L) :
    List.Forall₂ (fun o x => Peels c.topo (fun h o => (c.env h r).decrypt o) L ch x.msg l o) (X c r subs ch l) (onChain subs ch) := by
  induction l with
  | zero =>
    rw [X, List.forall₂_map_left_iff, List.forall₂_same]
    intro x hx
    simp only [onChain, List.mem_filter, decide_eq_true_eq] at hx
    rw [← hx.2]
    exact ho x hx.1
  | succ l ih =>
    have ih := ih (by omega)
    rw [X]
    split
    · next m hm =>
      rw [List.forall₂_map_left_iff]
      refine ih.imp ?_
      intro o x hp
      cases hp with
      | done => omega
      | layer h1 h2 h3 h4 h5 =>
        rw [hm] at h2; cases h2
        unfold resultOf
        rw [h4]; exact h5
    · next hm =>
      refine ih.imp ?_
      intro o x hp
      cases hp with
      | done => omega
      | layer h1 h2 h3 h4 h5 => rw [hm] at h2; cases h2

theorem X_addresses (ho : Opens c r L subs) {ch l : Nat} {m : LogicalMix} (hl : l < L) (hm : c.topo.mixAt l ch = some m) {o : Bytes}
    (h : o ∈ X c r subs ch l) : Addresses c.topo o m := by
  have := X_peels ho ch l (by omega)
  obtain ⟨x, hx⟩ : ∃ x, Peels c.topo (fun h o => (c.env h r).decrypt o) L ch x l o := by
    obtain ⟨i, hi⟩ := List.getElem?_of_mem h
    have hlt := List.getElem?_eq_some_iff.1 hi
    obtain ⟨hlt1, hlt2⟩ := hlt
    have hlt' : i < (onChain subs ch).length := by rw [← this.length_eq]; exact hlt1
    have hx := List.Forall₂.get this hlt1 hlt'
    simp only [List.get_eq_getElem, hlt2] at hx
    exact ⟨_, hx⟩
  cases hx with
  | done => omega
  | layer h1 h2 h3 h4 h5 => rw [hm] at h2; cases h2; exact h3

theorem X_last (ho : Opens c r L subs) (ch : Nat) : X c r subs ch L = (onChain subs ch).map (·.msg) := by
  have := X_peels ho ch L (le_refl _)
  rw [← List.forall₂_eq_eq_eq, List.forall₂_map_right_iff]
  refine this.imp ?_
  intro o x hp
  cases hp with
  | done => rfl
  | layer h1 => omega

theorem clientOnions_snoc (evs : List Event) (e : Event) (n : Str) : clientOnions (evs ++ [e]) r n = clientOnions evs r n ++ sentBy r n e := by
  simp [clientOnions]

/-- How the invariant is transferred. -/
theorem VInv.step (hcl : Closed hosts L c.topo) {evs evs' : List Event} {mx mx' : Str → Option Mixer.State} {wt wt' : Str → List Messages}
    {nt nt' : List Messages} {A A' : Str → List Mixer.Action} (v : VInv c r subs evs mx wt nt A)
    (hnone : ∀ h, mx' h = none → A' h = []) (hmix : ∀ h m, mx' h = some m → MixerOk c r subs h m (A' h))
    (hne : ∀ l ch mix, c.topo.mixAt l ch = some mix → onChain subs ch ≠ [] →
      (∀ h, ∀ M ∈ calls (A' h), M.logicalReceiver = mix.name → M.messages ≠ []) ∧
      (∀ h, ∀ M ∈ wt' h, M.logicalReceiver = mix.name → M.messages ≠ []) ∧
      (∀ M ∈ nt', M.logicalReceiver = mix.name → M.messages ≠ []))
    (hdiff : ∀ l ch mix, c.topo.mixAt l ch = some mix → ∀ o,
      cnt mix.name o (calls (A' mix.hostname)) + cnt mix.name o (wt' mix.hostname) + cnt mix.name o nt' + (upChan c mx' ch l).count o +
        (upSent c r evs mx ch l).count o ≤
      cnt mix.name o (calls (A mix.hostname)) + cnt mix.name o (wt mix.hostname) + cnt mix.name o nt + (upChan c mx ch l).count o +
        (upSent c r evs' mx' ch l).count o)
    (hcrash : ∀ h m, mx' h = some m → m.crashed = true → ∃ m0, mx h = some m0 ∧ m.sent = m0.sent)
    (hcl0 : ∀ ch first, c.topo.mixAt 0 ch = some first → (clientOnions evs' r first.name).Subperm ((onChain subs ch).map (·.onion))) :
    VInv c r subs evs' mx' wt' nt' A' := by
  have hacct : ∀ l ch mix, c.topo.mixAt l ch = some mix → ∀ o,
      cnt mix.name o (calls (A' mix.hostname)) + cnt mix.name o (wt' mix.hostname) + cnt mix.name o nt' + (upChan c mx' ch l).count o ≤
        (upSent c r evs' mx' ch l).count o := by
    intro l ch mix hm o
    have h1 := hdiff l ch mix hm o
    have h2 := v.acct l ch mix hm o
    omega
  exact ⟨hnone, hmix, hne, hacct, bnd_of hcl hmix (fun l ch mix hm he => (hne l ch mix hm he).1) hacct hcrash v.bnd hcl0⟩

/-- An event that adds no client onions and touches no round object: batches may move from the network (`ms`) into a waiting list, or
get lost. -/
theorem VInv.move (hcl : Closed hosts L c.topo) {evs : List Event} {mx : Str → Option Mixer.State} {wt wt' : Str → List Messages}
    {nt nt' : List Messages} {A : Str → List Mixer.Action} (v : VInv c r subs evs mx wt nt A) (e : Event) (he : ∀ n, sentBy r n e = [])
    (ms : List Messages) (hnt : nt.Perm (ms ++ nt')) (h : Str) (hwt : wt' h = wt h ∨ wt' h = wt h ++ ms) (hwo : ∀ h', h' ≠ h → wt' h' = wt h')
    (hcr : ∀ h m, mx h = some m → m.crashed = true → ∃ m0, mx h = some m0 ∧ m.sent = m0.sent := fun _ m h _ => ⟨m, h, rfl⟩)
    (hcl0 : ∀ ch first, c.topo.mixAt 0 ch = some first → (clientOnions (evs ++ [e]) r first.name).Subperm ((onChain subs ch).map (·.onion))) :
    VInv c r subs (evs ++ [e]) mx wt' nt' A := by
  have hup : ∀ ch l, upSent c r (evs ++ [e]) mx ch l = upSent c r evs mx ch l := by
    intro ch l
    cases l with
    | zero => simp only [upSent, clientOnions_snoc, he, List.append_nil]
    | succ l => rfl
  refine v.step hcl v.none_ v.mixer ?_ ?_ hcr hcl0
  · intro l ch mix hm hs
    obtain ⟨h1, h2, h3⟩ := v.ne l ch mix hm hs
    refine ⟨h1, ?_, fun M hM => h3 M (hnt.mem_iff.2 (List.mem_append_right _ hM))⟩
    intro h' M hM
    by_cases hh : h' = h
    · subst hh
      rcases hwt with hw | hw
      · rw [hw] at hM; exact h2 _ M hM
      · rw [hw, List.mem_append] at hM
        rcases hM with hM | hM
        · exact h2 _ M hM
        · exact h3 M (hnt.mem_iff.2 (List.mem_append_left _ hM))
    · rw [hwo h' hh] at hM; exact h2 _ M hM
  · intro l ch mix hm o
    rw [hup]
    have h1 := cnt_perm mix.name o hnt
    rw [cnt_append] at h1
    by_cases hh : mix.hostname = h
    · rw [hh]
      rcases hwt with hw | hw
      · rw [hw]; omega
      · rw [hw, cnt_append]; omega
    · rw [hwo _ hh]; omega

/-- A client's AddMessages for this round. -/
theorem VInv.client (hcl : Closed hosts L c.topo) {evs : List Event} {mx : Str → Option Mixer.State} {wt wt' : Str → List Messages}
    {nt : List Messages} {A : Str → List Mixer.Action} (v : VInv c r subs evs mx wt nt A) (h : Str) (ms : List Messages)
    (hwt : wt' h = wt h ∨ wt' h = wt h ++ ms) (hwo : ∀ h', h' ≠ h → wt' h' = wt h')
    (hc : Clients c.topo subs r (evs ++ [.client h (.addMessages r ms)])) :
    VInv c r subs (evs ++ [.client h (.addMessages r ms)]) mx wt' nt A := by
  have hfirst := hc.first h ms (by simp)
  refine v.step hcl v.none_ v.mixer ?_ ?_ (fun _ m h _ => ⟨m, h, rfl⟩) hc.onions
  · intro l ch mix hm hs
    obtain ⟨h1, h2, h3⟩ := v.ne l ch mix hm hs
    refine ⟨h1, ?_, h3⟩
    intro h' M hM
    by_cases hh : h' = h
    · subst hh
      rcases hwt with hw | hw
      · rw [hw] at hM; exact h2 _ M hM
      · rw [hw, List.mem_append] at hM
        rcases hM with hM | hM
        · exact h2 _ M hM
        · intro hn hempty
          obtain ⟨ch', f, hf, hr, he⟩ := hfirst M hM
          rw [hr] at hn
          obtain ⟨_, rfl, _⟩ := mixAt_inj hcl hf hm hn
          exact hs (he hempty)
    · rw [hwo h' hh] at hM; exact h2 _ M hM
  · intro l ch mix hm o
    have hin : cnt mix.name o (wt' mix.hostname) ≤ cnt mix.name o (wt mix.hostname) + cnt mix.name o ms := by
      by_cases hh : mix.hostname = h
      · rw [hh]
        rcases hwt with hw | hw
        · rw [hw]; omega
        · rw [hw, cnt_append]
      · rw [hwo _ hh]; omega
    have hup : cnt mix.name o ms + (upSent c r evs mx ch l).count o ≤ (upSent c r (evs ++ [.client h (.addMessages r ms)]) mx ch l).count o := by
      cases l with
      | zero =>
        simp only [upSent, hm, clientOnions_snoc, sentBy, if_true, List.count_append]
        show cnt mix.name o ms + _ ≤ _ + cnt mix.name o ms
        omega
      | succ l =>
        have : cnt mix.name o ms = 0 := by
          refine cnt_zero _ _ fun M hM hn => ?_
          obtain ⟨ch', f, hf, hr, _⟩ := hfirst M hM
          rw [hr] at hn
          have := (mixAt_inj hcl hf hm hn).1
          omega
        rw [this]
        simp [upSent]
    omega

/-- A step of a round object other than the sender's. -/
theorem VInv.mixed (hcl : Closed hosts L c.topo) {evs : List Event} {mx mx' : Str → Option Mixer.State} {wt wt' : Str → List Messages}
    {nt nt' : List Messages} {A : Str → List Mixer.Action} (v : VInv c r subs evs mx wt nt A) (e : Event) (he : ∀ n, sentBy r n e = [])
    (h : Str) {m m' : Mixer.State} {b : Mixer.Action} (hm : mx h = some m) (hst : Mixer.step (c.env h r) m b = some m')
    (hm' : mx' h = some m') (hmo : ∀ h', h' ≠ h → mx' h' = mx h') (hwt : (wt h).Perm (callOf b ++ wt' h)) (hwo : ∀ h', h' ≠ h → wt' h' = wt h')
    (hnt : (b ≠ .recv ∧ nt' = nt) ∨ ∃ out q new l ch u m1, m.output = out :: q ∧ b = .recv ∧ nt' = nt ++ new ∧ out.logicalSender = u.name ∧
      c.topo.mixAt l ch = some u ∧ c.topo.mixAt (l + 1) ch = some m1 ∧ (∀ M ∈ new, M.logicalReceiver = m1.name ∧ M.messages ≠ []) ∧
      (new.flatMap (·.messages)).Subperm out.onions ∧ u.hostname = h)
    (hcl0 : ∀ ch first, c.topo.mixAt 0 ch = some first → (clientOnions (evs ++ [e]) r first.name).Subperm ((onChain subs ch).map (·.onion))) :
    VInv c r subs (evs ++ [e]) mx' wt' nt' (fun h' => if h' = h then A h ++ [b] else A h') := by
  obtain ⟨hout1, hout2⟩ := Mixer.step_output hst
  have hcalls : calls (A h ++ [b]) = calls (A h) ++ callOf b := by simp [calls]
  have hsent : m'.crashed = true → m'.sent = m.sent := by
    intro hc
    by_cases hb : b = .recv
    · obtain ⟨_, _, _, rfl⟩ := hout2 hb; rfl
    · obtain ⟨extra, _, h2, h3⟩ := hout1 hb
      rw [h2, h3 hc, List.append_nil]
  refine v.step hcl ?_ ?_ ?_ ?_ ?_ hcl0
  · intro h' hn
    split
    · next hh => subst hh; rw [hm'] at hn; cases hn
    · next hh => rw [hmo h' hh] at hn; exact v.none_ h' hn
  · intro h' m'' hs
    split
    · next hh =>
      subst hh
      rw [hm'] at hs; cases hs
      obtain ⟨w, order, m0, h1, h2, h3, h4⟩ := v.mixer h' m hm
      refine ⟨w, order, m0, h1, h2, ?_, h4⟩
      rw [Mixer.exec_append, h3]
      simp [Mixer.exec, hst]
    · next hh => rw [hmo h' hh] at hs; exact v.mixer h' m'' hs
  · intro l ch mix hmx hs
    obtain ⟨h1, h2, h3⟩ := v.ne l ch mix hmx hs
    refine ⟨?_, ?_, ?_⟩
    · intro h' M hM
      split at hM
      · rw [hcalls, List.mem_append] at hM
        rcases hM with hM | hM
        · exact h1 _ M hM
        · exact h2 h M (hwt.mem_iff.2 (List.mem_append_left _ hM))
      · exact h1 _ M hM
    · intro h' M hM
      by_cases hh : h' = h
      · subst hh; exact h2 _ M (hwt.mem_iff.2 (List.mem_append_right _ hM))
      · rw [hwo h' hh] at hM; exact h2 _ M hM
    · intro M hM
      rcases hnt with ⟨_, rfl⟩ | ⟨out, q, new, l', ch', u, m1, _, _, rfl, _, _, _, hnew, _⟩
      · exact h3 M hM
      · rcases List.mem_append.1 hM with hM | hM
        · exact h3 M hM
        · exact fun _ => (hnew M hM).2
  · intro l ch mix hmx o
    have hdw : cnt mix.name o (calls (if mix.hostname = h then A h ++ [b] else A mix.hostname)) + cnt mix.name o (wt' mix.hostname) =
        cnt mix.name o (calls (A mix.hostname)) + cnt mix.name o (wt mix.hostname) := by
      by_cases hh : mix.hostname = h
      · simp only [hh, if_true]
        rw [hcalls, cnt_append, cnt_perm _ _ hwt, cnt_append]; omega
      · simp only [hh, if_false]
        rw [hwo _ hh]
    have hcu : cnt mix.name o nt' + (upChan c mx' ch l).count o + (upSent c r evs mx ch l).count o ≤
        cnt mix.name o nt + (upChan c mx ch l).count o + (upSent c r (evs ++ [e]) mx' ch l).count o := by
      rcases hnt with ⟨hb, rfl⟩ | ⟨out, q, new, l', ch', u, m1, hq, rfl, rfl, hos, hu, hm1, hnew, hsub, huh⟩
      · obtain ⟨extra, e1, e2, _⟩ := hout1 hb
        cases l with
        | zero => simp only [upSent, upChan, clientOnions_snoc, he, List.append_nil]; omega
        | succ l =>
          simp only [upSent, upChan]
          split
          · next u hu =>
            by_cases hh : u.hostname = h
            · rw [hh, hm, hm']
              simp only [chanOf, sentOf, e1, e2, Mixer.onionsOf_append, List.count_append]; omega
            · rw [hmo _ hh]
          · omega
      · obtain ⟨b', q', hq', rfl⟩ := hout2 rfl
        rw [hq] at hq'; cases hq'
        rw [cnt_append]
        by_cases hmm : mix = m1
        · subst hmm
          obtain ⟨rfl, rfl, _⟩ := mixAt_inj hcl hmx hm1 rfl
          rw [cnt_all _ _ fun M hM => (hnew M hM).1]
          simp only [upSent, upChan, hu, huh, hm, hm', chanOf, sentOf, hq]
          have hs := hsub.count_le o
          have : onionsOf (out :: q) u.name = out.onions ++ onionsOf q u.name := by simp [onionsOf, hos]
          rw [this, List.count_append]
          omega
        · have hz : cnt mix.name o new = 0 := by
            refine cnt_zero _ _ fun M hM hn => ?_
            rw [(hnew M hM).1] at hn
            exact hmm (mixAt_inj hcl hmx hm1 hn.symm).2.2
          rw [hz]
          cases l with
          | zero => simp only [upSent, upChan, clientOnions_snoc, he, List.append_nil]; omega
          | succ l =>
            simp only [upSent, upChan]
            split
            · next u' hu' =>
              by_cases hh : u'.hostname = h
              · rw [hh, hm, hm']
                have hne : u'.name ≠ out.logicalSender := by
                  intro hn
                  rw [hos] at hn
                  obtain ⟨rfl, rfl, rfl⟩ := mixAt_inj hcl hu' hu hn
                  rw [hmx] at hm1
                  cases hm1; exact hmm rfl
                have : onionsOf (out :: q) u'.name = onionsOf q u'.name := by
                  simp [onionsOf, Ne.symm hne]
                simp only [chanOf, sentOf, hq, this]; try omega
              · rw [hmo _ hh]; omega
            · omega
    omega
  · intro h' m'' hs hc
    by_cases hh : h' = h
    · subst hh
      rw [hm'] at hs; cases hs
      exact ⟨m, hm, hsent hc⟩
    · rw [hmo h' hh] at hs; exact ⟨m'', hs, rfl⟩

/-- A server opens the round. -/
theorem VInv.opened (hcl : Closed hosts L c.topo) {evs : List Event} {mx mx' : Str → Option Mixer.State} {wt : Str → List Messages}
    {nt : List Messages} {A : Str → List Mixer.Action} (v : VInv c r subs evs mx wt nt A) (e : Event) (he : ∀ n, sentBy r n e = [])
    (h : Str) {m : Mixer.State} (hn : mx h = none) (hm : mx' h = some m) (hmo : ∀ h', h' ≠ h → mx' h' = mx h') (hok : MixerOk c r subs h m [])
    (hcr : m.crashed = false) (ho : m.output = []) (hse : m.sent = [])
    (hcl0 : ∀ ch first, c.topo.mixAt 0 ch = some first → (clientOnions (evs ++ [e]) r first.name).Subperm ((onChain subs ch).map (·.onion))) :
    VInv c r subs (evs ++ [e]) mx' wt nt A := by
  refine v.step hcl ?_ ?_ v.ne ?_ ?_ hcl0
  · intro h' hn'
    by_cases hh : h' = h
    · subst hh; rw [hm] at hn'; cases hn'
    · rw [hmo h' hh] at hn'; exact v.none_ h' hn'
  · intro h' m' hm'
    by_cases hh : h' = h
    · subst hh; rw [hm] at hm'; cases hm'; rw [v.none_ _ hn]; exact hok
    · rw [hmo h' hh] at hm'; exact v.mixer h' m' hm'
  · intro l ch mix hmx o
    have : upChan c mx' ch l = upChan c mx ch l ∧ upSent c r (evs ++ [e]) mx' ch l = upSent c r evs mx ch l := by
      cases l with
      | zero => simp only [upSent, upChan, clientOnions_snoc, he, List.append_nil]; simp
      | succ l =>
        simp only [upSent, upChan]
        split
        · next u hu =>
          by_cases hh : u.hostname = h
          · rw [hh, hn, hm]; simp [chanOf, sentOf, ho, hse, onionsOf]
          · rw [hmo _ hh]; exact ⟨rfl, rfl⟩
        · exact ⟨rfl, rfl⟩
    rw [this.1, this.2]
  · intro h' m' hm' hc
    by_cases hh : h' = h
    · subst hh; rw [hm] at hm'; cases hm'; rw [hcr] at hc; cases hc
    · rw [hmo h' hh] at hm'; exact ⟨m', hm', rfl⟩

end Resmix.System
