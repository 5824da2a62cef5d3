import Verif.Proofs.HideE
set_option autoImplicit false
/-
Anonymity in the whole system: two submissions exchanged.
-/
namespace Resmix.System
open Resmix.Mixer (opened resultOf)
open Resmix.Onion (Addresses Peels)
open Resmix.Topology (Closed)

variable {r : Nat} {c : Config} {subs : List Submission} {hosts : List Str} {L : Nat}

/-- A submission's onion before layer `k`. -/
abbrev at_ (c : Config) (r : Nat) (k : Nat) (z : Submission) : Bytes := before c r z.chain k z.onion

theorem X_before (ch l : Nat) : X c r subs ch l = (onChain subs ch).map (at_ c r l) := by
  have h : X c r subs ch l = (onChain subs ch).map fun z => before c r ch l z.onion := by
    induction l with
    | zero => rfl
    | succ l ih =>
      rw [X]
      simp only [before]
      cases c.topo.mixAt l ch with
      | none => exact ih
      | some m => simp only [ih, List.map_map]; rfl
  rw [h]
  refine List.map_congr_left fun z hz => ?_
  simp only [onChain, List.mem_filter, decide_eq_true_eq] at hz
  rw [← hz.2]

theorem peels_step {t : Topology} {op : Str → Bytes → Go Bytes} {ch k : Nat} {msg o : Bytes} (h : Peels t op L ch msg k o) (hk : k < L) :
    ∃ m o', t.mixAt k ch = some m ∧ Addresses t o m ∧ op m.hostname o = .ok o' ∧ Peels t op L ch msg (k + 1) o' := by
  cases h with
  | done => omega
  | layer h1 h2 h3 h4 h5 => exact ⟨_, _, h2, h3, h4, h5⟩

theorem at_peels (hop : Opens c r L subs) {z : Submission} (hz : z ∈ subs) {k : Nat} (hk : k ≤ L) :
    Peels c.topo (fun host o => (c.env host r).decrypt o) L z.chain z.msg k (at_ c r k z) := by
  induction k with
  | zero => exact hop z hz
  | succ k ih =>
    obtain ⟨m, o', h2, h3, h4, h5⟩ := peels_step (ih (by omega)) (by omega)
    have : at_ c r (k + 1) z = o' := by
      show before c r z.chain (k + 1) z.onion = _
      simp only [before, h2, opened, h4]
    rw [this]; exact h5

theorem at_step (hop : Opens c r L subs) {z : Submission} (hz : z ∈ subs) {k : Nat} (hk : k < L) :
    ∃ m, c.topo.mixAt k z.chain = some m ∧ Addresses c.topo (at_ c r k z) m ∧ (c.env m.hostname r).decrypt (at_ c r k z) = .ok (at_ c r (k + 1) z) := by
  obtain ⟨m, o', h2, h3, h4, h5⟩ := peels_step (at_peels hop hz (show k ≤ L by omega)) hk
  refine ⟨m, h2, h3, ?_⟩
  have : at_ c r (k + 1) z = o' := by
    show before c r z.chain (k + 1) z.onion = _
    simp only [before, h2, opened, h4]
  rw [this]; exact h4

theorem at_last (hop : Opens c r L subs) {z : Submission} (hz : z ∈ subs) : at_ c r L z = z.msg := by
  have h := at_peels hop hz (le_refl L)
  generalize at_ c r L z = o at h
  cases h with
  | done => rfl
  | layer h1 => omega

section
variable {h : Str} {x y : Submission} {l : Nat} {mix : LogicalMix}

/-- What the key of the other configuration does with the onions of the round. -/
theorem exchange_decrypt (hop : Opens c r L subs) (hd : Distinct c r L h subs) (hx : x ∈ subs) (hy : y ∈ subs) (hxy : x.chain = y.chain)
    (hm : c.topo.mixAt l x.chain = some mix) (hh : mix.hostname = h) (hl : l < L) {z : Submission} (hz : z ∈ subs) {k : Nat} (hk : k < L)
    {m : LogicalMix} (hmz : c.topo.mixAt k z.chain = some m) :
    ((c.exchange h r (at_ c r l x) (at_ c r l y)).env m.hostname r).decrypt (at_ c r k z) =
      (c.env m.hostname r).decrypt (at_ c r k (if m.hostname = h ∧ k = l then Equiv.swap x y z else z)) := by
  unfold Config.exchange
  by_cases hmh : m.hostname = h
  · simp only [hmh, true_and, and_self, if_true]
    congr 1
    have hmy : c.topo.mixAt l y.chain = some mix := by rw [← hxy]; exact hm
    have hdx : at_ c r k z = at_ c r l x → z = x ∧ k = l := fun he => hd.2 z hz x hx k l m mix hk hl hmz hm hmh hh he
    have hdy : at_ c r k z = at_ c r l y → z = y ∧ k = l := fun he => hd.2 z hz y hy k l m mix hk hl hmz hmy hmh hh he
    by_cases h1 : at_ c r k z = at_ c r l x
    · obtain ⟨rfl, rfl⟩ := hdx h1
      simp
    · rw [if_neg h1]
      by_cases h2 : at_ c r k z = at_ c r l y
      · obtain ⟨rfl, rfl⟩ := hdy h2
        simp
      · rw [if_neg h2]
        split
        · next hkl =>
          subst hkl
          rw [Equiv.swap_apply_of_ne_of_ne]
          · rintro rfl; exact h1 rfl
          · rintro rfl; exact h2 rfl
        · rfl
  · simp [hmh]

theorem exchange_rekeyed (a b : Bytes) : Rekeyed (· = h) r c (c.exchange h r a b) := by
  refine ⟨rfl, rfl, fun h' r' hn => ?_, fun h' => ?_, fun h' => ?_, fun h' => ?_⟩
  · simp only [Config.exchange]; rw [if_neg hn]
  all_goals
    simp only [Config.exchange]
    by_cases hh : h' = h
    · subst hh; simp
    · simp [hh]

/-- The new key keeps the contents of every mix up to their order. -/
theorem exchange_keyOk (hcl : Closed hosts L c.topo) (hop : Opens c r L subs) (hd : Distinct c r L h subs) (hx : x ∈ subs) (hy : y ∈ subs) (hxy : x.chain = y.chain)
    (hm : c.topo.mixAt l x.chain = some mix) (hh : mix.hostname = h) (hl : l < L) (hsz : ∀ ch, (onChain subs ch).length ≤ 2 ^ 32) :
    KeyOk (· = h) r c (c.exchange h r (at_ c r l x) (at_ c r l y)) subs := by
  intro k ch m hmk hmh
  have hk : k < L := (mixAt_layer hcl hmk).2.1
  have hin : ∀ z ∈ onChain subs ch, z ∈ subs ∧ z.chain = ch := by
    intro z hz
    simpa [onChain] using hz
  have hdec : ∀ z ∈ onChain subs ch, ((c.exchange h r (at_ c r l x) (at_ c r l y)).env m.hostname r).decrypt (at_ c r k z) =
      (c.env m.hostname r).decrypt (at_ c r k (if k = l then Equiv.swap x y z else z)) := by
    intro z hz
    obtain ⟨h1, h2⟩ := hin z hz
    have := exchange_decrypt hop hd hx hy hxy hm hh hl h1 hk (m := m) (by rw [h2]; exact hmk)
    rw [this]
    have hmh' : m.hostname = h := hmh
    simp only [hmh', true_and]
  have hsw : ∀ z, z ∈ onChain subs ch ↔ Equiv.swap x y z ∈ onChain subs ch := by
    intro z
    by_cases hzx : z = x
    · subst hzx; simp [onChain, hx, hy, hxy]
    · by_cases hzy : z = y
      · subst hzy; simp [onChain, hx, hy, hxy]
      · rw [Equiv.swap_apply_of_ne_of_ne hzx hzy]
  rw [X_before]
  refine ⟨?_, ?_, hsz ch⟩
  · intro o ho
    obtain ⟨z, hz, rfl⟩ := List.mem_map.1 ho
    rw [hdec z hz]
    have hne : ∀ z ∈ onChain subs ch, (c.env m.hostname r).decrypt (at_ c r k z) ≠ .error .panic := by
      intro z hz
      obtain ⟨h1, h2⟩ := hin z hz
      obtain ⟨m', h3, _, h5⟩ := at_step hop h1 hk
      rw [h2, hmk] at h3
      cases h3
      rw [h5]; simp
    have h1 := hne z hz
    have h2 : (if k = l then Equiv.swap x y z else z) ∈ onChain subs ch := by
      split
      · exact (hsw z).1 hz
      · exact hz
    exact ⟨fun e => absurd e (hne _ h2), fun e => absurd e h1⟩
  · rw [List.map_map, List.map_map]
    have e1 : (onChain subs ch).map (opened ((c.exchange h r (at_ c r l x) (at_ c r l y)).env m.hostname r) ∘ at_ c r k) =
        ((onChain subs ch).map fun z => if k = l then Equiv.swap x y z else z).map (opened (c.env m.hostname r) ∘ at_ c r k) := by
      rw [List.map_map]
      refine List.map_congr_left fun z hz => ?_
      simp only [Function.comp, opened]
      rw [hdec z hz]
    rw [e1]
    refine List.Perm.map _ ?_
    split
    · have hnd : (onChain subs ch).Nodup := hd.1.filter _
      rw [List.perm_ext_iff_of_nodup (hnd.map (Equiv.injective _)) hnd]
      intro z
      rw [List.mem_map]
      constructor
      · rintro ⟨w, hw, rfl⟩; exact (hsw w).1 hw
      · intro hz
        exact ⟨Equiv.swap x y z, (hsw z).1 hz, by simp⟩
    · simp

/-- The onions of the round open along their chains in the other configuration, to the exchanged messages. -/
theorem exchange_opens (hop : Opens c r L subs) (hd : Distinct c r L h subs) (hx : x ∈ subs) (hy : y ∈ subs) (hxy : x.chain = y.chain)
    (hm : c.topo.mixAt l x.chain = some mix) (hh : mix.hostname = h) (hl : l < L) :
    Opens (c.exchange h r (at_ c r l x) (at_ c r l y)) r L (exchanged x y subs) := by
  have hdec := fun {z : Submission} (hz : z ∈ subs) {k : Nat} (hk : k < L) {m : LogicalMix} (hmz : c.topo.mixAt k z.chain = some m) =>
    exchange_decrypt hop hd hx hy hxy hm hh hl hz hk hmz
  generalize hc' : c.exchange h r (at_ c r l x) (at_ c r l y) = c' at hdec
  have htopo : c'.topo = c.topo := by rw [← hc']; rfl
  -- paths the exchange does not touch any more
  have htail : ∀ n z, z ∈ subs → ∀ k, k ≤ L → L - k = n → (l < k ∨ (z ≠ x ∧ z ≠ y)) →
      Peels c'.topo (fun host o => (c'.env host r).decrypt o) L z.chain z.msg k (at_ c r k z) := by
    intro n
    induction n with
    | zero =>
      intro z hz k hk hn _
      have : k = L := by omega
      subst this
      rw [at_last hop hz]; exact .done
    | succ n ih =>
      intro z hz k hk hn hor
      obtain ⟨m, h1, h2, h3⟩ := at_step hop hz (show k < L by omega)
      refine .layer (by omega) (by rw [htopo]; exact h1) (by rw [htopo]; exact h2) ?_ (ih z hz (k + 1) (by omega) (by omega) (by
        rcases hor with h | h
        · exact .inl (by omega)
        · exact .inr h))
      show (c'.env m.hostname r).decrypt (at_ c r k z) = _
      rw [hdec hz (by omega) h1]
      split
      · next hc =>
        rcases hor with ho | ⟨ho1, ho2⟩
        · omega
        · rw [Equiv.swap_apply_of_ne_of_ne ho1 ho2]; exact h3
      · exact h3
  -- the two exchanged paths
  have hhead : ∀ u v : Submission, u ∈ subs → v ∈ subs → u.chain = v.chain → Equiv.swap x y u = v → c.topo.mixAt l u.chain = some mix →
      ∀ n k, k ≤ l → l - k = n → Peels c'.topo (fun host o => (c'.env host r).decrypt o) L u.chain v.msg k (at_ c r k u) := by
    intro u v hu hv huv hsw hmu n
    induction n with
    | zero =>
      intro k hk hn
      have : k = l := by omega
      subst this
      obtain ⟨m, h1, h2, h3⟩ := at_step hop hu hl
      obtain ⟨m', h1', h2', h3'⟩ := at_step hop hv hl
      rw [hmu] at h1
      rw [← huv, hmu] at h1'
      cases h1
      cases h1'
      refine .layer hl (by rw [htopo]; exact hmu) (by rw [htopo]; exact h2) ?_ (huv ▸ htail _ v hv (k + 1) (by omega) rfl (.inl (by omega)))
      show (c'.env mix.hostname r).decrypt (at_ c r k u) = _
      rw [hdec hu hl hmu, if_pos ⟨hh, rfl⟩, hsw]
      exact h3'
    | succ n ih =>
      intro k hk hn
      obtain ⟨m, h1, h2, h3⟩ := at_step hop hu (show k < L by omega)
      refine .layer (by omega) (by rw [htopo]; exact h1) (by rw [htopo]; exact h2) ?_ (ih (k + 1) (by omega) (by omega))
      show (c'.env m.hostname r).decrypt (at_ c r k u) = _
      rw [hdec hu (by omega) h1, if_neg (by omega)]
      exact h3
  intro z' hz'
  obtain ⟨z, hz, rfl⟩ := List.mem_map.1 hz'
  by_cases hzx : z = x
  · subst hzx
    rw [if_pos rfl]
    exact hhead z y hx hy hxy (by simp) hm _ 0 (by omega) rfl
  · rw [if_neg hzx]
    by_cases hzy : z = y
    · subst hzy
      rw [if_pos rfl]
      exact hhead z x hy hx hxy.symm (by simp) (by rw [← hxy]; exact hm) _ 0 (by omega) rfl
    · rw [if_neg hzy]
      exact htail _ z hz 0 (by omega) rfl (.inr ⟨hzx, hzy⟩)

theorem exchanged_onions (x y : Submission) (subs : List Submission) (ch : Nat) :
    (onChain (exchanged x y subs) ch).map (·.onion) = (onChain subs ch).map (·.onion) := by
  unfold exchanged onChain
  rw [List.filter_map, List.map_map]
  have e1 : ((fun z : Submission => decide (z.chain = ch)) ∘ fun z => if z = x then { x with msg := y.msg } else if z = y then { y with msg := x.msg } else z) =
      fun z => decide (z.chain = ch) := by
    funext z
    simp only [Function.comp]
    split
    · next hz => rw [hz]
    · split
      · next hz => rw [hz]
      · rfl
  rw [e1]
  refine List.map_congr_left fun z _ => ?_
  simp only [Function.comp]
  split
  · next hz => rw [hz]
  · split
    · next hz => rw [hz]
    · rfl

end
end Resmix.System
