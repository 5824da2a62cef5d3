import Verif.Props.Onion
set_option autoImplicit false
/-
C149: with which keys a client's message generator is made.
-/
namespace Resmix.Onion
open Tibe Config
variable {B : Bls}

theorem addMpk_fold (l : GoMap Str Bytes) (acc : GoMap Str B.G1) (hn : (l.map Prod.fst).Nodup) :
    (∃ mp : GoMap Str B.G1, l.foldlM (addMpk B) acc = .ok mp ∧ (∀ e ∈ l, ∃ x, B.g1SetBytes e.2 = .ok x ∧ mp.lookup e.1 = some x) ∧
      ∀ a, a ∉ l.map Prod.fst → mp.lookup a = acc.lookup a) ∨
    (l.foldlM (addMpk B) acc = .error .panic ∧ ∃ e ∈ l, ∀ x, B.g1SetBytes e.2 ≠ .ok x) := by
  induction l generalizing acc with
  | nil => exact .inl ⟨acc, rfl, (fun e he => by cases he), fun a _ => rfl⟩
  | cons e l ih =>
    rw [List.map_cons, List.nodup_cons] at hn
    cases hx : B.g1SetBytes e.2 with
    | error f =>
      refine .inr ⟨?_, e, List.mem_cons_self, fun x h => by rw [hx] at h; cases h⟩
      have : addMpk B acc e = .error .panic := by unfold addMpk; rw [hx]
      rw [List.foldlM_cons, this]; rfl
    | ok x =>
      have : addMpk B acc e = .ok (acc.insert e.1 x) := by unfold addMpk; rw [hx]
      rw [List.foldlM_cons, this]
      rcases ih (acc.insert e.1 x) hn.2 with ⟨mp, h1, h2, h3⟩ | ⟨h1, e', he', h2⟩
      · refine .inl ⟨mp, h1, ?_, ?_⟩
        · intro e' he'
          rcases List.mem_cons.1 he' with rfl | he'
          · exact ⟨x, hx, by rw [h3 _ hn.1, GoMap.lookup_insert_self]⟩
          · exact h2 e' he'
        · intro a ha
          rw [List.map_cons, List.mem_cons, not_or] at ha
          rw [h3 a ha.2, GoMap.lookup_insert_ne _ _ ha.1]
      · exact .inr ⟨h1, e', List.mem_cons_of_mem _ he', h2⟩

/-- C149. Whatever configurations a client is given and in whatever order the map of keys is walked: either NewMessageGenerator gives a generator that has, for every server named in the
first configuration, the key that this configuration's bytes encode, and for no other server one; or it panics, and then there is no configuration, or a server whose key is malformed. The
first case occurs exactly if there is a configuration and all its keys are well-formed. -/
theorem C149_all_keys_or_none (t : Topology) (cs : List ServerConfig) (hn : ∀ c ∈ cs.head?, (c.ibe.nodeToMasterPublicKey.map Prod.fst).Nodup)
    (res : Go (Generator B)) (h : NewGenerator B t cs res) :
    ((∃ c ∈ cs.head?, ∀ a k, c.ibe.nodeToMasterPublicKey.lookup a = some k → ∃ x, B.g1SetBytes k = .ok x) →
      ∃ c ∈ cs.head?, ∃ g, res = .ok g ∧ g.topo = t ∧ (∀ a k, c.ibe.nodeToMasterPublicKey.lookup a = some k → ∃ x, B.g1SetBytes k = .ok x ∧ g.mpks.lookup a = some x) ∧
        ∀ a, c.ibe.nodeToMasterPublicKey.lookup a = none → g.mpks.lookup a = none) ∧
    (¬ (∃ c ∈ cs.head?, ∀ a k, c.ibe.nodeToMasterPublicKey.lookup a = some k → ∃ x, B.g1SetBytes k = .ok x) → res = .error .panic) := by
  cases cs with
  | nil => exact ⟨fun ⟨c, hc, _⟩ => by simp at hc, fun _ => h⟩
  | cons c cs =>
    have hn := hn c (by simp)
    obtain ⟨order, ho, rfl⟩ := h
    have hno := GoMap.nodup_perm ho.symm hn
    have hmem : ∀ a k, c.ibe.nodeToMasterPublicKey.lookup a = some k ↔ (a, k) ∈ order := fun a k =>
      ⟨fun h => ho.symm.mem_iff.1 (GoMap.lookup_mem h), fun h => GoMap.mem_lookup hn (ho.mem_iff.1 h)⟩
    rcases addMpk_fold (B := B) order [] hno with ⟨mp, h1, h2, h3⟩ | ⟨h1, e, he, h2⟩
    · refine ⟨fun _ => ⟨c, by simp, ⟨t, mp⟩, ?_, rfl, ?_, ?_⟩, fun hx => absurd ⟨c, by simp, ?_⟩ hx⟩
      · unfold newGenerator; rw [h1]; rfl
      · intro a k hak
        obtain ⟨x, hx, hl⟩ := h2 (a, k) ((hmem a k).1 hak)
        exact ⟨x, hx, hl⟩
      · intro a ha
        rw [h3 a ?_]; · rfl
        intro hm
        obtain ⟨⟨a', k⟩, he, rfl⟩ := List.mem_map.1 hm
        rw [(hmem a' k).2 he] at ha; cases ha
      · intro a k hak
        obtain ⟨x, hx, _⟩ := h2 (a, k) ((hmem a k).1 hak)
        exact ⟨x, hx⟩
    · refine ⟨fun ⟨c', hc', hx⟩ => ?_, fun _ => by unfold newGenerator; rw [h1]; rfl⟩
      simp only [List.head?_cons, Option.mem_def, Option.some.injEq] at hc'
      subst hc'
      obtain ⟨x, hx⟩ := hx e.1 e.2 ((hmem _ _).2 he)
      exact absurd hx (h2 x)

/-- A configuration with the given keys. -/
def exConfig (keys : GoMap Str Bytes) : ServerConfig := ⟨[97], 0, 1, [], [], ⟨[], [], [], keys⟩⟩

/-- Both cases occur: two well-formed keys; and a second key that is too short. -/
example (t : Topology) (res res' : Go (Generator Bls.toy)) (h : NewGenerator Bls.toy t [exConfig [([97], Bls.toy.g1Bytes (3 : Fr)), ([98], Bls.toy.g1Bytes (4 : Fr))]] res)
    (h' : NewGenerator Bls.toy t [exConfig [([97], Bls.toy.g1Bytes (3 : Fr)), ([98], [1, 2])]] res') :
    (∃ g, res = .ok g ∧ g.mpks.lookup [98] = some (4 : Fr)) ∧ res' = .error .panic := by
  constructor
  · obtain ⟨c, hc, g, h1, _, h2, _⟩ := (C149_all_keys_or_none t _ (by simp [exConfig]) res h).1 ⟨_, rfl, by
      intro a k hk
      have hm := GoMap.lookup_mem hk
      simp only [exConfig, List.mem_cons, Prod.mk.injEq, List.not_mem_nil, or_false] at hm
      rcases hm with ⟨_, rfl⟩ | ⟨_, rfl⟩
      · exact ⟨_, Bls.toy.g1SetBytes_bytes _⟩
      · exact ⟨_, Bls.toy.g1SetBytes_bytes _⟩⟩
    simp only [List.head?_cons, Option.mem_def, Option.some.injEq] at hc
    subst hc
    obtain ⟨x, hx, hl⟩ := h2 [98] (Bls.toy.g1Bytes (4 : Fr)) rfl
    have hx' := (Bls.toy.g1SetBytes_bytes (4 : Fr)).symm.trans hx
    cases hx'
    exact ⟨g, h1, hl⟩
  · refine (C149_all_keys_or_none t _ (by simp [exConfig]) res' h').2 ?_
    rintro ⟨c, hc, hx⟩
    simp only [List.head?_cons, Option.mem_def, Option.some.injEq] at hc
    subst hc
    obtain ⟨x, hx⟩ := hx [98] [1, 2] rfl
    obtain ⟨m, hm⟩ := Bls.toy.g1SetBytes_short [1, 2] (by decide)
    rw [hm] at hx
    cases hx

end Resmix.Onion
