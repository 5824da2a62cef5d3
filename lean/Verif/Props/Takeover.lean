import Verif.Props.Config
import Verif.Model.Onion
set_option autoImplicit false
/-
C134: when a server fails, the others take over its round keys (config/config.go, tibe/vss_ibe.go).
-/
namespace Resmix.Config
open Tibe Onion

/-- `votes` are what the servers `voters` vote on the round key of `target` for `round`. -/
def VotesFor (B : Bls) (S : Sha3) (target : ServerConfig) (round : Nat) (voters : List ServerConfig) (votes : List (Vote B)) : Prop :=
  List.Forall₂ (fun sc v => ∃ n, CreateTIBENode B sc (.ok n) ∧ n.vote target.hostname (computeId S target.hostname round) = .ok v) voters votes

/-- C134, what holds: `Threshold + 1` or more servers (the Threshold of the configurations is degree+1) vote on the round key of a server, which need not be among them. Every
server accepts the votes, and reconstructs the key: it decrypts what was encrypted for that server in that round, and treats every onion as that server would. -/
theorem C134_takeover_partial (B : Bls) (S : Sha3) (addrs : List Str) (d : Nat) (dkg : Poly) (polys : List Poly) (cs : List ServerConfig)
    (h : Created B addrs d dkg polys cs) (target at_ : ServerConfig) (ht : target ∈ cs) (ha : at_ ∈ cs)
    (tnode anode : Node B) (htn : CreateTIBENode B target (.ok tnode)) (han : CreateTIBENode B at_ (.ok anode)) (round : Nat)
    (voters : List ServerConfig) (hv : ∀ sc ∈ voters, sc ∈ cs) (hnd : (voters.map fun sc => sc.hostname).Nodup)
    (hlen : at_.threshold + 1 ≤ voters.length) (votes : List (Vote B)) (hvotes : VotesFor B S target round voters votes) :
    ∃ key, anode.reconstructDecrypter target.hostname votes = .ok key ∧
      (∀ onion, peel key onion = peel (tnode.decrypter (computeId S target.hostname round)) onion) ∧
      ∀ (sender : ServerConfig) (snode : Node B), sender ∈ cs → CreateTIBENode B sender (.ok snode) → ∀ (r : Fr) (iv msg : Bytes), iv.length = 16 →
        ∃ c, snode.encryptFor r iv target.hostname (computeId S target.hostname round) msg = .ok c ∧ (decrypt key c).1 = .ok msg := by
  have hthr : at_.threshold = d + 1 := by
    obtain ⟨j, hj⟩ := List.mem_iff_getElem?.1 ha
    exact (h.inv.2 j at_ hj).thr
  obtain ⟨-, hrec⟩ := C39_votes_reconstruct B addrs d dkg polys cs h target at_ ht ha tnode anode htn han _ voters hv hnd (by omega) votes hvotes
  exact ⟨_, hrec, fun _ => rfl, fun sender snode hs hsn r iv msg hiv =>
    C39_encrypt_decrypt B addrs d dkg polys cs h sender target hs ht snode tnode hsn htn r iv _ msg hiv⟩

/-- Fewer than degree+2 votes, whatever they are, give no key. -/
theorem few_votes_refused {B : Bls} {addrs : List Str} {d : Nat} {dkg : Poly} {polys : List Poly} {cs : List ServerConfig}
    (h : Created B addrs d dkg polys cs) {target at_ : ServerConfig} (ht : target ∈ cs) (ha : at_ ∈ cs)
    {anode : Node B} (han : CreateTIBENode B at_ (.ok anode)) (votes : List (Vote B)) (hlen : votes.length < d + 2) :
    ∃ m, anode.reconstructDecrypter target.hostname votes = .error (.err .unknown m) := by
  obtain ⟨j, hj⟩ := List.mem_iff_getElem?.1 ht
  obtain ⟨a, hja⟩ := List.mem_iff_getElem?.1 ha
  obtain ⟨p, an, hp', -, h1, -, -, -, hsh⟩ := h.node hja han
  injection h1 with h1; subst h1
  have hjl : j < polys.length := by rw [h.one_poly_each, ← h.inv.1]; exact (List.getElem?_eq_some_iff.1 hj).1
  have hpl : polys[j].coefs.length = d + 1 := h.degree _ (List.mem_cons_of_mem _ (List.getElem_mem hjl))
  have hne : polys[j].coefs ≠ [] := by intro h0; rw [h0] at hpl; simp at hpl
  have hhold := holds_of_lookup hne (hsh j _ _ (List.getElem?_eq_getElem hjl) (h.inv.2 j target hj).host)
  exact C33_errors B _ anode _ hhold votes (Or.inl (by simp only [Poly.threshold]; omega))

/-- C134 fails: the votes of as many servers as the configured Threshold says are refused, honest though they are; nobody gets a key from them. -/
theorem C134_threshold_votes_refuted (B : Bls) (S : Sha3) (addrs : List Str) (d : Nat) (dkg : Poly) (polys : List Poly) (cs : List ServerConfig)
    (h : Created B addrs d dkg polys cs) (target at_ : ServerConfig) (ht : target ∈ cs) (ha : at_ ∈ cs)
    (anode : Node B) (han : CreateTIBENode B at_ (.ok anode)) (round : Nat)
    (voters : List ServerConfig) (hlen : voters.length = at_.threshold) (votes : List (Vote B)) (hvotes : VotesFor B S target round voters votes) :
    ∃ m, anode.reconstructDecrypter target.hostname votes = .error (.err .unknown m) := by
  obtain ⟨a, hja⟩ := List.mem_iff_getElem?.1 ha
  have hthr : at_.threshold = d + 1 := (h.inv.2 a at_ hja).thr
  exact few_votes_refused h ht ha han votes (by rw [← hvotes.length_eq]; omega)

/-- C134 fails in systems of `Threshold + 1` servers: when one of them fails, the votes of all that are left (there are Threshold of them) are refused, so that nothing
that was encrypted for the failed server can be decrypted any more. In a system of Threshold servers no vote of any servers is of use. -/
theorem C134_one_failure_refuted (B : Bls) (S : Sha3) (addrs : List Str) (d : Nat) (dkg : Poly) (polys : List Poly) (cs : List ServerConfig)
    (h : Created B addrs d dkg polys cs) (target at_ : ServerConfig) (ht : target ∈ cs) (ha : at_ ∈ cs)
    (anode : Node B) (han : CreateTIBENode B at_ (.ok anode)) (round : Nat)
    (voters : List ServerConfig) (hv : ∀ sc ∈ voters, sc ∈ cs) (hnd : (voters.map fun sc => sc.hostname).Nodup) (votes : List (Vote B))
    (hvotes : VotesFor B S target round voters votes)
    (hsize : addrs.length = at_.threshold + 1 ∧ target ∉ voters ∨ addrs.length = at_.threshold) :
    ∃ m, anode.reconstructDecrypter target.hostname votes = .error (.err .unknown m) := by
  obtain ⟨a, hja⟩ := List.mem_iff_getElem?.1 ha
  have hthr : at_.threshold = d + 1 := (h.inv.2 a at_ hja).thr
  have hlen : cs.length = addrs.length := h.inv.1
  have hndv : voters.Nodup := List.Nodup.of_map _ hnd
  have : voters.length < d + 2 := by
    rcases hsize with ⟨hs, hnot⟩ | hs
    · have := (List.subperm_of_subset (List.nodup_cons.2 ⟨hnot, hndv⟩) (List.cons_subset.2 ⟨ht, hv⟩)).length_le
      rw [List.length_cons] at this; omega
    · have := (List.subperm_of_subset hndv hv).length_le
      omega
  exact few_votes_refused h ht ha han votes (by rw [← hvotes.length_eq]; exact this)

/-- Three servers with polynomials of degree 1 (so Threshold = 2): the system exists, and when the third one fails, the other two are Threshold many and not enough. -/
example : ∃ cs a b c, Created Bls.toy [[97], [98], [99]] 1 ⟨[5, 3]⟩ [⟨[7, 1]⟩, ⟨[8, 2]⟩, ⟨[9, 4]⟩] cs ∧ cs = [a, b, c] ∧ a.threshold = 2 ∧
    ([a, b].map fun sc => sc.hostname).Nodup ∧ c ∉ [a, b] ∧ [[97], [98], [99]].length = a.threshold + 1 := by
  obtain ⟨cs, hc, hh, _⟩ := C39_all_built Bls.toy [[97], [98], [99]] 1 ⟨[5, 3]⟩ [⟨[7, 1]⟩, ⟨[8, 2]⟩, ⟨[9, 4]⟩]
    (by decide) (by decide) (by decide) (by decide) (by simp)
  have hl := congrArg List.length hh
  rw [List.length_map] at hl
  obtain ⟨a, b, c, rfl⟩ := List.length_eq_three.1 hl
  have ht : a.threshold = 2 := (hc.inv.2 0 a rfl).thr
  simp only [List.map_cons, List.map_nil, List.cons.injEq, and_true] at hh
  obtain ⟨h1, h2, h3⟩ := hh
  refine ⟨_, a, b, c, hc, rfl, ht, by simp [h1, h2], ?_, by rw [ht]; rfl⟩
  intro hm
  simp only [List.mem_cons, List.not_mem_nil, or_false] at hm
  rcases hm with rfl | rfl
  · rw [h3] at h1; cases h1
  · rw [h3] at h2; cases h2

/-- The servers of a created system can all vote, on every server and round. -/
example (B : Bls) (S : Sha3) (addrs : List Str) (d : Nat) (dkg : Poly) (polys : List Poly) (cs : List ServerConfig)
    (h : Created B addrs d dkg polys cs) (target : ServerConfig) (ht : target ∈ cs) (round : Nat) (voters : List ServerConfig) (hv : ∀ sc ∈ voters, sc ∈ cs) :
    ∃ votes, VotesFor B S target round voters votes := by
  induction voters with
  | nil => exact ⟨[], .nil⟩
  | cons sc l ih =>
    obtain ⟨votes, hvs⟩ := ih (fun x hx => hv x (List.mem_cons_of_mem _ hx))
    obtain ⟨a, hja⟩ := List.mem_iff_getElem?.1 (hv sc List.mem_cons_self)
    obtain ⟨j, hj⟩ := List.mem_iff_getElem?.1 ht
    have hjl : j < polys.length := by rw [h.one_poly_each, ← h.inv.1]; exact (List.getElem?_eq_some_iff.1 hj).1
    have hres : CreateTIBENode B sc (createTIBENode B sc sc.ibe.vssExponentPolynomials) := ⟨_, List.Perm.refl _, rfl⟩
    obtain ⟨p, n, -, -, h1, -, -, -, hsh⟩ := h.node hja hres
    have hlk := hsh j _ _ (List.getElem?_eq_getElem hjl) (h.inv.2 j target hj).host
    have hvt : ∃ v, n.vote target.hostname (computeId S target.hostname round) = .ok v := by
      unfold Node.vote
      rw [hlk]; exact ⟨_, rfl⟩
    obtain ⟨v, hvt⟩ := hvt
    exact ⟨v :: votes, .cons ⟨n, h1 ▸ hres, hvt⟩ hvs⟩

end Resmix.Config
